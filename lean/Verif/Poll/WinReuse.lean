import Verif.Poll.WinDefects
import Verif.Poll.WinOps

/-!
# Sockets that come and go, and objects of every kind: the poller for Windows
-/

namespace Verif.Poll.Win

open Table (dataInner)
open Spec (Req)

/-! ## How objects are made -/

/-- `sc_sock_init`, socket/sc_sock.c:240-252 -/
def sockInit : Fdt := ⟨INVALID, NONE, none, none⟩

/-- `s->fdt.fd = fd` in `sc_sock_connect` and `sc_sock_listen`, socket/sc_sock.c:350, 382, 459, 558 -/
def opened (fd : Int) (f : Fdt) : Fdt := { f with fd := fd }

/-- `sc_sock_accept`, socket/sc_sock.c:707-708: `poll_data` and `op_index` stay as they are. -/
def accepted (fd : Int) (f : Fdt) : Fdt := { f with fd := fd, op := NONE }

/-- `sc_sock_pipe_init`, socket/sc_sock.c:878-953: all members are zero but for the descriptor; so `op_index` is 0, not -1. -/
def pipeInit (fd : Int) : Fdt := ⟨fd, NONE, none, some 0⟩

/-- An object that is not registered, as the poller expects it -/
structure Ready (f : Fdt) : Prop where
  op : f.op = NONE
  pd : f.pd = none
  index : f.opIndex = none

/-- Sockets that `sc_sock_init` was called for are ready, however they are opened. -/
theorem sock_ready (fd : Int) : Ready (opened fd sockInit) ∧ Ready (accepted fd sockInit) := ⟨⟨rfl, rfl, rfl⟩, ⟨rfl, rfl, rfl⟩⟩

/-- An object a connection is accepted into is ready whatever events its `op` member names; it does not have to be initialised
for that, but `poll_data` and `op_index` are not touched (see `accept_violated`). -/
theorem accepted_ready (fd : Int) (f : Fdt) : (accepted fd f).fd = fd ∧
    (Ready (accepted fd f) ↔ f.pd = none ∧ f.opIndex = none) :=
  ⟨rfl, fun h => ⟨h.pd, h.index⟩, fun h => ⟨rfl, h.1, h.2⟩⟩

/-- An object that is ready is what `sc_sock_init` and opening leave. -/
theorem Ready.eq {f : Fdt} (h : Ready f) : f = ⟨f.fd, NONE, none, none⟩ := by
  cases f
  obtain ⟨h1, h2, h3⟩ := h
  simp only at h1 h2 h3
  subst h1 h2 h3
  rfl

/-! ## Objects that are closed and opened again

A step from closing to opening again: the poller does not read the descriptor of an object between, as nothing is asked for it then. -/

/-- Histories in which objects are opened again, after they were deregistered, if they are `Ready`, with the descriptors they
have in the end and the requests that were granted -/
inductive Lives (e : Env) (G : Nat → Nat → Prop) : (Nat → Int) → List Req → W → Prop
  | start {fd₀ w} : (∀ j, fd₀ j ≠ INVALID) → start fd₀ = .ok w → Lives e G fd₀ start₀ w
  | step {fd₀ l w o r w'} : Lives e G fd₀ l w → Step e G l w o r w' → Lives e G fd₀ (l ++ r.toList) w'
  | again {fd₀ l w i f} : Lives e G fd₀ l w → i ≠ 0 → Spec.after l i = Spec.nothing → Ready f → f.fd ≠ INVALID →
    Lives e G (fun j => if j = i then f.fd else fd₀ j) l { w with s := w.s.set i f w.s.p }

/-- An object for which nothing is to be waited for is ready. -/
theorem Inv.ready {fd₀ G M p obj os lo} (h : Inv fd₀ G M p obj os lo) {i : Nat} (hm : M i = Spec.nothing) : Ready (obj i) := by
  have h1 : (obj i).opIndex = none := by
    cases hx : (obj i).opIndex with
    | none => rfl
    | some m =>
      obtain ⟨k, o, -, g1, g2, g3⟩ := h.index i m hx
      obtain ⟨j, g4, -, g5, g6, -⟩ := h.parts k o g1 g2
      rw [g3] at g4
      cases g4
      rw [hm] at g6
      exact absurd ((mask_nothing _ (dropEdge_normal _)).1 g6) g5
  have h2 : (obj i).op = NONE := (mask_nothing _ (h.held i).normal).1 (by rw [h.mask i h1]; exact hm)
  exact ⟨h2, (h.held i).none.1 h2, h1⟩

theorem Inv.again {fd₀ G M p obj os lo} (h : Inv fd₀ G M p obj os lo) {i : Nat} (hm : M i = Spec.nothing) {f : Fdt} (hf : Ready f)
    (hfd : f.fd ≠ INVALID) : Inv (fun j => if j = i then f.fd else fd₀ j) G M p (fun j => if j = i then f else obj j) os lo := by
  have hr := h.ready hm
  have pd : ∀ j, (if j = i then f else obj j).pd = (obj j).pd := by
    intro j
    by_cases hj : j = i
    · rw [if_pos hj, hj, hf.pd, hr.pd]
    · rw [if_neg hj]
  have ix : ∀ j, (if j = i then f else obj j).opIndex = (obj j).opIndex := by
    intro j
    by_cases hj : j = i
    · rw [if_pos hj, hj, hf.index, hr.index]
    · rw [if_neg hj]
  have op : ∀ j, (if j = i then f else obj j).op = (obj j).op := by
    intro j
    by_cases hj : j = i
    · rw [if_pos hj, hj, hf.op, hr.op]
    · rw [if_neg hj]
  refine ⟨h.wf, ?_, ?_, ?_, ?_, h.fullsInj, ?_, ?_, ?_, ?_, ?_⟩
  · intro j
    by_cases hj : j = i
    · rw [if_pos hj, if_pos hj]
    · rw [if_neg hj, if_neg hj]; exact h.fd j
  · intro j
    by_cases hj : j = i
    · rw [if_pos hj]
      refine ⟨by rw [hf.op]; show NONE ≠ EDGE; decide, hfd, ⟨fun _ => hf.pd, fun _ => hf.op⟩, fun hc => absurd hf.op hc⟩
    · rw [if_neg hj]; exact h.held j
  · intro a b
    rw [pd, pd]; exact h.inj a b
  · intro k o h1 h2
    obtain ⟨a, q, g1, g2, g3⟩ := h.fulls k o h1 h2
    exact ⟨a, q, g1, g2, fun j => by rw [pd]; exact g3 j⟩
  · intro a q hq
    rcases h.owned a q hq with ⟨j, g⟩ | g
    · exact .inl ⟨j, by rw [pd]; exact g⟩
    · exact .inr g
  · intro k o h1 h2
    obtain ⟨j, g1, g2, g3⟩ := h.parts k o h1 h2
    exact ⟨j, g1, by rw [ix]; exact g2, by rw [op]; exact g3⟩
  · intro j m
    rw [ix]; exact h.index j m
  · intro j
    rw [ix, op]; exact h.mask j
  · intro j a s c
    rw [pd]; exact h.data j a s c

theorem WInv.again {fd₀ G l w} (h : WInv fd₀ G l w) {i : Nat} (hi : i ≠ 0) (hm : Spec.after l i = Spec.nothing) {f : Fdt} (hf : Ready f)
    (hfd : f.fd ≠ INVALID) : WInv (fun j => if j = i then f.fd else fd₀ j) G l { w with s := w.s.set i f w.s.p } := by
  refine ⟨h.inv.again hm hf hfd, h.idle, h.phase, h.rem, h.off, h.busy, h.zero, h.got, h.back, ?_, h.wake, h.ready⟩
  show _ ∧ _ ∧ _
  simp only [Sys.set, if_neg (Ne.symm hi)]
  exact h.pipe

theorem lives_ok {e : Env} (he : ∀ n, e.alloc n = true) {G fd₀ l w} (h0 : G 0 0) (h : Lives e G fd₀ l w) : WInv fd₀ G l w := by
  induction h with
  | start hfd hs =>
    obtain ⟨w₁, h1, h2, -⟩ := start_ok _ hfd G h0
    rw [hs] at h1
    cases h1
    exact h2
  | step _ hs ih => exact step_ok he ih hs
  | again _ hi hm hf hfd ih => exact ih.again hi hm hf hfd

/-- **C108**, in part, on Windows: objects are closed and opened again any number of times, while other threads ask for others and one
polls; between waits the system is asked for exactly what was asked for, of the descriptors the objects have now. An object has to be deregistered
before it is closed; left out is what `Step` and `Allowed` leave out. Missing: objects that are closed while registered, see
`reopened_violated`, and pollers destroyed while objects are registered, see `gone_violated`. -/
theorem reuse_partial {e : Env} (he : ∀ n, e.alloc n = true) {G fd₀ l w} (h0 : G 0 0) (h : Lives e G fd₀ l w) (hi : w.ph = .idle) :
    (∀ j, (w.s.obj j).fd = fd₀ j) ∧ (∀ j, (w.s.obj j).op.mask = Spec.after l j) ∧ ∃ slot, Registered fd₀ G (Spec.after l) w.s.p slot := by
  have hw := lives_ok he h0 h
  have inv := hw.inv
  rw [hw.idle (hw.phase.1 hi)] at inv
  obtain ⟨h1, slot, h2, -⟩ := inv.registered
  exact ⟨inv.fd, h1, slot, h2⟩

/-! ## Objects that are closed while they are registered -/

/-- The poller does not look at the descriptor of an object that says it is registered... -/
theorem addNow_fd (e : Env) (evs : Bits) (d : Nat) (fd : Int) (f : Fdt) (p : P) (h : f.op ≠ NONE) :
    addNow e evs d (opened fd f) p = (do
      let (rc, f, p) ← addNow e evs d f p
      .ok (rc, opened fd f, p)) := by
  obtain ⟨fd', op, pd, ix⟩ := f
  unfold addNow opened
  simp only at h
  simp only [if_neg h]
  by_cases h1 : op = dropEdge (op ||| evs)
  · rw [if_pos h1, if_pos h1]; rfl
  · rw [if_neg h1, if_neg h1]
    cases pd with
    | none => rfl
    | some a =>
      simp only
      cases getCell p a with
      | ub => rfl
      | ok c =>
        simp only [Res.ok_bind]
        unfold addEnd
        cases getSlot p c.index with
        | ub => rfl
        | ok s =>
          simp only [Res.ok_bind]
          cases setSlot p c.index _ with
          | ub => rfl
          | ok p1 =>
            simp only [Res.ok_bind]
            cases getCell p1 a with
            | ub => rfl
            | ok c1 =>
              simp only [Res.ok_bind]
              cases setCell p1 a _ with
              | ub => rfl
              | ok p2 => rfl

/-- ... and never when it is deregistered. -/
theorem delNow_fd (evs : Bits) (d : Nat) (fd : Int) (f : Fdt) (p : P) :
    delNow evs d (opened fd f) p = (do
      let (rc, f, p) ← delNow evs d f p
      .ok (rc, opened fd f, p)) := by
  obtain ⟨fd', op, pd, ix⟩ := f
  unfold delNow opened
  simp only
  by_cases h1 : op &&& evs = 0
  · rw [if_pos h1, if_pos h1]; rfl
  · rw [if_neg h1, if_neg h1]
    by_cases h2 : dropEdge (op &&& ~~~evs) = NONE
    · rw [if_pos h2, if_pos h2]
      cases delFull pd p with
      | ub => rfl
      | ok p1 => rfl
    · rw [if_neg h2, if_neg h2]
      cases pd with
      | none => rfl
      | some a =>
        simp only
        cases getCell p a with
        | ub => rfl
        | ok c =>
          simp only [Res.ok_bind]
          cases getSlot p c.index with
          | ub => rfl
          | ok s =>
            simp only [Res.ok_bind]
            cases setSlot p c.index _ with
            | ub => rfl
            | ok p1 =>
              simp only [Res.ok_bind]
              cases setCell p1 a _ with
              | ub => rfl
              | ok p2 => rfl

/-- Requests for one object that leave something to wait for, between waits -/
inductive Asks (e : Env) (f₀ : Fdt) (p₀ : P) : Fdt → P → Prop
  | refl : Asks e f₀ p₀ f₀ p₀
  | add {f p evs d rc f' p'} : Asks e f₀ p₀ f p → addNow e evs d f p = .ok (rc, f', p') → Asks e f₀ p₀ f' p'
  | del {f p evs d rc f' p'} : Asks e f₀ p₀ f p → delNow evs d f p = .ok (rc, f', p') → f'.op ≠ NONE → Asks e f₀ p₀ f' p'

/-- What is asked of the object with its new descriptor is asked as if it had the old one. -/
theorem asks_old {e : Env} (he : ∀ n, e.alloc n = true) {f₀ : Fdt} {p₀ : P} (hw : ∃ ev k, Wf p₀ ev k) (h : Held p₀ f₀) (h0 : f₀.op ≠ NONE)
    {fd : Int} {f : Fdt} {p : P} (r : Asks e (opened fd f₀) p₀ f p) :
    ∃ g, f = opened fd g ∧ (∃ ev k, Wf p ev k) ∧ Held p g ∧ g.op ≠ NONE ∧ g.fd = f₀.fd := by
  induction r with
  | refl => exact ⟨f₀, rfl, hw, h, h0, rfl⟩
  | @add f p evs d rc f' p' r hr ih =>
    obtain ⟨g, rfl, ⟨ev, k, h1⟩, h2, h3, h4⟩ := ih
    rw [addNow_fd e evs d fd g p h3] at hr
    obtain ⟨g', q', ev', k', k1, k2, -, k3, k4, k5, k6, -⟩ := addNow_ok he h1 h2 (fun hc => absurd hc h3) evs d
    rw [k1] at hr
    cases hr
    refine ⟨g', rfl, ⟨ev', k', k2⟩, k3, ?_, k4.trans h4⟩
    rw [k6]
    by_cases hs : g.op = dropEdge (g.op ||| evs)
    · rw [← hs]; exact h3
    · exact or_edge hs h2.normal
  | @del f p evs d rc f' p' r hr hne ih =>
    obtain ⟨g, rfl, ⟨ev, k, h1⟩, h2, h3, h4⟩ := ih
    rw [delNow_fd evs d fd g p] at hr
    obtain ⟨g', q', ev', k1, k2, -, k3, k4, k5, k6, -⟩ := delNow_ok h1 h2 evs d
    rw [k1] at hr
    cases hr
    exact ⟨g', rfl, ⟨ev', k, k2⟩, k3, hne, k4.trans h4⟩

/-- **C108 is violated** on Windows by every object that is closed while it is registered and opened again: whatever is asked for then, the
system is asked to wait for the descriptor that was closed. -/
theorem reopened_violated {e : Env} (he : ∀ n, e.alloc n = true) {G fd₀ l w} (h0 : G 0 0) (h : Lives e G fd₀ l w) {i : Nat}
    (hop : (w.s.obj i).op ≠ NONE) {fd : Int} {f : Fdt} {p : P} (r : Asks e (opened fd (w.s.obj i)) w.s.p f p) :
    f.fd = fd ∧ ∃ k s c, f.pd = some (dataInner k) ∧ entry p k = some (s, c) ∧ s.fd = fd₀ i ∧ s.ev = some (pollBits f.op) := by
  have hw := lives_ok he h0 h
  obtain ⟨g, rfl, -, h3, h4, h5⟩ := asks_old he hw.inv.wf (hw.inv.held i) hop r
  obtain ⟨k, s, c, ho⟩ := h3.owns h4
  exact ⟨rfl, k, s, c, ho.pd, ho.entry, by rw [ho.fd, h5, hw.inv.fd i], ho.ev⟩

/-! ## Pollers that are destroyed -/

/-- `sc_sock_poll_term`, socket/sc_sock.c:1582-1611, of a poller that was made and that nobody uses: the wakeup pipe is deregistered, and all
memory released. -/
def term (e : Env) (s : Sys) : Res Sys := do
  let (_, _, s) ← del e READ 0 0 s
  .ok { s with p := { s.p with chunks := List.replicate 16 none, events := none, cap := 0, count := 0 } }

/-- **C108 is violated** on Windows by every object that is registered when its poller is destroyed: it refers to memory that was released.
To send or receive what would block, to deregister it or to register it for more is undefined. -/
theorem gone_violated {e : Env} {f : Fdt} {p : P} {a : Nat × Nat} (hc : p.chunks = List.replicate 16 none) (hf : f.pd = some a) :
    (∀ b, rearm b f p = .ub) ∧ (∀ evs d, f.op ≠ NONE → f.op ≠ dropEdge (f.op ||| evs) → addNow e evs d f p = .ub) ∧
    (∀ evs d, f.op &&& evs ≠ 0 → delNow evs d f p = .ub) := by
  have hg : getCell p a = .ub := by
    unfold getCell
    rw [hc]
    by_cases h : a.1 < 16
    · have : rd (List.replicate 16 (none : Option (List (Option PData)))) a.1 = .ok none := by
        unfold rd
        rw [List.getElem?_replicate, if_pos h]
      rw [this]; rfl
    · have : rd (List.replicate 16 (none : Option (List (Option PData)))) a.1 = .ub := by
        unfold rd
        rw [List.getElem?_replicate, if_neg h]
      rw [this]; rfl
  refine ⟨?_, ?_, ?_⟩
  · intro b
    unfold rearm
    rw [hf]
    simp only
    rw [hg]; rfl
  · intro evs d h1 h2
    unfold addNow
    simp only
    rw [if_neg h2, if_neg h1, hf]
    simp only
    rw [hg]; rfl
  · intro evs d h1
    unfold delNow
    simp only
    rw [if_neg h1]
    split
    · rw [hf]
      unfold delFull
      simp only
      rw [hg]; rfl
    · rw [hf]
      simp only
      rw [hg]; rfl

theorem term_chunks {e : Env} {s s' : Sys} (h : term e s = .ok s') : s'.p.chunks = List.replicate 16 none ∧ s'.p.events = none := by
  unfold term at h
  obtain ⟨⟨rc, wake, s1⟩, -, h⟩ := bind_eq h
  cases h
  exact ⟨rfl, rfl⟩

/-! ## Objects of every kind -/

/-- **C109 is violated** by pipes: to register or deregister one while a thread polls, and no request is pending, is to write to an operation that is
not there. If the array was never allocated, a null pointer is followed; otherwise the request is written where nobody looks for it. -/
theorem pipe_violated (e : Env) (b : Bool) (evs : Bits) (d i : Nat) (s : Sys) (fd : Int) (ho : s.obj i = pipeInit fd)
    (hp : s.p.polling = true) (h0 : s.p.ops = []) : (if b then add e evs d i s else del e evs d i s) = .ub := by
  have : submit e b evs d i s = .ub := by
    unfold submit
    simp only
    rw [ho]
    simp only [opSlot, pipeInit]
    rw [h0]
    rfl
  cases b with
  | true => unfold add; rw [hp]; exact this
  | false => unfold del; rw [hp]; exact this

/-- **C109 is violated** by sockets from `sc_sock_accept` for which `sc_sock_init` was not called: their memory may have any number `k` in the place of
`op_index`. -/
theorem accept_violated (e : Env) (b : Bool) (evs : Bits) (d i : Nat) (s : Sys) (fd : Int) (f : Fdt) (k : Nat) (hf : f.opIndex = some k)
    (ho : s.obj i = accepted fd f) (hp : s.p.polling = true) (h0 : s.p.ops.length ≤ k) : (if b then add e evs d i s else del e evs d i s) = .ub := by
  have : submit e b evs d i s = .ub := by
    unfold submit
    simp only
    rw [ho]
    simp only [opSlot, accepted, hf]
    have : rd s.p.ops k = .ub := by
      unfold rd
      rw [List.getElem?_eq_none h0]
    rw [this]
    rfl
  cases b with
  | true => unfold add; rw [hp]; exact this
  | false => unfold del; rw [hp]; exact this

/-- Objects 1 and 2 are a socket and a pipe. -/
def mixed : Sys := { sys₀ with obj := fun j => if j = 2 then pipeInit 5 else sys₀.obj j }

/-- **C109 is violated**: the request for a pipe takes the place of the first request that another object made while the
poller waits, so that the other is not waited for though its request was granted. -/
theorem pipe_steals_violated : (do
    let (rc, _, s) ← add plenty READ 7 1 (enter mixed)
    let (rc', _, s) ← add plenty READ 8 2 s
    let (_, _, s) ← finish plenty s
    Res.ok (rc, rc', (s.obj 1).op, (s.obj 2).op)) = .ok (0, 0, NONE, READ) := by with_unfolding_all rfl

/-- When nobody polls, a pipe can be registered. -/
theorem pipe_idle : (do
    let (rc, _, s) ← add plenty READ 8 2 mixed
    Res.ok (rc, (s.obj 2).op)) = .ok (0, READ) := by with_unfolding_all rfl

/-! ## An example -/

/-- Object 1 was deregistered in `example_history`; it is opened again, with descriptor 77, and registered. -/
theorem example_lives : ∃ w, Lives plenty any (fun j => if j = 1 then 77 else fds j) (history ++ [.add 1 WRITE.mask]) w ∧ (w.s.obj 1).fd = 77 ∧
    (w.s.obj 1).op = WRITE := by
  have l0 : Lives plenty any fds start₀ ⟨sys₀, .idle, 0, 0⟩ := .start (fun j => by show (3 + (j : Int)) ≠ -1; omega) (by with_unfolding_all rfl)
  have all : ∀ {l w}, Runs plenty any ⟨sys₀, .idle, 0, 0⟩ start₀ l w → Lives plenty any fds l w := by
    intro l w r
    induction r with
    | refl => exact l0
    | step _ hs ih => exact .step ih hs
  have l1 := all example_runs
  rw [List.append_nil] at l1
  have l2 := Lives.again (i := 1) (f := opened 77 sockInit) l1 (by decide) (by funext x; cases x <;> with_unfolding_all decide) (sock_ready 77).1
    (by decide)
  have l3 := l2.step (.add (w := ⟨s₆.set 1 (opened 77 sockInit) s₆.p, .idle, 0, 0⟩) (i := 1) (evs := WRITE) (d := 9) (rc := 0) (wake := false)
    (s := out (add plenty WRITE 9 1 (s₆.set 1 (opened 77 sockInit) s₆.p)))
    ⟨by decide, (fun hc => by cases hc), fun _ _ _ => by decide⟩ trivial (by with_unfolding_all rfl))
  exact ⟨_, l3, by with_unfolding_all rfl, by with_unfolding_all rfl⟩

end Verif.Poll.Win
