import Verif.Poll.WinWorld

/-!
# What the poller for Windows does, for every history

Any number of threads register and deregister objects while one of them waits again and again.
-/

namespace Verif.Poll.Win

open Table (dataInner capacity)
open Spec (Req)

/-- The table made by `sc_sock_poll_init`, socket/sc_sock.c:1531-1552 -/
def blank : P :=
  { count := 0, cap := 16, events := some (List.replicate 16 ⟨INVALID, none, none⟩)
    chunks := some (List.replicate 16 none) :: List.replicate 15 none
    ops := [], opsCap := 0, polling := false, remaining := 0, offset := 0, n := 0 }

/-- Objects that were never registered; number 0 is the reading end of the wakeup pipe. Its `op_index` is 0 and not -1, see `pipeInit`; as nothing is
asked for it while a thread polls, that makes no difference. -/
def fresh (fd₀ : Nat → Int) : Nat → Fdt := fun j => ⟨fd₀ j, NONE, none, none⟩

/-- `sc_sock_poll_init` after its allocations and the wakeup pipe succeeded, socket/sc_sock.c:1561-1566 -/
def start (fd₀ : Nat → Int) : Res W := do
  let (_, _, s) ← add ⟨fun _ => true, fun _ => true⟩ READ 0 0 ⟨blank, fresh fd₀⟩
  match (s.obj 0).pd with
  | none => .ub
  | some a =>
    let c ← getCell s.p a
    cassert (c.index = 0)
    .ok ⟨s, .idle, 0, 0⟩

/-- What is registered from the start -/
def start₀ : List Req := [.add 0 READ.mask]

theorem entry_blank (i : Nat) : entry blank i = none := by
  unfold entry blank
  simp only
  by_cases h : i < 16
  · rw [List.getElem?_replicate, if_pos h]; rfl
  · rw [List.getElem?_replicate, if_neg h]

theorem wf_blank : Wf blank (List.replicate 16 ⟨INVALID, none, none⟩) 0 := by
  refine ⟨⟨rfl, by decide, rfl, rfl, ?_⟩, by decide, ?_⟩
  · refine ⟨rfl, ?_, ?_⟩ <;> intro x
    · intro hx
      have : x = 0 := by omega
      subst this
      exact ⟨_, rfl, rfl⟩
    · intro h1 h2
      match x, h1, h2 with
      | x + 1, _, h2 =>
        show (List.replicate 15 (none : Option (List (Option PData))))[x]? = some none
        rw [List.getElem?_replicate, if_pos (by omega)]
  · intro i s hs hf
    rw [List.getElem?_replicate] at hs
    split at hs
    · cases hs; exact absurd rfl hf
    · cases hs

theorem inv_blank (fd₀ : Nat → Int) (hfd : ∀ j, fd₀ j ≠ INVALID) (G : Nat → Nat → Prop) :
    Inv fd₀ G Spec.start blank (fresh fd₀) [] 0 := by
  refine ⟨⟨_, 0, wf_blank⟩, fun _ => rfl, fun j => ⟨(by show NONE ≠ EDGE; decide), hfd j, ⟨fun _ => rfl, fun _ => rfl⟩, fun h => absurd rfl h⟩, ?_, ?_, ?_, ?_, ?_, ?_, ?_, ?_⟩
  · intro i j h; exact absurd rfl h
  · intro k o h; simp at h
  · intro k k' o o' h; simp at h
  · intro i q h; rw [entry_blank] at h; cases h
  · intro k o h; simp at h
  · intro j m h; cases h
  · intro j _; show NONE.mask = Spec.nothing; funext ev; cases ev <;> decide
  · intro j i s c h; cases h

/-- The table after the wakeup pipe was registered -/
def first (fd : Int) : P :=
  { blank with
    count := 1
    events := some (⟨fd, some READ, some Rev.zero⟩ :: List.replicate 15 ⟨INVALID, none, none⟩)
    chunks := some (some ⟨NONE, 0, 0⟩ :: List.replicate 15 none) :: List.replicate 15 none }

theorem first_add (e : Env) (fd : Int) : addNow e READ 0 ⟨fd, NONE, none, none⟩ blank = .ok (0, ⟨fd, READ, some (dataInner 0), none⟩, first fd) := by with_unfolding_all rfl

/-- The poller starts, its assertion holds, and so does the invariant. -/
theorem start_ok (fd₀ : Nat → Int) (hfd : ∀ j, fd₀ j ≠ INVALID) (G : Nat → Nat → Prop) (h0 : G 0 0) :
    ∃ w, start fd₀ = .ok w ∧ WInv fd₀ G start₀ w ∧ w.ph = .idle := by
  have hi := inv_blank fd₀ hfd G
  obtain ⟨f', p', g1, -, -, -, -, -, g6, g7⟩ := hi.addNow (e := ⟨fun _ => true, fun _ => true⟩) (j := 0) (fun _ => rfl) rfl (fun _ => by decide) READ h0
  have g8 := g7 (fun j => if j = 0 then f' else fresh fd₀ j) (by simp) (by intro j hj; simp [hj])
  have := g1.symm.trans (first_add _ (fd₀ 0))
  cases this
  refine ⟨⟨⟨first (fd₀ 0), fun j => if j = 0 then ⟨fd₀ 0, READ, some (dataInner 0), none⟩ else fresh fd₀ j⟩, .idle, 0, 0⟩, by with_unfolding_all rfl, ?_, rfl⟩
  refine ⟨?_, fun _ => rfl, ⟨fun _ => rfl, fun _ => rfl⟩, Int.le_refl 0, Nat.zero_le _, ?_, ?_, ?_, ?_, ⟨rfl, rfl, rfl⟩, ?_, ?_⟩
  · have hM : Spec.after start₀ = fun j => if j = 0 then (dropEdge ((fresh fd₀ 0).op ||| READ)).mask else Spec.start j := by
      funext j
      show Spec.apply Spec.start (.add 0 READ.mask) j = _
      simp only [Spec.apply]
      by_cases hj : j = 0
      · rw [if_pos hj, if_pos hj]; show Spec.norm ((Spec.start 0).union READ.mask) = (dropEdge (NONE ||| READ)).mask; funext ev; cases ev <;> decide
      · rw [if_neg hj, if_neg hj]
    rw [hM]
    exact g8
  · intro _ hc; exact absurd hc (by show ¬ (0 : Int) < 0; decide)
  · rintro (hc | hc | ⟨n, hc⟩) <;> cases hc
  · intro n hc; cases hc
  · intro hc; cases hc
  · intro hc; cases hc
  · intro n hc; cases hc

/-- The invariant holds in the course of every history. -/
theorem runs_ok {e : Env} (he : ∀ n, e.alloc n = true) {fd₀ G w₀ l₀ l w} (h₀ : WInv fd₀ G l₀ w₀) (hr : Runs e G w₀ l₀ l w) : WInv fd₀ G l w := by
  induction hr with
  | refl => exact h₀
  | step _ hs ih => exact step_ok he ih hs

/-- Histories of a poller: `fd₀` are the descriptors of objects, `G i d` says that data `d` is given for object `i`. Allocations
of entries succeed. `l` are the requests that were granted. -/
structure History (e : Env) (fd₀ : Nat → Int) (G : Nat → Nat → Prop) (l : List Req) (w : W) : Prop where
  alloc : ∀ n, e.alloc n = true
  fd : ∀ j, fd₀ j ≠ INVALID
  pipe : G 0 0
  runs : ∃ w₀, start fd₀ = .ok w₀ ∧ Runs e G w₀ start₀ l w

theorem History.inv {e fd₀ G l w} (h : History e fd₀ G l w) : WInv fd₀ G l w := by
  obtain ⟨w₀, h1, h2⟩ := h.runs
  obtain ⟨w₁, h3, h4, -⟩ := start_ok fd₀ h.fd G h.pipe
  rw [h1] at h3
  cases h3
  exact runs_ok h.alloc h4 h2

/-- The bits for the system -/
def sysBits (m : Spec.Mask) : Bits := (if m .read then READ else NONE) ||| (if m .write then WRITE else NONE)

/-- The array for the system and the table of entries ask for exactly `M`: every object for which something is waited for has
its own entry, with its descriptor, its events, its mode and its data, and every entry in use is one of them. -/
structure Registered (fd₀ : Nat → Int) (G : Nat → Nat → Prop) (M : Spec.State) (p : P) (slot : Nat → Option Nat) : Prop where
  absent : ∀ j, slot j = none ↔ M j = Spec.nothing
  inj : ∀ i j, slot i ≠ none → slot i = slot j → i = j
  given : ∀ j i, slot j = some i → ∃ s c, entry p i = some (s, c) ∧ s.fd = fd₀ j ∧ s.ev = some (sysBits (M j)) ∧
    (c.edge &&& EDGE ≠ 0 ↔ M j .edge = true) ∧ G j c.data
  all : ∀ i q, entry p i = some q → ∃ j, slot j = some i

theorem sysBits_mask (op : Bits) : sysBits op.mask = pollBits op := by
  revert op; decide

theorem edge_mask (op : Bits) : op &&& EDGE ≠ 0 ↔ op.mask .edge = true := by
  revert op; decide

theorem mask_nothing (op : Bits) (h : op.Normal) : op.mask = Spec.nothing ↔ op = NONE := by
  constructor
  · intro hm
    have h1 := congrFun hm .read
    have h2 := congrFun hm .write
    have h3 := congrFun hm .edge
    unfold Bits.Normal at h
    clear hm
    revert op; decide
  · intro hm; subst hm; funext ev; cases ev <;> decide

theorem Inv.registered {fd₀ G M p obj} (inv : Inv fd₀ G M p obj [] 0) :
    (∀ j, (obj j).op.mask = M j) ∧ ∃ slot, Registered fd₀ G M p slot ∧ ∀ j i, slot j = some i → (obj j).pd = some (dataInner i) := by
  have hidx : ∀ j, (obj j).opIndex = none := by
    intro j
    cases hx : (obj j).opIndex with
    | none => rfl
    | some m =>
      obtain ⟨k, o, -, g, -⟩ := inv.index j m hx
      simp at g
  have hm : ∀ j, (obj j).op.mask = M j := fun j => inv.mask j (hidx j)
  refine ⟨hm, ?_⟩
  have hex : ∀ j, ∃ o : Option Nat, (o = none ↔ (obj j).op = NONE) ∧ ∀ i, o = some i → ∃ s c, Owns p (obj j) i s c := by
    intro j
    by_cases h0 : (obj j).op = NONE
    · exact ⟨none, ⟨fun _ => h0, fun _ => rfl⟩, fun i hc => by cases hc⟩
    · obtain ⟨i, s, c, ho⟩ := (inv.held j).owns h0
      exact ⟨some i, ⟨(fun hc => by cases hc), fun hc => absurd hc h0⟩, fun i' hc => by cases hc; exact ⟨s, c, ho⟩⟩
  obtain ⟨slot, hs⟩ := Classical.axiomOfChoice hex
  refine ⟨slot, ⟨?_, ?_, ?_, ?_⟩, fun j i hx => by obtain ⟨s, c, ho⟩ := (hs j).2 i hx; exact ho.pd⟩
  · intro j; rw [(hs j).1, ← hm j]; exact (mask_nothing _ (inv.held j).normal).symm
  · intro i j h1 h2
    cases hx : slot i with
    | none => exact absurd hx h1
    | some k =>
      obtain ⟨s, c, ho⟩ := (hs i).2 k hx
      obtain ⟨s', c', ho'⟩ := (hs j).2 k (h2 ▸ hx)
      exact inv.inj i j (by rw [ho.pd]; exact (fun hc => by cases hc)) (ho.pd.trans ho'.pd.symm)
  · intro j i hx
    obtain ⟨s, c, ho⟩ := (hs j).2 i hx
    refine ⟨s, c, ho.entry, ho.fd.trans (inv.fd j), ?_, ?_, inv.data j i s c ho.pd ho.entry⟩
    · rw [ho.ev, ← hm j, sysBits_mask]
    · rw [ho.edge, ← hm j]; exact edge_mask _
  · intro i q hq
    obtain ⟨j, hj⟩ | ⟨k, o, g, -⟩ := inv.owned i q hq
    · refine ⟨j, ?_⟩
      cases hx : slot j with
      | none =>
        have := (inv.held j).none.1 ((hs j).1.1 hx)
        rw [hj] at this
        cases this
      | some i' =>
        obtain ⟨s, c, ho⟩ := (hs j).2 i' hx
        have := ho.pd
        rw [hj] at this
        rw [inv.addr hq ho.entry (Option.some.inj this)]
    · simp at g

/-- Between waits the system is asked for exactly what the requests that were granted ask for, whether they were made while the
poller waited or not (C72, C74, C100). Left out: see `Step` and `Allowed`; memory for entries is there. -/
theorem interest_partial {e fd₀ G l w} (h : History e fd₀ G l w) (hi : w.ph = .idle) :
    (∀ j, (w.s.obj j).op.mask = Spec.after l j) ∧ ∃ slot, Registered fd₀ G (Spec.after l) w.s.p slot := by
  have hw := h.inv
  have inv := hw.inv
  rw [hw.idle (hw.phase.1 hi)] at inv
  obtain ⟨h1, slot, h2, -⟩ := inv.registered
  exact ⟨h1, slot, h2⟩

/-- Requests made while the poller waits have the effect of requests made between waits: only what was asked for, object by
object, matters (C74). -/
theorem deferred_eq_partial {e e' fd₀ G l w w'} (h : History e fd₀ G l w) (h' : History e' fd₀ G l w') (hi : w.ph = .idle) (hi' : w'.ph = .idle) (j : Nat) :
    (w.s.obj j).op = (w'.s.obj j).op := by
  have h1 := (interest_partial h hi).1 j
  have h2 := (interest_partial h' hi').1 j
  have : (w.s.obj j).op.mask = (w'.s.obj j).op.mask := by rw [h1, h2]
  have e1 := congrFun this .read
  have e2 := congrFun this .write
  have e3 := congrFun this .edge
  generalize (w.s.obj j).op = a at *
  generalize (w'.s.obj j).op = b at *
  clear this h1 h2
  revert a b
  decide

/-- No call is undefined, in any history (memory for entries is there; requests as in `Allowed`). -/
theorem no_ub_partial {e fd₀ G l w} (h : History e fd₀ G l w) :
    (∀ i evs d, Allowed l w true i evs → G i d → (add e evs d i w.s).Defined) ∧
    (∀ i evs d, Allowed l w false i evs → G i d → (del e evs d i w.s).Defined) ∧
    (∀ i b, b = READ ∨ b = WRITE → (rearm b (w.s.obj i) w.s.p).Defined) ∧
    (∀ revs, (polled revs w.s.p).Defined) ∧
    (∀ n : Nat, w.ph = .got n → (eventInner 0 { w.s.p with remaining := (n : Int) }).Defined) ∧
    (∀ ok, w.ph = .back ok → w.s.p.count + w.s.p.ops.length ≤ 524288 → (finish e w.s).Defined) ∧
    (w.ph = .idle → 0 < w.s.p.remaining → 1 ≤ w.s.p.offset ∧ (fill w.s.p).Defined) := by
  have hw := h.inv
  obtain ⟨ev, k, wf⟩ := hw.inv.wf
  refine ⟨?_, ?_, ?_, ?_, ?_, ?_, ?_⟩
  · intro i evs d ha hg
    obtain ⟨rc, wake, s, g, -⟩ := request_ok h.alloc hw true ha hg
    rw [if_pos rfl] at g
    exact ⟨_, g⟩
  · intro i evs d ha hg
    obtain ⟨rc, wake, s, g, -⟩ := request_ok h.alloc hw false ha hg
    rw [if_neg (by decide)] at g
    exact ⟨_, g⟩
  · intro i b hb
    obtain ⟨p', g, -⟩ := rearm_ok wf (hw.inv.held i) hb
    exact ⟨_, g⟩
  · intro revs
    obtain ⟨p', g, -⟩ := polled_ok wf revs
    exact ⟨_, g⟩
  · intro n _
    have hw' : Wf { w.s.p with remaining := (n : Int) } ev k := wf.congr rfl rfl rfl rfl
    rcases eventInner_ok hw' (i := 0) (by have := cap_pos hw.inv.wf; show 0 < w.s.p.cap; omega) with ⟨g, -⟩ | ⟨_, _, _, _, -, -, -, g, -⟩
    · exact ⟨_, g⟩
    · exact ⟨_, g⟩
  · intro ok hp hroom
    obtain ⟨res, s, g, -, -⟩ := finish_ok h.alloc hw hp hroom
    exact ⟨_, g⟩
  · intro hp hr
    obtain ⟨b1, b2⟩ := hw.busy hp hr
    obtain ⟨out, p', stop, g, -⟩ := fill_ok hw.inv.wf hw.off hw.rem b1
    exact ⟨b2, _, g⟩

/-- The assertions of `sc_sock_poll_wait` about numbers hold: nothing is left to tell when the system is asked, and there is
something in the wakeup pipe when it is read, so that reading it never blocks (C102). -/
theorem drain_ready_partial {e fd₀ G l w} (h : History e fd₀ G l w) {n : Nat} (hp : w.ph = .got n) {evs : Bits} {p : P}
    (hf : eventInner 0 { w.s.p with remaining := (n : Int) } = .ok (evs, p)) :
    w.s.p.remaining = 0 ∧ (evs = READ → 0 < w.bytes) := by
  have hw := h.inv
  obtain ⟨ev, k, wf⟩ := hw.inv.wf
  refine ⟨hw.zero (.inr (.inr ⟨n, hp⟩)), fun he => ?_⟩
  have hw' : Wf { w.s.p with remaining := (n : Int) } ev k := wf.congr rfl rfl rfl rfl
  rcases eventInner_ok hw' (i := 0) (by have := cap_pos hw.inv.wf; show 0 < w.s.p.cap; omega) with ⟨g, -⟩ | ⟨s, c, r, p', g1, g2, g3, g, -⟩
  · rw [hf] at g
    cases g
    exact absurd he (by decide)
  · rw [hf] at g
    cases g
    refine hw.ready n hp s c r g1 g2 ?_
    obtain ⟨a, b, bad, o⟩ := r
    have : ∀ (a b bad : Bool) (x : Bits), (if bad then READ ||| WRITE else if x &&& EDGE ≠ 0 then ((if a then READ else NONE) ||| (if b then WRITE else NONE)) &&& ~~~x
        else ((if a then READ else NONE) ||| (if b then WRITE else NONE))) = READ → a = true := by decide
    exact this a b bad c.edge he

/-- No request waits for a wakeup that does not come: while the poller waits in the system and requests are pending, there is a
byte in the wakeup pipe, which the system tells, or the thread that made the first of them is about to write it (C102). -/
theorem wakeup_partial {e fd₀ G l w} (h : History e fd₀ G l w) (hp : w.ph = .inPoll) (hops : w.s.p.ops ≠ []) : 0 < w.bytes ∨ 0 < w.writers := by
  have := h.inv.wake hp hops
  omega

/-- What is told of entries from `lo` on: something of an object that is registered, found for its entry, with its data -/
theorem told_registered {fd₀ G M p slot} (hr : Registered fd₀ G M p slot) {lo hi : Nat} {evs : Bits} {d : Nat} (h : (evs, d) ∈ events p lo hi) :
    ∃ j i s c r, slot j = some i ∧ lo ≤ i ∧ M j ≠ Spec.nothing ∧ G j d ∧ entry p i = some (s, c) ∧ s.fd = fd₀ j ∧ s.rev = some r ∧ r ≠ Rev.zero ∧
      evs = tell r c.edge ∧ evs ≠ NONE := by
  unfold events at h
  rw [List.mem_filterMap] at h
  obtain ⟨i, h1, h2⟩ := h
  rw [List.mem_range'_1] at h1
  unfold found at h2
  cases he : entry p i with
  | none => rw [he] at h2; cases h2
  | some q =>
    obtain ⟨⟨fd, ev, rev⟩, c⟩ := q
    rw [he] at h2
    cases rev with
    | none => cases h2
    | some r =>
      simp only at h2
      split at h2
      · cases h2
      · next hn =>
        cases h2
        obtain ⟨j, hj⟩ := hr.all i _ he
        obtain ⟨s, c', h3, h4, -, -, h5⟩ := hr.given j i hj
        rw [he] at h3
        cases h3
        refine ⟨j, i, _, c, r, hj, h1.1, fun hc => ?_, h5, he, h4, rfl, fun hc => hn (.inl hc), rfl, fun hc => hn (.inr hc)⟩
        rw [(hr.absent j).2 hc] at hj
        cases hj

/-- What `sc_sock_poll_wait` tells when the system has been asked (C103). At most as many events as there is room for. Every
event is of an object other than the wakeup pipe that is registered when the wait returns, so that an object deregistered
meanwhile is never told of; it comes with the object's data, and the system found it for the object's descriptor. If there was
room for more, nothing is missing: whatever the system found for an object that nobody made a request for meanwhile is told,
unless it was told before and the object is registered for changes.

Missing: what is told of an object that stays registered may have been deregistered meanwhile, see `stale_violated`. -/
theorem wait_partial {e fd₀ G l w} (h : History e fd₀ G l w) {ok : Bool} (hp : w.ph = .back ok) (hroom : w.s.p.count + w.s.p.ops.length ≤ 524288) :
    ∃ res s, finish e w.s = .ok ((res.length : Int), res, s) ∧ res.length ≤ 1024 ∧
      (∀ evs d, (evs, d) ∈ res → evs ≠ NONE ∧ ∃ j, j ≠ 0 ∧ Spec.after l j ≠ Spec.nothing ∧ G j d ∧
        ∃ i sl c r edge, entry w.s.p i = some (sl, c) ∧ sl.fd = fd₀ j ∧ sl.rev = some r ∧ evs = tell r edge) ∧
      (ok = true → res.length < 1024 → ∀ j, j ≠ 0 → (w.s.obj j).opIndex = none → Spec.after l j ≠ Spec.nothing →
        ∃ i sl c r, (w.s.obj j).pd = some (dataInner i) ∧ entry w.s.p i = some (sl, c) ∧ sl.fd = fd₀ j ∧ sl.rev = some r ∧ G j c.data ∧
          (tell r c.edge ≠ NONE → (tell r c.edge, c.data) ∈ res)) := by
  have hw := h.inv
  obtain ⟨res, s, g1, -, p₁, stop, fin⟩ := finish_ok h.alloc hw hp hroom
  obtain ⟨hm, slot, hreg, hpd⟩ := fin.inv.registered
  have hcap := cap_pos fin.inv.wf
  have pipe0 : (s.obj 0).pd = some (dataInner 0) := by rw [fin.same 0 hw.pipe.2.2]; exact hw.pipe.1
  have slot0 : ∀ i, slot 0 = some i → i = 0 := by
    intro i hi
    obtain ⟨ev, k, wf⟩ := fin.inv.wf
    obtain ⟨_, _, h3, -⟩ := hreg.given 0 i hi
    have := hpd 0 i hi
    rw [pipe0] at this
    exact (dataInner_inj wf.toShape (by omega) (wf.lt h3) (Option.some.inj this)).symm
  refine ⟨res, s, g1, ?_, ?_, ?_⟩
  · cases ok with
    | false => rw [fin.nothing rfl]; exact Nat.zero_le _
    | true => exact (fin.found rfl).len
  · intro evs d hmem
    cases ok with
    | false => rw [fin.nothing rfl] at hmem; cases hmem
    | true =>
      rw [(fin.found rfl).told] at hmem
      obtain ⟨j, i, sl, c, r, h1, h2, h3, h4, h5, h6, h7, h8, h9, h10⟩ := told_registered hreg hmem
      obtain ⟨sl', c', h11, h12, h13⟩ := fin.calm i sl c h5 (by rw [h7]; exact fun hc => h8 (Option.some.inj hc))
      exact ⟨h10, j, fun hc => by subst hc; have := slot0 i h1; omega, h3, h4, i, sl', c', r, c.edge, h11, h13.trans h6, h12.trans h7, h9⟩
  · intro hok hlen j hj0 hidx hne
    subst hok
    cases hx : slot j with
    | none => exact absurd ((hreg.absent j).1 hx) hne
    | some i =>
      have hp1 := hpd j i hx
      rw [fin.same j hidx] at hp1
      have hop : (w.s.obj j).op ≠ NONE := fun hc => by
        have := (hw.inv.held j).none.1 hc
        rw [hp1] at this
        cases this
      obtain ⟨i', sl, c, ho⟩ := (hw.inv.held j).owns hop
      have hk := fin.kept j i' _ hidx ho.pd ho.entry
      have hii : i' = i := by
        obtain ⟨ev, k, wf⟩ := fin.inv.wf
        obtain ⟨_, _, h3, -⟩ := hreg.given j i hx
        have := ho.pd
        rw [hp1] at this
        exact (dataInner_inj wf.toShape (wf.lt h3) (wf.lt hk) (Option.some.inj this)).symm
      subst hii
      obtain ⟨ev, k, wf⟩ := hw.inv.wf
      obtain ⟨q1, q2, q3, q4⟩ := ho.index wf
      obtain ⟨b, r, c', q5, q6, q7, q8⟩ := wf.cells i' sl q3 q4
      refine ⟨i', sl, c, r, hp1, ho.entry, ho.fd.trans (hw.inv.fd j), q6, hw.inv.data j i' sl c ho.pd ho.entry, fun ht => ?_⟩
      have hf := fin.found rfl
      have hst := (hf.all hlen).1
      rw [hf.told]
      unfold events
      rw [List.mem_filterMap]
      refine ⟨i', ?_, ?_⟩
      · rw [List.mem_range'_1]
        have hi0 : i' ≠ 0 := by
          intro hc
          rw [hc, ← hw.pipe.1] at hp1
          exact hj0 (hw.inv.inj j 0 (by rw [hp1, hw.pipe.1]; exact (fun hc => by cases hc)) hp1)
        obtain ⟨ev1, k1, wf1⟩ := fin.inv.wf
        have := wf1.lt hk
        omega
      · unfold found
        rw [hk]
        obtain ⟨fd, evv, rev⟩ := sl
        simp only at q6
        subst q6
        simp only
        rw [if_neg]
        rintro (hc | hc)
        · subst hc
          apply ht
          unfold tell
          simp [Rev.zero]
          intro _; exact (by decide : ∀ x : Bits, NONE &&& ~~~x = NONE) _
        · exact ht hc

/-! ## Being told once -/

/-- Every bit of `a` is in `b`. -/
def Within (a b : Bits) : Prop := a &&& ~~~b = 0

theorem Within.refl (a : Bits) : Within a a := by unfold Within; revert a; decide
theorem Within.trans {a b c : Bits} (h : Within a b) (h' : Within b c) : Within a c := by
  unfold Within at *; revert a b c; decide
theorem within_or (a b : Bits) : Within a (a ||| b) := by unfold Within; revert a b; decide

theorem within_told (r : Rev) (edge : Bits) : Within edge (told r edge) := by
  unfold told
  split
  · exact within_or _ _
  · exact .refl _

theorem mark_within {p p' : P} {i : Nat} {s : Slot} {c : PData} (h : entry p' i = mark (entry p i)) (he : entry p i = some (s, c)) :
    ∃ s' c', entry p' i = some (s', c') ∧ Within c.edge c'.edge := by
  rw [he] at h
  obtain ⟨fd, ev, rev⟩ := s
  cases rev with
  | none => exact ⟨_, _, h, .refl _⟩
  | some r =>
    unfold mark at h
    simp only at h
    split at h
    · exact ⟨_, _, h, .refl _⟩
    · exact ⟨_, _, h, within_told _ _⟩

theorem Filled.within {p p' : P} {lo room stop : Nat} {out : List (Bits × Nat)} (h : Filled p lo room out p' stop) {i : Nat} {s : Slot} {c : PData}
    (he : entry p i = some (s, c)) : ∃ s' c', entry p' i = some (s', c') ∧ Within c.edge c'.edge := by
  by_cases h1 : i < lo
  · exact ⟨s, c, (h.before i h1).trans he, .refl _⟩
  · by_cases h2 : stop ≤ i
    · exact ⟨s, c, (h.after i h2).trans he, .refl _⟩
    · exact mark_within (h.marked i (by omega) (by omega)) he

/-- What is kept of an object as told stays, as long as nobody makes a request for it and no transfer on it would block. -/
theorem step_edge {e : Env} (he : ∀ n, e.alloc n = true) {fd₀ G l w o r w'} (h : WInv fd₀ G l w) (hs : Step e G l w o r w') {j i : Nat} (hj : o ≠ some j)
    (hidx : (w.s.obj j).opIndex = none) (hpd : (w.s.obj j).pd = some (dataInner i)) {s : Slot} {c : PData} (hen : entry w.s.p i = some (s, c)) :
    w'.s.obj j = w.s.obj j ∧ ∃ s' c', entry w'.s.p i = some (s', c') ∧ Within c.edge c'.edge := by
  cases hs with
  | @add i' evs d rc wake s' ha hg hr =>
    obtain ⟨rc', wake', s'', g1, -, -, g4, g5⟩ := request_ok he h true ha hg
    rw [if_pos rfl, hr] at g1
    cases g1
    have hji : j ≠ i' := fun hc => hj (by rw [hc])
    exact ⟨g4 j hji, s, c, g5 j i _ hji hpd hen, .refl _⟩
  | @del i' evs d rc wake s' ha hg hr =>
    obtain ⟨rc', wake', s'', g1, -, -, g4, g5⟩ := request_ok he h false ha hg
    rw [if_neg (by decide), hr] at g1
    cases g1
    have hji : j ≠ i' := fun hc => hj (by rw [hc])
    exact ⟨g4 j hji, s, c, g5 j i _ hji hpd hen, .refl _⟩
  | write => exact ⟨rfl, s, c, hen, .refl _⟩
  | @rearm i' b p hb hr =>
    obtain ⟨ev, k, wf⟩ := h.inv.wf
    obtain ⟨p', g1, -, -, -, -, g2, -⟩ := rearm_ok wf (h.inv.held i') hb
    rw [hr] at g1
    cases g1
    refine ⟨rfl, s, c, g2 i _ (fun hc => ?_) hen, .refl _⟩
    have := h.inv.inj j i' (by rw [hpd]; exact (fun hc => by cases hc)) (hpd.trans hc.symm)
    exact hj (by rw [this])
  | enter => exact ⟨rfl, s, c, hen, .refl _⟩
  | @more res p hp hr hf =>
    obtain ⟨b1, b2⟩ := h.busy hp hr
    obtain ⟨out, p', stop, k1, k2⟩ := fill_ok h.inv.wf h.off h.rem b1
    rw [hf] at k1
    cases k1
    exact ⟨rfl, k2.within hen⟩
  | @ret revs n p hp hf hn hlaw =>
    obtain ⟨ev, k, wf⟩ := h.inv.wf
    obtain ⟨p', k1, -, -, -, k5⟩ := polled_ok wf revs
    rw [hf] at k1
    cases k1
    exact ⟨rfl, _, c, k5 i s c hen, .refl _⟩
  | @fail revs p hp hf =>
    obtain ⟨ev, k, wf⟩ := h.inv.wf
    obtain ⟨p', k1, -, -, -, k5⟩ := polled_ok wf revs
    rw [hf] at k1
    cases k1
    exact ⟨rfl, _, c, k5 i s c hen, .refl _⟩
  | quiet => exact ⟨rfl, s, c, hen, .refl _⟩
  | @drain n evs p hp hf =>
    obtain ⟨ev, k, wf⟩ := h.inv.wf
    have wf' : Wf { w.s.p with remaining := ((n + 1 : Nat) : Int) } ev k := wf.congr rfl rfl rfl rfl
    rcases eventInner_ok wf' (i := 0) (by have := cap_pos h.inv.wf; show 0 < w.s.p.cap; omega) with
      ⟨e1, -⟩ | ⟨s0, c0, r, p1, hen0, -, -, e1, -, en, ens, -, -⟩
    · rw [hf] at e1
      cases e1
      exact ⟨rfl, s, c, hen, .refl _⟩
    · rw [hf] at e1
      cases e1
      refine ⟨rfl, ?_⟩
      by_cases hi : i = 0
      · subst hi
        have hh : entry w.s.p 0 = some (s0, c0) := hen0
        rw [hen] at hh
        cases hh
        exact ⟨_, _, en, within_told _ _⟩
      · exact ⟨s, c, (ens i hi).trans hen, .refl _⟩
  | @finish ok rc res s' hp hne hroom hf =>
    obtain ⟨res', s'', k1, -, p₁, stop, fin⟩ := finish_ok he h hp hroom
    rw [hf] at k1
    cases k1
    have hk := fin.kept j i _ hidx hpd hen
    refine ⟨fin.same j hidx, ?_⟩
    cases ok with
    | true => exact (fin.found rfl).within hk
    | false => exact fin.quiet rfl i s c hk
  | error => exact ⟨rfl, s, c, hen, .refl _⟩

/-- Histories without requests for object `j` and without transfers on it that would block -/
inductive RunsBut (e : Env) (G : Nat → Nat → Prop) (j : Nat) : List Req → W → List Req → W → Prop
  | refl {l w} : RunsBut e G j l w l w
  | step {l₀ w₀ l w o r w'} : RunsBut e G j l₀ w₀ l w → Step e G l w o r w' → o ≠ some j → RunsBut e G j l₀ w₀ (l ++ r.toList) w'

theorem runsBut_edge {e : Env} (he : ∀ n, e.alloc n = true) {fd₀ G j l₀ w₀ l w} (hr : RunsBut e G j l₀ w₀ l w) (h : WInv fd₀ G l₀ w₀) {i : Nat}
    (hidx : (w₀.s.obj j).opIndex = none) (hpd : (w₀.s.obj j).pd = some (dataInner i)) {s : Slot} {c : PData} (hen : entry w₀.s.p i = some (s, c)) :
    WInv fd₀ G l w ∧ w.s.obj j = w₀.s.obj j ∧ ∃ s' c', entry w.s.p i = some (s', c') ∧ Within c.edge c'.edge := by
  induction hr with
  | refl => exact ⟨h, rfl, s, c, hen, .refl _⟩
  | step _ hs hj ih =>
    obtain ⟨h1, h2, s', c', h3, h4⟩ := ih
    obtain ⟨h5, s'', c'', h6, h7⟩ := step_edge he h1 hs hj (by rw [h2]; exact hidx) (by rw [h2]; exact hpd) h3
    exact ⟨step_ok he h1 hs, h5.trans h2, s'', c'', h6, h4.trans h7⟩

theorem silent (a b x : Bool) (edge edge' ev : Bits) (h1 : edge &&& EDGE ≠ 0) (h2 : ev = READ ∨ ev = WRITE) (h3 : edge &&& ev ≠ 0) (h4 : Within edge edge') :
    (if x then READ ||| WRITE else if edge' &&& EDGE ≠ 0 then ((if a then READ else NONE) ||| (if b then WRITE else NONE)) &&& ~~~edge'
      else ((if a then READ else NONE) ||| (if b then WRITE else NONE))) &&& ev ≠ 0 → x = true := by
  unfold Within at h4
  rcases h2 with rfl | rfl <;> (revert a b x edge edge'; decide +kernel)

/-- An object registered for changes is told of input, or of room for output, once (C104): what was told of it is not told again,
whatever happens, as long as nobody makes a request for it and no transfer on it would block; errors are. -/
theorem edge_once_partial {e fd₀ G l₀ w₀ l w j i} (h : History e fd₀ G l₀ w₀) (hr : RunsBut e G j l₀ w₀ l w)
    (hidx : (w₀.s.obj j).opIndex = none) (hpd : (w₀.s.obj j).pd = some (dataInner i)) {s : Slot} {c : PData} (hen : entry w₀.s.p i = some (s, c))
    {ev : Bits} (hev : ev = READ ∨ ev = WRITE) (hedge : Spec.after l₀ j .edge = true) (htold : c.edge &&& ev ≠ 0) :
    ∃ s' c', entry w.s.p i = some (s', c') ∧ ∀ r, s'.rev = some r → tell r c'.edge &&& ev ≠ 0 → r.bad = true := by
  have hw := h.inv
  obtain ⟨-, -, s', c', h1, h2⟩ := runsBut_edge h.alloc hr hw hidx hpd hen
  refine ⟨s', c', h1, fun r _ ht => ?_⟩
  have hop : (w₀.s.obj j).op ≠ NONE := fun hc => by
    have := (hw.inv.held j).none.1 hc
    rw [hpd] at this
    cases this
  obtain ⟨i', s0, c0, ho⟩ := (hw.inv.held j).owns hop
  obtain ⟨ev', k, wf⟩ := hw.inv.wf
  have hii : i' = i := by
    have := ho.pd
    rw [hpd] at this
    exact (dataInner_inj wf.toShape (wf.lt hen) (ho.lt wf) (Option.some.inj this)).symm
  subst hii
  have := ho.entry
  rw [hen] at this
  cases this
  have hm := hw.inv.mask j hidx
  have : c.edge &&& EDGE ≠ 0 := by
    rw [ho.edge, edge_mask, hm]
    exact hedge
  exact silent r.inp r.out r.bad c.edge c'.edge ev this hev htold h2 ht

/-- What is told is kept, and a transfer that would block lets it be told again. -/
theorem told_kept (r : Rev) (edge : Bits) (h : edge &&& EDGE ≠ 0) (hb : r.bad = false) : Within (tell r edge) (told r edge) := by
  unfold tell told
  rw [if_neg (by rw [hb]; decide)]
  simp only
  rw [if_pos h, if_pos h]
  generalize (_ ||| _ : Bits) = x
  unfold Within
  revert x edge
  decide

theorem rearmed_partial {e fd₀ G l w j i} (h : History e fd₀ G l w) (hpd : (w.s.obj j).pd = some (dataInner i)) {s : Slot} {c : PData}
    (hen : entry w.s.p i = some (s, c)) {b : Bits} (hb : b = READ ∨ b = WRITE) :
    ∃ p' c', rearm b (w.s.obj j) w.s.p = .ok p' ∧ entry p' i = some (s, c') ∧ c'.edge &&& b = 0 ∧ (c'.edge &&& EDGE = c.edge &&& EDGE) ∧
      ∀ r : Rev, (b = READ ∧ r.inp = true ∨ b = WRITE ∧ r.out = true) → tell r c'.edge &&& b ≠ 0 := by
  obtain ⟨ev, k, wf⟩ := h.inv.inv.wf
  obtain ⟨p', g1, -, -, -, -, -, g2⟩ := rearm_ok wf (h.inv.inv.held j) hb
  refine ⟨p', _, g1, g2 i s c hpd hen, ?_, rearm_edge c.edge b hb, ?_⟩
  · exact (by decide : ∀ x y : Bits, x &&& ~~~y &&& y = 0) _ _
  · intro r hr
    have : ∀ (a o x : Bool) (edge : Bits) (b : Bits), (b = READ ∧ a = true ∨ b = WRITE ∧ o = true) →
      (if x then READ ||| WRITE else if (edge &&& ~~~b) &&& EDGE ≠ 0 then ((if a then READ else NONE) ||| (if o then WRITE else NONE)) &&& ~~~(edge &&& ~~~b)
        else ((if a then READ else NONE) ||| (if o then WRITE else NONE))) &&& b ≠ 0 := by decide +kernel
    exact this r.inp r.out r.bad c.edge b hr

/-- **C104 is violated** by errors and hang-ups: they are told as input and as room for output each time the object is looked at, whatever
was told before, and with `SC_SOCK_EDGE` too. -/
theorem edge_once_violated {e fd₀ G l w i} (h : History e fd₀ G l w) {s : Slot} {c : PData} (hen : entry w.s.p i = some (s, c)) {r : Rev}
    (hr : s.rev = some r) (hb : r.bad = true) (hi : i < w.s.p.cap) :
    ∃ p' p'' c', eventInner i w.s.p = .ok (READ ||| WRITE, p') ∧ eventInner i p' = .ok (READ ||| WRITE, p'') ∧
      entry p' i = some (s, c') ∧ c'.edge &&& EDGE = c.edge &&& EDGE := by
  have hz : r ≠ Rev.zero := by rintro rfl; cases hb
  have ht : ∀ x, tell r x = READ ||| WRITE := fun x => by unfold tell; rw [if_pos hb]
  have key : ∀ {p : P} {s : Slot} {c : PData}, (∃ ev k, Wf p ev k) → i < p.cap → entry p i = some (s, c) → s.rev = some r →
      ∃ p', eventInner i p = .ok (READ ||| WRITE, p') ∧ Soft p p' ∧ entry p' i = some (s, { c with edge := told r c.edge }) := by
    intro p s c ⟨ev, k, hw⟩ hi he hr
    rcases eventInner_ok hw hi with ⟨-, h0 | ⟨s1, c1, h1, h2⟩⟩ | ⟨s1, c1, r1, p', h1, h2, -, h3, h4, h5, -⟩
    · rw [he] at h0; cases h0
    · rw [he] at h1
      cases h1
      rw [hr] at h2
      exact absurd (Option.some.inj h2) hz
    · rw [he] at h1
      cases h1
      rw [hr] at h2
      cases h2
      exact ⟨p', by rw [h3, ht], h4, h5⟩
  obtain ⟨p', a1, a2, a3⟩ := key h.inv.inv.wf hi hen hr
  obtain ⟨p'', b1, -, -⟩ := key (a2.wf h.inv.inv.wf) (by rw [a2.cap]; exact hi) a3 hr
  exact ⟨p', p'', _, a1, b1, a3, (told_edge r c.edge).1⟩

end Verif.Poll.Win
