import Verif.Signal.WinProps
import Verif.Poll.WinProps

/-!
# The same loop on Windows

As Verif/Shutdown/Model.lean, with the console handler of Verif/Signal/Win.lean, which runs in threads of its
own at the same time as the loop, and the poller of Verif/Poll/WinWorld.lean, of which other threads may make
requests while the loop waits. Nobody but the handlers and the loop uses the pipe.
-/

namespace Verif.Shutdown.Win

open Poll (Bits READ WRITE EDGE NONE)
open Poll.Spec (Req)
open Poll.Win (W P Phase Slot PData Rev entry nz polled finish tell pollBits)
open Poll.Table (dataInner)

/-- What does not change: the environment of the poller, the descriptors of the objects, which data may be
given for which object, the number of the pipe among the objects, its data, and its writing end, `fds[1]`. -/
structure Setup where
  e : Poll.Win.Env
  fd₀ : Nat → Int
  G : Nat → Nat → Prop
  pipe : Nat
  data : Nat
  fd1 : Int

/-- The process: the handlers, the requests granted so far, the poller and its thread, and the bytes in the
pipe. `seen` is not part of the program: whether a byte was in the pipe when `WSAPoll` last looked. -/
structure State where
  sig : Signal.Win.State
  l : List Req
  w : W
  bytes : Nat
  seen : Bool

/-- What the system keeps in the pipe: `send` returns 1 if it has stored the byte, signal/sc_signal.c:249. -/
def store (fd1 : Int) (e : Option Signal.Win.Event) (n : Nat) : Nat :=
  match e with
  | some (.command _ fd rc) => if fd = fd1 ∧ rc = 1 then n + 1 else n
  | _ => n

/-- The system was asked for input of an entry. -/
def Asks (s : Slot) : Prop := ∃ b, s.ev = some b ∧ b &&& READ ≠ 0

/-- What `WSAPoll` finds for the reading end of the pipe: input exactly if it is asked for it and there are
bytes; the connection is not broken as its other end is open. Anything for other descriptors. -/
def Looks (c : Setup) (p : P) (bytes : Nat) (revs : Nat → Rev) : Prop :=
  ∀ i s q, entry p i = some (s, q) → s.fd = c.fd₀ c.pipe →
    ((revs i).inp = true ↔ Asks s ∧ 0 < bytes) ∧ (revs i).bad = false

/-- One step of the process. -/
inductive Step (c : Setup) : State → State → Prop
  /-- An event arrives, a handler makes a step, or the application does something else; it leaves
  `sc_signal_shutdown_fd` alone. -/
  | sig {s e sig'} : Signal.Win.Step s.sig e sig' → sig'.shutFd = s.sig.shutFd →
      Step c s { s with sig := sig', bytes := store c.fd1 e s.bytes }
  /-- `WSAPoll` returns. -/
  | asked {s revs n p} : s.sig.exit = none → s.w.ph = .inPoll → polled revs s.w.s.p = .ok p →
      n = (List.range' 0 p.cap).countP (nz p) → ((revs 0).inp = true ↔ 0 < s.w.bytes) → Looks c s.w.s.p s.bytes revs →
      Step c s { s with w := { s.w.withP p with ph := .got n }, seen := decide (0 < s.bytes) }
  /-- Anything else that the loop or another thread does with the poller, for other objects than the pipe. -/
  | poll {s o r w'} : s.sig.exit = none → Poll.Win.Step c.e c.G s.l s.w o r w' → o ≠ some c.pipe →
      (s.w.ph = .inPoll → ∀ n, w'.ph ≠ .got n) → Step c s { s with l := s.l ++ r.toList, w := w' }

/-- Executions -/
inductive Run (c : Setup) : State → State → Prop
  | refl {s} : Run c s s
  | step {s s' s''} : Run c s s' → Step c s' s'' → Run c s s''

/-- The state when the loop begins: no event has arrived, the writing end of the pipe is the shutdown
descriptor, nobody waits, no results are left over, and among the requests made of the poller one for input of the pipe has been granted
and not withdrawn, without `SC_SOCK_EDGE`; the data of the pipe is given for the pipe and for nothing else. -/
structure Begin (c : Setup) (s : State) : Prop where
  history : Poll.Win.History c.e c.fd₀ c.G s.l s.w
  idle : s.w.ph = .idle
  rest : s.w.s.p.remaining = 0
  read : Poll.Spec.after s.l c.pipe .read = true
  level : Poll.Spec.after s.l c.pipe .edge = false
  own : c.pipe ≠ 0
  data : ∀ i d, c.G i d → (i = c.pipe ↔ d = c.data)
  fd1 : c.fd1 ≠ -1
  shut : s.sig.shutFd = c.fd1
  quiet : ∀ i, s.sig.th i = .idle
  will : s.sig.will = false
  alive : s.sig.exit = none
  empty : s.bytes = 0

/-! ## What handlers leave -/

/-- What holds for a thread: it has a descriptor to send to, and has sent if it is about to return or has
returned. -/
def ThreadOk (bytes : Nat) : Signal.Win.Thread → Prop
  | .idle => True
  | .run _ pc _ => pc ≠ .noneLog ∧ pc ≠ .noneExit ∧ (pc = .ret → 0 < bytes)
  | .done => 0 < bytes

theorem ThreadOk.mono {a b : Nat} (hab : a ≤ b) {t : Signal.Win.Thread} (h : ThreadOk a t) : ThreadOk b t := by
  cases t with
  | idle => trivial
  | run t pc fd => exact ⟨h.1, h.2.1, fun hp => Nat.lt_of_lt_of_le (h.2.2 hp) hab⟩
  | done => exact Nat.lt_of_lt_of_le h hab

structure SigInv (fd1 : Int) (sig : Signal.Win.State) (bytes : Nat) : Prop where
  shut : sig.shutFd = fd1
  threads : ∀ i, ThreadOk bytes (sig.th i)
  why : 0 < bytes → ∃ i, sig.th i ≠ .idle

theorem SigInv.move {fd1 : Int} {sig sig' : Signal.Win.State} {bytes n : Nat} (h : SigInv fd1 sig bytes) (hn : bytes ≤ n)
    (h1 : sig'.shutFd = sig.shutFd) {i : Nat} {t : Signal.Win.Thread} (h2 : sig'.th = fun j => if j = i then t else sig.th j)
    (ht : t ≠ .idle) (hok : ThreadOk n t) : SigInv fd1 sig' n := by
  refine ⟨h1.trans h.shut, fun j => ?_, fun _ => ⟨i, ?_⟩⟩
  · rw [h2]
    simp only
    split
    · exact hok
    · exact (h.threads j).mono hn
  · rw [h2]
    simpa using ht

theorem SigInv.step {fd1 : Int} (hc : fd1 ≠ -1) {sig sig' : Signal.Win.State} {bytes : Nat} (h : SigInv fd1 sig bytes)
    {e : Option Signal.Win.Event} (hs : Signal.Win.Step sig e sig') (hd : sig'.shutFd = sig.shutFd) :
    SigInv fd1 sig' (store fd1 e bytes) := by
  have hne : sig.shutFd ≠ -1 := by rw [h.shut]; exact hc
  cases hs with
  | app l d hx => exact ⟨hd.trans h.shut, h.threads, h.why⟩
  | arrive i type hx hi ht => exact h.move (Nat.le_refl _) rfl rfl (by simp) (by simp [ThreadOk])
  | start hx hi =>
    refine h.move (Nat.le_refl _) rfl rfl (by simp) ?_
    simp only [ThreadOk]
    split <;> simp
  | @log i type pc fd fmt args pc' bs hx hi hl _ =>
    refine h.move (Nat.le_refl _) rfl rfl (by simp) ?_
    have hok := h.threads i
    rw [hi] at hok
    unfold Signal.Win.logOf at hl
    split at hl <;> cases hl <;> simp_all [ThreadOk]
  | check hx hi =>
    refine h.move (Nat.le_refl _) rfl rfl (by simp) ?_
    simp only [ThreadOk]
    split <;> simp
  | exit1 hx hi hp => exact ⟨h.shut, h.threads, h.why⟩
  | exit0 hx hi => exact ⟨h.shut, h.threads, h.why⟩
  | set hx hi => exact h.move (Nat.le_refl _) rfl rfl (by simp) (by simp [ThreadOk])
  | choose hx hi =>
    rw [if_pos hne]
    exact h.move (Nat.le_refl _) rfl rfl (by simp) (by simp [ThreadOk])
  | @send i type fd rc hx hi =>
    have hb : store fd1 (some (.command i sig.shutFd rc)) bytes = if rc = 1 then bytes + 1 else bytes := by
      simp [store, h.shut]
    rw [hb]
    refine h.move (by split <;> omega) rfl rfl (by simp) ?_
    by_cases hr : rc = 1
    · simp [ThreadOk, hr]
    · simp [ThreadOk, hr]
  | @ret i type fd hx hi =>
    have hok := h.threads i
    rw [hi] at hok
    exact h.move (Nat.le_refl _) rfl rfl (by simp) (hok.2.2 rfl)

/-! ## What the poller keeps -/

/-- The entries are those of before, but for their data and what was told of them. -/
def SameSlots (p p' : P) : Prop := ∀ i s q, entry p' i = some (s, q) → ∃ q', entry p i = some (s, q')

/-- What is marked for the pipe in the array while the results of `WSAPoll` wait to be told -/
def Marked (c : Setup) (p : P) (bytes : Nat) (seen : Bool) : Prop :=
  ∀ i s q, entry p i = some (s, q) → s.fd = c.fd₀ c.pipe →
    ∃ r, s.rev = some r ∧ r.bad = false ∧ (seen = true → Asks s → r.inp = true) ∧ (r.inp = true → 0 < bytes)

theorem Marked.mono {c : Setup} {p p' : P} {a b : Nat} {seen : Bool} (h : Marked c p a seen) (hp : SameSlots p p') (hab : a ≤ b) :
    Marked c p' b seen := by
  intro i s q he hf
  obtain ⟨q', h1⟩ := hp i s q he
  obtain ⟨r, h2, h3, h4, h5⟩ := h i s q' h1 hf
  exact ⟨r, h2, h3, h4, fun h => Nat.lt_of_lt_of_le (h5 h) hab⟩

/-- Results of `WSAPoll` wait to be told. -/
def Holding (ph : Phase) : Prop := ph = .back true ∨ ∃ n, ph = .got n

/-- A request for another object leaves what is waited for on the pipe. -/
theorem after_other {e : Poll.Win.Env} {G : Nat → Nat → Prop} {l : List Req} {w w' : W} {o : Option Nat} {r : Option Req} {k : Nat}
    (hs : Poll.Win.Step e G l w o r w') (hk : o ≠ some k) : Poll.Spec.after (l ++ r.toList) k = Poll.Spec.after l k := by
  have nothing : Poll.Spec.after (l ++ (none : Option Req).toList) k = Poll.Spec.after l k := by simp
  cases hs with
  | @add i evs d rc wake s ha hg hr =>
    have hk' : k ≠ i := fun h => hk (by rw [h])
    split
    · rw [show (some (Req.add i evs.mask)).toList = [Req.add i evs.mask] from rfl, Poll.Win.after_append]
      simp [Poll.Spec.apply, hk']
    · exact nothing
  | @del i evs d rc wake s ha hg hr =>
    have hk' : k ≠ i := fun h => hk (by rw [h])
    split
    · rw [show (some (Req.del i evs.mask)).toList = [Req.del i evs.mask] from rfl, Poll.Win.after_append]
      simp [Poll.Spec.apply, hk']
    · exact nothing
  | _ => exact nothing

/-- Another object's step leaves the object of the pipe. -/
theorem obj_other {e : Poll.Win.Env} (he : ∀ n, e.alloc n = true) {fd₀ : Nat → Int} {G : Nat → Nat → Prop} {l : List Req} {w w' : W}
    {o : Option Nat} {r : Option Req} {k : Nat} (h : Poll.Win.WInv fd₀ G l w)
    (hs : Poll.Win.Step e G l w o r w') (hk : o ≠ some k) (hx : (w.s.obj k).opIndex = none) : w'.s.obj k = w.s.obj k := by
  cases hs with
  | @add i evs d rc wake s ha hg hr =>
    obtain ⟨rc', wake', s', g1, -, -, g4, -⟩ := Poll.Win.request_ok he h true ha hg
    rw [if_pos rfl, hr] at g1
    cases g1
    exact g4 k (fun hc => hk (by rw [hc]))
  | @del i evs d rc wake s ha hg hr =>
    obtain ⟨rc', wake', s', g1, -, -, g4, -⟩ := Poll.Win.request_ok he h false ha hg
    rw [if_neg (by decide), hr] at g1
    cases g1
    exact g4 k (fun hc => hk (by rw [hc]))
  | @finish ok rc res s hp hops hroom hr =>
    obtain ⟨res', s', g1, -, p₁, stop, fin⟩ := Poll.Win.finish_ok he h hp hroom
    rw [hr] at g1
    cases g1
    exact fin.same k hx
  | _ => rfl

/-- While results wait to be told, no step changes what is marked. -/
theorem slots_kept {e : Poll.Win.Env} {fd₀ : Nat → Int} {G : Nat → Nat → Prop} {l : List Req} {w w' : W}
    {o : Option Nat} {r : Option Req} (h : Poll.Win.WInv fd₀ G l w) (hs : Poll.Win.Step e G l w o r w') (hh : Holding w'.ph)
    (hin : w.ph = .inPoll → ∀ n, w'.ph ≠ .got n) : Holding w.ph ∧ SameSlots w.s.p w'.s.p := by
  have idle_not : Holding Phase.idle → False := by
    rintro (h | ⟨n, h⟩) <;> cases h
  have polling : Holding w.ph → w.s.p.polling = true := by
    intro hw
    cases hp : w.s.p.polling with
    | true => rfl
    | false => rw [h.phase.2 hp] at hw; exact (idle_not hw).elim
  have submitted : ∀ {b : Bool} {evs : Bits} {d i : Nat} {rc : Int} {wake : Bool} {s : Poll.Win.Sys},
      Poll.Win.Allowed l w b i evs → G i d → w.s.p.polling = true → Poll.Win.submit e b evs d i w.s = .ok (rc, wake, s) →
      SameSlots w.s.p s.p := by
    intro b evs d i rc wake s ha hg hp hr
    obtain ⟨rc', wake', s', g1, -, -, -, -, g2, -, g3, -⟩ := Poll.Win.submit_ok e h.inv b evs hg (ha.some hp)
    rw [hr] at g1
    cases g1
    intro j sl q hj
    rw [Poll.Win.entry_congr g2 g3] at hj
    exact ⟨q, hj⟩
  cases hs with
  | @add i evs d rc wake s ha hg hr =>
    refine ⟨hh, ?_⟩
    have hp := polling hh
    unfold Poll.Win.add at hr
    rw [if_pos hp] at hr
    exact submitted ha hg hp hr
  | @del i evs d rc wake s ha hg hr =>
    refine ⟨hh, ?_⟩
    have hp := polling hh
    unfold Poll.Win.del at hr
    rw [if_pos hp] at hr
    exact submitted ha hg hp hr
  | write hw => exact ⟨hh, fun i s q h => ⟨q, h⟩⟩
  | @rearm i b p hb hr =>
    refine ⟨hh, ?_⟩
    obtain ⟨ev, k, wf⟩ := h.wf
    obtain ⟨p', g1, -, -, -, g2, -⟩ := Poll.Win.rearm_ok wf (h.inv.held i) hb
    rw [hr] at g1
    cases g1
    intro j s q hj
    obtain ⟨⟨s', q'⟩, g3, g4⟩ := g2 j _ hj
    simp only at g4
    subst g4
    exact ⟨q', g3⟩
  | enter hi hr => rcases hh with hh | ⟨n, hh⟩ <;> cases hh
  | more hi hr hf =>
    replace hh : Holding w.ph := hh
    rw [hi] at hh
    exact (idle_not hh).elim
  | ret hp hr hn h0 => exact absurd rfl (hin hp _)
  | fail hp hr => rcases hh with hh | ⟨n, hh⟩ <;> cases hh
  | quiet hp => exact ⟨.inr ⟨0, hp⟩, fun i s q h => ⟨q, h⟩⟩
  | @drain n evs p hp hr =>
    refine ⟨.inr ⟨_, hp⟩, ?_⟩
    obtain ⟨ev, k, wf⟩ := h.wf
    have wf' : Poll.Win.Wf ({ w.s.p with remaining := ((n + 1 : Nat) : Int) } : P) ev k := wf.congr rfl rfl rfl rfl
    have hcap := Poll.Win.cap_pos h.wf
    rcases Poll.Win.eventInner_ok wf' (i := 0) (by show 0 < w.s.p.cap; omega) with ⟨g1, -⟩ | ⟨s, c, r, p', g1, g2, g3, g4, -, g5, g6, -⟩
    · rw [hr] at g1
      cases g1
      intro j s q hj
      exact ⟨q, hj⟩
    · rw [hr] at g4
      cases g4
      intro j s' q hj
      replace hj : entry p j = some (s', q) := hj
      by_cases hj0 : j = 0
      · subst hj0
        rw [g5] at hj
        cases hj
        exact ⟨c, g1⟩
      · rw [g6 j hj0] at hj
        exact ⟨q, hj⟩
  | finish hp ho hr hf => exact (idle_not hh).elim
  | error hp ho => exact (idle_not hh).elim

/-- What was found for the pipe, in its own entry -/
def Mine (c : Setup) (s : Poll.Win.Sys) (bytes : Nat) : Prop :=
  ∃ i sl q r, (s.obj c.pipe).pd = some (dataInner i) ∧ entry s.p i = some (sl, q) ∧ sl.rev = some r ∧ r.bad = false ∧
    (r.inp = true → 0 < bytes)

theorem Mine.mono {c : Setup} {s : Poll.Win.Sys} {a b : Nat} (h : Mine c s a) (hab : a ≤ b) : Mine c s b := by
  obtain ⟨i, sl, q, r, h1, h2, h3, h4, h5⟩ := h
  exact ⟨i, sl, q, r, h1, h2, h3, h4, fun h => Nat.lt_of_lt_of_le (h5 h) hab⟩

theorem Mine.keep {c : Setup} {s s' : Poll.Win.Sys} {n : Nat} (h : Mine c s n) (ho : s'.obj c.pipe = s.obj c.pipe)
    (he : ∀ i sl q, (s.obj c.pipe).pd = some (dataInner i) → entry s.p i = some (sl, q) → ∃ q', entry s'.p i = some (sl, q')) : Mine c s' n := by
  obtain ⟨i, sl, q, r, h1, h2, h3, h4, h5⟩ := h
  obtain ⟨q', h6⟩ := he i sl q h1 h2
  exact ⟨i, sl, q', r, by rw [ho]; exact h1, h6, h3, h4, h5⟩

/-- Telling results leaves what the system found. -/
theorem filled_slot {p p' : P} {lo room stop : Nat} {out : List (Bits × Nat)} (h : Poll.Win.Filled p lo room out p' stop) {i : Nat}
    {sl : Slot} {q : PData} (he : entry p i = some (sl, q)) : ∃ q', entry p' i = some (sl, q') := by
  by_cases h1 : i < lo
  · exact ⟨q, (h.before i h1).trans he⟩
  · by_cases h2 : stop ≤ i
    · exact ⟨q, (h.after i h2).trans he⟩
    · have := h.marked i (by omega) (by omega)
      rw [he] at this
      obtain ⟨fd, ev, rev⟩ := sl
      cases rev with
      | none => exact ⟨q, this⟩
      | some r =>
        simp only [Poll.Win.mark] at this
        split at this
        · exact ⟨q, this⟩
        · exact ⟨_, this⟩

/-- What was found for the pipe stays while results are left over. -/
theorem left_kept {e : Poll.Win.Env} (he : ∀ n, e.alloc n = true) {fd₀ : Nat → Int} {G : Nat → Nat → Prop} {l : List Req} {w w' : W}
    {o : Option Nat} {r : Option Req} {c : Setup} {n : Nat} (h : Poll.Win.WInv fd₀ G l w) (hs : Poll.Win.Step e G l w o r w')
    (hk : o ≠ some c.pipe) (hx : (w.s.obj c.pipe).opIndex = none) (hi : w'.ph = .idle) (hrem : 0 < w'.s.p.remaining)
    (h1 : w.ph = .idle → 0 < w.s.p.remaining → Mine c w.s n) (h2 : w.ph = .back true → Mine c w.s n) : Mine c w'.s n := by
  have hobj := obj_other he h hs hk hx
  have noIndex : w.s.p.polling = false → ∀ i, (w.s.obj i).opIndex = none := by
    intro hp i
    cases hx : (w.s.obj i).opIndex with
    | none => rfl
    | some m =>
      obtain ⟨k, o, -, g, -⟩ := h.inv.index i m hx
      rw [h.idle hp] at g
      simp at g
  cases hs with
  | @add i evs d rc wake s ha hg hr =>
    have hp := h.phase.1 hi
    obtain ⟨f', p', g1, g2, -, -, gk, -⟩ := h.inv.addNow he (noIndex hp i) (ha.room hp rfl) evs hg
    unfold Poll.Win.add at hr
    rw [if_neg (by rw [hp]; decide), g1] at hr
    cases hr
    refine (h1 hi (by rw [← g2.remaining]; exact hrem)).keep hobj (fun k sl q hpd hq => ⟨q, gk c.pipe k _ (fun hc => hk (by rw [hc])) hpd hq⟩)
  | @del i evs d rc wake s ha hg hr =>
    have hp := h.phase.1 hi
    obtain ⟨f', p', g1, g2, -, -, gk, -⟩ := h.inv.delNow (noIndex hp i) evs hg
    unfold Poll.Win.del at hr
    rw [if_neg (by rw [hp]; decide), g1] at hr
    cases hr
    refine (h1 hi (by rw [← g2.remaining]; exact hrem)).keep hobj (fun k sl q hpd hq => ⟨q, gk c.pipe k _ (fun hc => hk (by rw [hc])) hpd hq⟩)
  | write hw => exact h1 hi hrem
  | @rearm i b p hb hr =>
    obtain ⟨ev, k, wf⟩ := h.wf
    obtain ⟨p', g1, -, g2, -, -, g3, -⟩ := Poll.Win.rearm_ok wf (h.inv.held i) hb
    rw [hr] at g1
    cases g1
    refine (h1 hi (by rw [← g2]; exact hrem)).keep hobj (fun k sl q hpd hq => ⟨q, g3 k _ (fun hc => ?_) hq⟩)
    have := h.inv.inj c.pipe i (by rw [hpd]; exact (fun hc => by cases hc)) (hpd.trans hc.symm)
    exact hk (by rw [this])
  | @more res p hp hr hf =>
    obtain ⟨b1, b2⟩ := h.busy hp hr
    obtain ⟨out, p', stop, k1, k2⟩ := Poll.Win.fill_ok h.inv.wf h.off h.rem b1
    rw [hf] at k1
    cases k1
    exact (h1 hp hr).keep hobj (fun k sl q _ hq => filled_slot k2 hq)
  | @finish ok rc res s hp hops hroom hr =>
    obtain ⟨res', s', g1, -, p₁, stop, fin⟩ := Poll.Win.finish_ok he h hp hroom
    rw [hr] at g1
    cases g1
    cases ok with
    | true =>
      exact (h2 hp).keep hobj (fun k sl q hpd hq => filled_slot (fin.found rfl) (fin.kept c.pipe k _ hx hpd hq))
    | false =>
      exfalso
      have i0 : Poll.Win.Inv fd₀ G (Poll.Spec.after l) ({ w.s.p with polling := false } : P) w.s.obj w.s.p.ops 0 := h.inv.congr rfl rfl rfl rfl
      obtain ⟨s1, g1, -, g3, -⟩ := Poll.Win.applyOps_ok he w.s.p.ops (s := { w.s with p := { w.s.p with polling := false } }) i0 hroom
      have hz : s1.p.remaining = 0 := g3.remaining.trans (h.zero (.inr (.inl hp)))
      unfold finish at hr
      rw [g1] at hr
      simp only [Res.ok_bind, if_true] at hr
      rw [Poll.Win.fill_zero (by show s1.p.remaining ≤ 0; omega)] at hr
      have hs := (Prod.mk.inj (Prod.mk.inj (Res.ok.inj hr)).2).2
      subst hs
      exact absurd hrem (by show ¬ (0 : Int) < 0; decide)
  | error hp ho =>
    exfalso
    have := h.zero (.inr (.inl hp))
    replace hrem : 0 < w.s.p.remaining := hrem
    omega
  | _ => cases hi

/-! ## Invariants -/

structure Inv (c : Setup) (s : State) : Prop where
  sig : SigInv c.fd1 s.sig s.bytes
  history : Poll.Win.History c.e c.fd₀ c.G s.l s.w
  read : Poll.Spec.after s.l c.pipe .read = true
  level : Poll.Spec.after s.l c.pipe .edge = false
  index : (s.w.s.obj c.pipe).opIndex = none
  marked : Holding s.w.ph → Marked c s.w.s.p s.bytes s.seen
  left : s.w.ph = .idle → 0 < s.w.s.p.remaining → Mine c s.w.s s.bytes

theorem History.step {e : Poll.Win.Env} {fd₀ : Nat → Int} {G : Nat → Nat → Prop} {l : List Req} {w w' : W} {o : Option Nat}
    {r : Option Req} (h : Poll.Win.History e fd₀ G l w) (hs : Poll.Win.Step e G l w o r w') :
    Poll.Win.History e fd₀ G (l ++ r.toList) w' := by
  obtain ⟨w₀, h1, h2⟩ := h.runs
  exact ⟨h.alloc, h.fd, h.pipe, w₀, h1, .step h2 hs⟩

theorem store_le (fd1 : Int) (e : Option Signal.Win.Event) (n : Nat) : n ≤ store fd1 e n := by
  unfold store
  split
  · split <;> omega
  · exact Nat.le_refl _

theorem looked {c : Setup} {fd₀ : Nat → Int} {G : Nat → Nat → Prop} {l : List Req} {w : W} (h : Poll.Win.WInv fd₀ G l w)
    {revs : Nat → Rev} {p : P} (hp : polled revs w.s.p = .ok p) {bytes : Nat} (hl : Looks c w.s.p bytes revs) :
    Marked c p bytes (decide (0 < bytes)) := by
  obtain ⟨ev, k, wf⟩ := h.wf
  obtain ⟨p', g1, soft, -, -, g2⟩ := Poll.Win.polled_ok wf revs
  rw [hp] at g1
  cases g1
  intro i s q he hf
  cases ho : entry w.s.p i with
  | none => rw [soft.none i ho] at he; cases he
  | some x =>
    obtain ⟨s0, q0⟩ := x
    rw [g2 i s0 q0 ho] at he
    cases he
    obtain ⟨h1, h2⟩ := hl i s0 q ho hf
    refine ⟨revs i, rfl, h2, fun hs ha => h1.2 ⟨ha, by simpa using hs⟩, fun hi => (h1.1 hi).2⟩

/-- The entry of the pipe -/
theorem registered {c : Setup} {s : State} (h : Inv c s) :
    ∃ i sl q, (s.w.s.obj c.pipe).pd = some (dataInner i) ∧ entry s.w.s.p i = some (sl, q) ∧ sl.fd = c.fd₀ c.pipe ∧ Asks sl ∧
      q.edge = NONE ∧ c.G c.pipe q.data := by
  have inv := h.history.inv.inv
  have hm := inv.mask c.pipe h.index
  have key : ∀ b : Bits, b.mask .read = true → b.mask .edge = false → b ≠ NONE ∧ pollBits b &&& READ ≠ 0 ∧ b &&& EDGE = 0 := by decide
  obtain ⟨k1, k2, k3⟩ := key _ (by rw [hm]; exact h.read) (by rw [hm]; exact h.level)
  obtain ⟨i, sl, q, ho⟩ := (inv.held c.pipe).owns k1
  refine ⟨i, sl, q, ho.pd, ho.entry, ho.fd.trans (inv.fd _), ⟨_, ho.ev, k2⟩, ho.level ?_, inv.data _ i sl q ho.pd ho.entry⟩
  exact Decidable.not_not.1 (fun hc => ho.edge.1 hc k3)

theorem Inv.mine {c : Setup} {s : State} (h : Inv c s) (hh : Holding s.w.ph) : Mine c s.w.s s.bytes := by
  obtain ⟨i, sl, q, h1, h2, h3, -⟩ := registered h
  obtain ⟨r, g1, g2, -, g3⟩ := h.marked hh i sl q h2 h3
  exact ⟨i, sl, q, r, h1, h2, g1, g2, g3⟩

theorem Inv.step {c : Setup} (hc : c.fd1 ≠ -1) {s s' : State} (h : Inv c s) (hs : Step c s s') : Inv c s' := by
  cases hs with
  | @sig e sig' hs hd =>
    refine ⟨h.sig.step hc hs hd, h.history, h.read, h.level, h.index, fun hh => ?_, fun h1 h2 => (h.left h1 h2).mono (store_le ..)⟩
    exact (h.marked hh).mono (fun i s q h => ⟨q, h⟩) (store_le ..)
  | @asked revs n p hx hi hp hn h0 hl =>
    have hs : Poll.Win.Step c.e c.G s.l s.w none none _ := .ret hi hp hn h0
    have hh := History.step h.history hs
    simp only [Option.toList, List.append_nil] at hh
    exact ⟨h.sig, hh, h.read, h.level, h.index, fun _ => looked h.history.inv hp hl, (fun h1 => by cases h1)⟩
  | @poll o r w' hx hs ho hin =>
    have hobj := obj_other h.history.alloc h.history.inv hs ho h.index
    refine ⟨h.sig, History.step h.history hs, ?_, ?_, ?_, fun hh => ?_,
      fun h1 h2 => left_kept h.history.alloc h.history.inv hs ho h.index h1 h2 h.left (fun hb => h.mine (.inl hb))⟩
    · show Poll.Spec.after (s.l ++ r.toList) c.pipe .read = true
      rw [after_other hs ho]; exact h.read
    · show Poll.Spec.after (s.l ++ r.toList) c.pipe .edge = false
      rw [after_other hs ho]; exact h.level
    · show (w'.s.obj c.pipe).opIndex = none
      rw [hobj]; exact h.index
    · obtain ⟨h1, h2⟩ := slots_kept h.history.inv hs hh hin
      exact (h.marked h1).mono h2 (Nat.le_refl _)

theorem run_inv {c : Setup} {s₀ s : State} (hb : Begin c s₀) (hr : Run c s₀ s) : Inv c s := by
  induction hr with
  | refl =>
    have inv := hb.history.inv
    refine ⟨⟨hb.shut, ?_, ?_⟩, hb.history, hb.read, hb.level, ?_, ?_, fun _ h => absurd h (by rw [hb.rest]; decide)⟩
    · intro i; rw [hb.quiet i]; trivial
    · rw [hb.empty]; intro h; omega
    · have := inv.idle (inv.phase.1 hb.idle)
      cases hx : (s₀.w.s.obj c.pipe).opIndex with
      | none => rfl
      | some m =>
        obtain ⟨k, o, -, g, -⟩ := inv.inv.index _ m hx
        rw [this] at g
        simp at g
    · rw [hb.idle]; rintro (h | ⟨n, h⟩) <;> cases h
  | step _ hs ih => exact ih.step hb.fd1 hs

/-! ## The properties -/

/-- An event has arrived: a handler was started for it. -/
def Arrived (s : State) : Prop := ∃ i, s.sig.th i ≠ .idle

/-- A handler has returned. -/
def Handled (s : State) : Prop := ∃ i, s.sig.th i = .done

/-- **C164**, the byte is there: once a handler has returned, there is a byte in the pipe. -/
theorem handled {c : Setup} {s₀ s : State} (hb : Begin c s₀) (hr : Run c s₀ s) (hh : Handled s) : 0 < s.bytes := by
  obtain ⟨i, hi⟩ := hh
  have := (run_inv hb hr).sig.threads i
  rw [hi] at this
  exact this

/-- **C164**, the system is asked in vain no more: once a handler has returned, `WSAPoll` finds the pipe whenever
it returns, so that waiting does not block. -/
theorem never_blocks {c : Setup} {s₀ s s' : State} (hb : Begin c s₀) (hr : Run c s₀ s) (hh : Handled s) (hs : Step c s s')
    (hi : s.w.ph = .inPoll) {n : Nat} (hn : s'.w.ph = .got n) : s'.seen = true ∧ 0 < n := by
  have hpos := handled hb hr hh
  have inv' := (run_inv hb (.step hr hs))
  cases hs with
  | sig hs hd => replace hn : s.w.ph = .got n := hn; rw [hi] at hn; cases hn
  | poll hx hs ho hin => exact absurd hn (hin hi n)
  | @asked revs n' p hx _ hp hn' h0 hl =>
    cases hn
    refine ⟨by simpa using hpos, ?_⟩
    subst hn'
    rw [List.countP_pos_iff]
    obtain ⟨i, sl, q, -, h2, h3, h4, -⟩ := registered inv'
    replace h2 : entry p i = some (sl, q) := h2
    obtain ⟨r, g1, -, g2, -⟩ := inv'.marked (.inr ⟨_, rfl⟩) i sl q h2 h3
    obtain ⟨ev, k, wf⟩ := inv'.history.inv.wf
    have hlt : i < p.cap := wf.lt h2
    refine ⟨i, by rw [List.mem_range'_1]; omega, ?_⟩
    unfold nz
    rw [h2]
    simp only [ne_eq, decide_eq_true_eq]
    rw [g1]
    intro hc
    cases hc
    have := g2 (by simpa using hpos) h4
    simp [Rev.zero] at this

/-- **C164**, the loop is told: if a byte was in the pipe when `WSAPoll` looked, as is the case whenever a handler had
returned before, `never_blocks`, then `sc_sock_poll_wait` returns with input of the pipe, unless there are as many other events
as there is room for; whatever requests were made meanwhile for other objects. -/
theorem told {c : Setup} {s₀ s : State} (hb : Begin c s₀) (hr : Run c s₀ s) (hp : s.w.ph = .back true) (hseen : s.seen = true)
    (hroom : s.w.s.p.count + s.w.s.p.ops.length ≤ 524288) :
    ∃ res s', finish c.e s.w.s = .ok ((res.length : Int), res, s') ∧
      ((∃ evs : Bits, (evs, c.data) ∈ res ∧ evs.mask .read = true) ∨ res.length = 1024) := by
  have inv := run_inv hb hr
  obtain ⟨res, s', h1, h2, -, h3⟩ := Poll.Win.wait_partial inv.history hp hroom
  refine ⟨res, s', h1, ?_⟩
  by_cases hlen : res.length = 1024
  · exact .inr hlen
  left
  have hne : Poll.Spec.after s.l c.pipe ≠ Poll.Spec.nothing := by
    intro hc
    have := inv.read
    rw [hc] at this
    cases this
  obtain ⟨i, sl, q, r, g1, g2, g3, g4, g5, g6⟩ := h3 rfl (by omega) c.pipe hb.own inv.index hne
  obtain ⟨i', sl', q', k1, k2, k3, k4, k5, k6⟩ := registered inv
  have hii : i' = i := by
    obtain ⟨ev, k, wf⟩ := inv.history.inv.wf
    rw [g1] at k1
    exact (Poll.Win.dataInner_inj wf.toShape (wf.lt g2) (wf.lt k2) (Option.some.inj k1)).symm
  subst hii
  rw [g2] at k2
  cases k2
  obtain ⟨r', m1, m2, m3, -⟩ := inv.marked (.inl hp) i' sl q g2 g3
  rw [g4] at m1
  cases m1
  have hin := m3 hseen k4
  rw [(hb.data _ _ g5).1 rfl, k5] at g6
  have key : ∀ r : Rev, r.inp = true → r.bad = false → tell r NONE ≠ NONE ∧ (tell r NONE).mask .read = true := by
    rintro ⟨a, b, d, e⟩ h1 h2
    simp only at h1 h2
    subst h1 h2
    cases b <;> cases e <;> decide
  exact ⟨_, g6 (key r hin m2).1, (key r hin m2).2⟩

/-- A call of `sc_sock_poll_wait` in this state tells these results: at the end of a wait, socket/sc_sock.c:2089-2140, or
at once what was left over by one that found more than there is room for, socket/sc_sock.c:2033-2039. -/
inductive Tells (c : Setup) (s : State) : List (Bits × Nat) → Prop
  | wait {ok rc res s'} : s.w.ph = .back ok → s.w.s.p.count + s.w.s.p.ops.length ≤ 524288 →
      finish c.e s.w.s = .ok (rc, res, s') → Tells c s res
  | more {res p} : s.w.ph = .idle → 0 < s.w.s.p.remaining → Poll.Win.fill s.w.s.p = .ok (res, p) → Tells c s res

theorem tell_read (r : Rev) (edge : Bits) (h1 : r.bad = false) (h2 : (tell r edge).mask .read = true) : r.inp = true := by
  obtain ⟨a, b, d, e⟩ := r
  simp only at h1
  subst h1
  cases a
  · exfalso
    revert edge
    cases b <;> cases e <;> decide
  · rfl

/-- **C164**, only then: the loop is told of input of the pipe only if an event has arrived. -/
theorem only_then {c : Setup} {s₀ s : State} (hb : Begin c s₀) (hr : Run c s₀ s) {res : List (Bits × Nat)} (ht : Tells c s res)
    {evs : Bits} (hm : (evs, c.data) ∈ res) (he : evs.mask .read = true) : Arrived s := by
  have inv := run_inv hb hr
  cases ht with
  | @wait ok rc _ s' hp hroom hf =>
    cases ok with
    | false =>
      obtain ⟨res', s'', g1, -, p₁, stop, fin⟩ := Poll.Win.finish_ok inv.history.alloc inv.history.inv hp hroom
      rw [hf] at g1
      cases g1
      rw [fin.nothing rfl] at hm
      cases hm
    | true =>
      obtain ⟨res', s'', h1, -, h3, -⟩ := Poll.Win.wait_partial inv.history hp hroom
      rw [hf] at h1
      cases h1
      obtain ⟨-, j, -, -, hj, i, sl, q, r, edge, g1, g2, g3, g4⟩ := h3 _ _ hm
      have hjp := (hb.data _ _ hj).2 rfl
      subst hjp
      obtain ⟨r', m1, m2, -, m4⟩ := inv.marked (.inl hp) i sl q g1 g2
      rw [g3] at m1
      cases m1
      exact inv.sig.why (m4 (tell_read r edge m2 (g4 ▸ he)))
  | @more _ p hi hrem hf =>
    have hw := inv.history.inv
    obtain ⟨b1, -⟩ := hw.busy hi hrem
    obtain ⟨out, p', stop, k1, k2⟩ := Poll.Win.fill_ok hw.wf hw.off hw.rem b1
    rw [hf] at k1
    cases k1
    have i1 := hw.inv
    rw [hw.idle (hw.phase.1 hi)] at i1
    obtain ⟨-, slot, hreg, hpd⟩ := i1.registered
    rw [k2.told] at hm
    obtain ⟨j, i, sl, q, r, g1, -, -, g4, g5, -, g7, -, g9, -⟩ := Poll.Win.told_registered hreg hm
    have hjp := (hb.data _ _ g4).2 rfl
    subst hjp
    obtain ⟨i', sl', q', r', m1, m2, m3, m4, m5⟩ := inv.left hi hrem
    have hii : i' = i := by
      obtain ⟨ev, k, wf⟩ := hw.wf
      rw [hpd _ i g1] at m1
      exact (Poll.Win.dataInner_inj wf.toShape (wf.lt g5) (wf.lt m2) (Option.some.inj m1)).symm
    subst hii
    rw [g5] at m2
    cases m2
    rw [g7] at m3
    cases m3
    exact inv.sig.why (m5 (tell_read r q.edge m4 (g9 ▸ he)))

end Verif.Shutdown.Win
