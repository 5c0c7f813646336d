import Verif.Thread.Props

/-!
# A thread object on both systems

What a program and the threads it starts through one object see of it: calls that return, functions
that are called. The calls themselves are those of `Verif.Thread.Model`.
-/

namespace Verif.Thread.Portable

/-! ## Specification -/

/-- What is seen. -/
inductive Ev where
  /-- `sc_thread_start(t, fn, arg)` returned 0 -/
  | start (fn arg : Nat)
  /-- it returned something else -/
  | startFails
  /-- a thread that was started calls its function -/
  | runs (fn arg : Nat)
  /-- such a call returns -/
  | ends (v : Nat)
  /-- `sc_thread_join` returned 0 and gave this value -/
  | join (v : Nat)
  /-- `sc_thread_term` returned 0, or `sc_thread_join` without a place for the value -/
  | term
  deriving DecidableEq

/-- Where things stand with one thread at a time. -/
inductive Q where
  | idle
  | new (fn arg : Nat)
  | running
  | done (v : Nat)
  deriving DecidableEq

/-- What may be seen next. -/
def next : Q → Ev → Option Q
  | .idle, .start f a => some (.new f a)
  | .idle, .startFails => some .idle
  | .idle, .term => some .idle
  | .new f a, .runs g b => if g = f ∧ b = a then some .running else none
  | .running, .ends v => some (.done v)
  | .done v, .join u => if u = v then some .idle else none
  | .done _, .term => some .idle
  | _, _ => none

/-- What may be seen of one thread after the other. -/
def Good : Q → List Ev → Prop
  | _, [] => True
  | q, e :: es => ∃ q', next q e = some q' ∧ Good q' es

/-- The program starts no thread before it has joined the one before, and asks for values just of what it
has started; `b`: there is one to join. -/
def Tidy : Bool → List Ev → Prop
  | _, [] => True
  | b, .start _ _ :: es => b = false ∧ Tidy true es
  | b, .startFails :: es => b = false ∧ Tidy b es
  | b, .join _ :: es => b = true ∧ Tidy false es
  | _, .term :: es => Tidy false es
  | b, .runs _ _ :: es => Tidy b es
  | b, .ends _ :: es => Tidy b es

/-! ## Model -/

/-- The object and the threads on POSIX systems; `begun` are the threads that have called their
function. -/
structure PState where
  s : State
  begun : Nat → Bool

/-- What happens there: the calls of thread/sc_thread.c:121-168; `pthread_create` hands function and
argument to the new thread. `pthread_join` does not fail. -/
inductive PStep (env : Env) : PState → Ev → PState → Prop where
  | start {p o fn arg w t} : env.allows p.s o → Thread.start env.strerror o fn arg p.s.w p.s.t = .ok (0, w, t) →
      PStep env p (.start fn arg) ⟨⟨w, t⟩, fun i => if i = o.id then false else p.begun i⟩
  | startFails {p o fn arg rc w t} : env.allows p.s o → Thread.start env.strerror o fn arg p.s.w p.s.t = .ok (rc, w, t) →
      rc ≠ 0 → PStep env p .startFails ⟨⟨w, t⟩, p.begun⟩
  | runs {p} (id : Nat) {fn arg : Nat} : p.s.w id = some (.running fn arg) → p.begun id = false →
      PStep env p (.runs fn arg) ⟨p.s, fun i => if i = id then true else p.begun i⟩
  | ends {p} (id v : Nat) {fn arg : Nat} : p.s.w id = some (.running fn arg) → p.begun id = true →
      PStep env p (.ends v) ⟨⟨fun i => if i = id then some (.finished v) else p.s.w i, p.s.t⟩, p.begun⟩
  | join {p v w t} : Thread.join env.strerror 0 p.s.w p.s.t = .ok (some (0, v, w, t)) →
      PStep env p (.join v) ⟨⟨w, t⟩, p.begun⟩
  /-- thread/sc_thread.c:172-175 -/
  | term {p v w t} : Thread.join env.strerror 0 p.s.w p.s.t = .ok (some (0, v, w, t)) →
      PStep env p .term ⟨⟨w, t⟩, p.begun⟩

/-- A thread of Windows: not yet in `sc_thread_fn`, in the user's function, ended. -/
inductive WTh where
  | new
  | running
  | finished
  deriving DecidableEq

/-- The object and the threads on Windows, by handle. -/
structure WState where
  t : WObj
  th : Nat → Option WTh

/-- What happens on Windows, thread/sc_thread.c:64-118: the new thread takes function and argument
from the object when it begins, and stores the result there when it ends. `WaitForSingleObject` and
`CloseHandle` do not fail; `WaitForSingleObject` returns when the thread has ended. -/
inductive WStep : WState → Ev → WState → Prop where
  | start {s t' fn arg} (h : Nat) : h ≠ 0 → s.th h = none → winStart h none fn arg s.t = .ok (0, t') →
      WStep s (.start fn arg) ⟨t', fun i => if i = h then some .new else s.th i⟩
  | startFails {s t' fn arg rc} (msg : Option (List UInt8)) : winStart 0 msg fn arg s.t = .ok (rc, t') → rc ≠ 0 →
      WStep s .startFails ⟨t', s.th⟩
  | runs {s} (h : Nat) : s.th h = some .new →
      WStep s (.runs s.t.fn s.t.arg) ⟨s.t, fun i => if i = h then some .running else s.th i⟩
  | ends {s} (h v : Nat) : s.th h = some .running →
      WStep s (.ends v) ⟨winBody v s.t, fun i => if i = h then some .finished else s.th i⟩
  | join {s v t'} : (s.t.id ≠ 0 → s.th s.t.id = some .finished) → winJoin true true none s.t = .ok (0, v, t') →
      WStep s (.join v) ⟨t', fun i => if i = s.t.id then none else s.th i⟩
  /-- thread/sc_thread.c:172-175 -/
  | term {s v t'} : (s.t.id ≠ 0 → s.th s.t.id = some .finished) → winJoin true true none s.t = .ok (0, v, t') →
      WStep s .term ⟨t', fun i => if i = s.t.id then none else s.th i⟩

/-- What can be seen from a state on. -/
def Sees (step : σ → Ev → σ → Prop) : σ → List Ev → Prop
  | _, [] => True
  | s, e :: es => ∃ s', step s e s' ∧ Sees step s' es

/-- After `sc_thread_init` (36-39) of whatever was there; no threads yet. -/
def pfresh (id : Nat) (err : List UInt8) : PState := ⟨.fresh id err, fun _ => false⟩

/-- As above, on Windows: `ret` is not initialised. -/
def wfresh (t : WObj) : WState := ⟨{ t with id := 0 }, fun _ => none⟩

/-! ## Both follow the specification -/

/-- There is a thread to join. -/
def Q.busy : Q → Bool
  | .idle => false
  | _ => true

/-- A system follows the specification: from related states, for programs that are tidy. -/
structure Follows (step : σ → Ev → σ → Prop) (R : Q → σ → Prop) : Prop where
  sound : ∀ {q s e s' es}, R q s → Tidy q.busy (e :: es) → step s e s' →
    ∃ q', next q e = some q' ∧ R q' s'
  complete : ∀ {q s e q'}, R q s → next q e = some q' → ∃ s', step s e s' ∧ R q' s'

theorem tidy_next {q q' : Q} {e : Ev} {es : List Ev} (h : Tidy q.busy (e :: es)) (hn : next q e = some q') :
    Tidy q'.busy es := by
  cases q <;> cases e <;> simp only [next, reduceCtorEq] at hn
  · cases hn; exact h.2
  · cases hn; exact h.2
  · cases hn; exact h
  · split at hn
    · cases hn; exact h
    · cases hn
  · cases hn; exact h
  · split at hn
    · cases hn; exact h.2
    · cases hn
  · cases hn; exact h

theorem Follows.iff {step : σ → Ev → σ → Prop} {R : Q → σ → Prop} (f : Follows step R) :
    ∀ {es q s}, R q s → Tidy q.busy es → (Sees step s es ↔ Good q es) := by
  intro es
  induction es with
  | nil => intro q s _ _; exact ⟨fun _ => trivial, fun _ => trivial⟩
  | cons e es ih =>
    intro q s r ht
    constructor
    · rintro ⟨s', h1, h2⟩
      obtain ⟨q', h3, h4⟩ := f.sound r ht h1
      exact ⟨q', h3, (ih h4 (tidy_next ht h3)).mp h2⟩
    · rintro ⟨q', h1, h2⟩
      obtain ⟨s', h3, h4⟩ := f.complete r h1
      exact ⟨s', h3, (ih h4 (tidy_next ht h1)).mpr h2⟩

/-- How things stand on POSIX systems. -/
def PR (q : Q) (p : PState) : Prop := p.s.t.err.length = 128 ∧ match q with
  | .idle => p.s.t.id = 0 ∧ ∀ i, p.s.w i = none
  | .new f a => p.s.t.id ≠ 0 ∧ p.begun p.s.t.id = false ∧ ∀ i, p.s.w i = if i = p.s.t.id then some (.running f a) else none
  | .running => p.s.t.id ≠ 0 ∧ p.begun p.s.t.id = true ∧
      ∃ f a, ∀ i, p.s.w i = if i = p.s.t.id then some (.running f a) else none
  | .done v => p.s.t.id ≠ 0 ∧ ∀ i, p.s.w i = if i = p.s.t.id then some (.finished v) else none

/-- How things stand on Windows. -/
def WR (q : Q) (s : WState) : Prop := match q with
  | .idle => s.t.id = 0 ∧ ∀ i, s.th i = none
  | .new f a => s.t.id ≠ 0 ∧ s.t.fn = f ∧ s.t.arg = a ∧ ∀ i, s.th i = if i = s.t.id then some .new else none
  | .running => s.t.id ≠ 0 ∧ ∀ i, s.th i = if i = s.t.id then some .running else none
  | .done v => s.t.id ≠ 0 ∧ s.t.ret = v ∧ ∀ i, s.th i = if i = s.t.id then some .finished else none

theorem win_follows : Follows WStep WR where
  sound := by
    intro q s e s' es r ht st
    cases st with
    | @start t' fn arg h h1 h2 h3 =>
      cases q with
      | idle =>
        simp only [winStart, h1, if_false] at h3
        cases h3
        refine ⟨_, rfl, h1, rfl, rfl, fun i => ?_⟩
        simp only [r.2]
      | _ => exact absurd ht.1 (by simp [Q.busy])
    | @startFails t' fn arg rc msg h1 h2 =>
      cases q with
      | idle =>
        refine ⟨_, rfl, ?_, r.2⟩
        simp only [winStart, if_true, Res.bind_eq_ok] at h1
        obtain ⟨t, h3, h4⟩ := h1
        cases h4
        cases msg with
        | none => cases h3; rfl
        | some m =>
          simp only [errstr, Res.bind_eq_ok] at h3
          obtain ⟨x, -, h5⟩ := h3
          cases h5; rfl
      | _ => exact absurd ht.1 (by simp [Q.busy])
    | runs h h1 =>
      cases q with
      | idle => rw [r.2] at h1; cases h1
      | new f a =>
        obtain ⟨r1, r2, r3, r4⟩ := r
        rw [r4] at h1
        have : h = s.t.id := by
          by_cases e : h = s.t.id
          · exact e
          · simp [e] at h1
        refine ⟨.running, by simp [next, r2, r3], r1, fun i => ?_⟩
        simp only [this, r4]
        split <;> rfl
      | running => rw [r.2] at h1; split at h1 <;> simp at h1
      | done v => rw [r.2.2] at h1; split at h1 <;> simp at h1
    | ends h v h1 =>
      cases q with
      | idle => rw [r.2] at h1; cases h1
      | new f a => rw [r.2.2.2] at h1; split at h1 <;> simp at h1
      | running =>
        obtain ⟨r1, r4⟩ := r
        rw [r4] at h1
        have : h = s.t.id := by
          by_cases e : h = s.t.id
          · exact e
          · simp [e] at h1
        refine ⟨.done v, rfl, r1, rfl, fun i => ?_⟩
        simp only [this, r4, winBody]
        by_cases e : i = s.t.id <;> simp [e]
      | done v => rw [r.2.2] at h1; split at h1 <;> simp at h1
    | @join v t' h1 h2 =>
      cases q with
      | idle => exact absurd ht.1 (by simp [Q.busy])
      | new f a => have := h1 r.1; rw [r.2.2.2] at this; simp at this
      | running => have := h1 r.1; rw [r.2] at this; simp at this
      | done u =>
        obtain ⟨r1, r2, r4⟩ := r
        simp [winJoin, r1] at h2
        obtain ⟨rfl, rfl⟩ := h2
        refine ⟨.idle, by simp [next, r2], rfl, fun i => ?_⟩
        simp only [r4]
        split <;> rfl
    | @term v t' h1 h2 =>
      cases q with
      | idle =>
        obtain ⟨r1, r4⟩ := r
        simp [winJoin, r1] at h2
        obtain ⟨-, rfl⟩ := h2
        refine ⟨.idle, rfl, r1, fun i => ?_⟩
        simp only [r4, ite_self]
      | new f a => have := h1 r.1; rw [r.2.2.2] at this; simp at this
      | running => have := h1 r.1; rw [r.2] at this; simp at this
      | done u =>
        obtain ⟨r1, r2, r4⟩ := r
        simp [winJoin, r1] at h2
        obtain ⟨rfl, rfl⟩ := h2
        refine ⟨.idle, rfl, rfl, fun i => ?_⟩
        simp only [r4]
        split <;> rfl
  complete := by
    intro q s e q' r hn
    cases q <;> cases e <;> simp only [next, reduceCtorEq] at hn
    · rename_i f a
      cases hn
      refine ⟨_, .start (t' := { s.t with fn := f, arg := a, id := 1 }) 1 (by decide) (r.2 1) (by simp [winStart]), ?_⟩
      refine ⟨by simp, rfl, rfl, fun i => ?_⟩
      simp only [r.2]
    · cases hn
      exact ⟨_, .startFails (t' := { s.t with fn := 0, arg := 0, id := 0 }) (fn := 0) (arg := 0) (rc := -1) none
        (by simp [winStart, errstr]) (by decide), rfl, r.2⟩
    · cases hn
      obtain ⟨r1, r4⟩ := r
      refine ⟨_, .term (v := s.t.ret) (t' := s.t) (fun h => absurd r1 h) (by simp [winJoin, r1]), r1, fun i => ?_⟩
      simp only [r4, ite_self]
    · rename_i f a g b
      split at hn
      · next hg =>
        cases hn
        obtain ⟨r1, r2, r3, r4⟩ := r
        obtain ⟨rfl, rfl⟩ := hg
        have := WStep.runs (s := s) s.t.id (by simp [r4])
        rw [r2, r3] at this
        refine ⟨_, this, r1, fun i => ?_⟩
        simp only [r4]
        split <;> rfl
      · cases hn
    · rename_i v
      cases hn
      obtain ⟨r1, r4⟩ := r
      refine ⟨_, .ends s.t.id v (by simp [r4]), r1, rfl, fun i => ?_⟩
      simp only [r4, winBody]
      by_cases e : i = s.t.id <;> simp [e]
    · rename_i v u
      split at hn
      · next hg =>
        cases hn
        obtain ⟨r1, r2, r4⟩ := r
        refine ⟨_, .join (v := u) (t' := { s.t with id := 0 }) (fun _ => by simp [r4]) (by simp [winJoin, r1, r2, hg]), rfl,
          fun i => ?_⟩
        simp only [r4]
        split <;> rfl
      · cases hn
    · cases hn
      obtain ⟨r1, r2, r4⟩ := r
      refine ⟨_, .term (v := s.t.ret) (t' := { s.t with id := 0 }) (fun _ => by simp [r4]) (by simp [winJoin, r1]), rfl,
        fun i => ?_⟩
      simp only [r4]
      split <;> rfl

theorem posix_ok {q : Q} {p : PState} (r : PR q p) : OK p.s := by
  refine ⟨r.1, fun hi => ?_⟩
  cases q with
  | idle => exact absurd r.2.1 hi
  | new f a => rw [r.2.2.2]; simp
  | running => obtain ⟨f, a, h⟩ := r.2.2.2; rw [h]; simp
  | done v => rw [r.2.2]; simp

theorem posix_follows {env : Env} (hs : Texts env.strerror) (hj : env.tidy) :
    Follows (PStep env) PR where
  sound := by
    intro q p e p' es r ht st
    have ok := posix_ok r
    cases st with
    | @start o fn arg w t ha h1 =>
      cases q with
      | idle =>
        obtain ⟨rc, w', t', h2, h3, h4⟩ := start_ok hs (o := o) (fn := fn) (arg := arg) ok
        rw [h1] at h2
        simp only [Res.ok.injEq, Prod.mk.injEq] at h2
        obtain ⟨rfl, rfl, rfl⟩ := h2
        rcases h4 with ⟨-, h5, -⟩ | ⟨-, h5, h6, -⟩ | ⟨h5, h6, -, rfl, h7, -⟩
        · simp at h5
        · exact absurd h6.symm h5
        · refine ⟨_, rfl, h3, ?_, ?_, fun i => ?_⟩
          · show t.id ≠ 0
            rw [h7]; exact ((ha h5).1 h6).1
          · simp [h7]
          · simp only [h7, r.2.2]
      | _ => exact absurd ht.1 (by simp [Q.busy])
    | @startFails o fn arg rc w t ha h1 hr =>
      cases q with
      | idle =>
        obtain ⟨rc', w', t', h2, h3, h4⟩ := start_ok hs (o := o) (fn := fn) (arg := arg) ok
        rw [h1] at h2
        simp only [Res.ok.injEq, Prod.mk.injEq] at h2
        obtain ⟨rfl, rfl, rfl⟩ := h2
        refine ⟨_, rfl, h3, ?_⟩
        rcases h4 with ⟨-, -, rfl, h5⟩ | ⟨h5, h6, -, rfl, h7⟩ | ⟨-, -, h5, -⟩
        · exact ⟨h5.trans r.2.1, r.2.2⟩
        · exact ⟨h7.trans ((hj _ _ ((ha h5).2 h6)).trans r.2.1), r.2.2⟩
        · exact absurd h5 hr
      | _ => exact absurd ht.1 (by simp [Q.busy])
    | @runs id fn arg h1 h2 =>
      cases q with
      | idle => rw [r.2.2] at h1; cases h1
      | new f a =>
        obtain ⟨r0, r1, r2, r3⟩ := r
        rw [r3] at h1
        by_cases e : id = p.s.t.id
        · simp only [e, if_true, Option.some.injEq, Th.running.injEq] at h1
          exact ⟨.running, by simp [next, h1.1, h1.2], r0, r1, by simp [e], f, a, r3⟩
        · simp [e] at h1
      | running =>
        obtain ⟨r0, r1, r2, f, a, r3⟩ := r
        rw [r3] at h1
        by_cases e : id = p.s.t.id
        · rw [e, r2] at h2; cases h2
        · simp [e] at h1
      | done v => rw [r.2.2] at h1; split at h1 <;> simp at h1
    | @ends id v fn arg h1 h2 =>
      cases q with
      | idle => rw [r.2.2] at h1; cases h1
      | new f a =>
        obtain ⟨r0, r1, r2, r3⟩ := r
        rw [r3] at h1
        by_cases e : id = p.s.t.id
        · rw [e, r2] at h2; cases h2
        · simp [e] at h1
      | running =>
        obtain ⟨r0, r1, r2, f, a, r3⟩ := r
        rw [r3] at h1
        by_cases e : id = p.s.t.id
        · refine ⟨.done v, rfl, r0, r1, fun i => ?_⟩
          simp only [e, r3]
          split <;> rfl
        · simp [e] at h1
      | done v => rw [r.2.2] at h1; split at h1 <;> simp at h1
    | @join v w t h1 =>
      obtain ⟨x, h2, h3, h4, h5, -⟩ := join_ok hs (rc := 0) ok
      rw [h1] at h2
      simp only [Res.ok.injEq] at h2
      subst h2
      cases q with
      | idle => exact absurd ht.1 (by simp [Q.busy])
      | new f a => have := h4 r.2.1 f a (by rw [r.2.2.2]; simp) rfl; cases this
      | running =>
        obtain ⟨r0, r1, r2, f, a, r3⟩ := r
        have := h4 r1 f a (by rw [r3]; simp) rfl; cases this
      | done u =>
        have := h5 r.2.1 u (by rw [r.2.2]; simp) rfl
        simp only [Option.some.injEq, Prod.mk.injEq, true_and] at this
        obtain ⟨rfl, rfl, rfl⟩ := this
        refine ⟨.idle, by simp [next], r.1, rfl, fun i => ?_⟩
        show (if i = p.s.t.id then none else p.s.w i) = none
        rw [r.2.2]
        split <;> rfl
    | @term v w t h1 =>
      obtain ⟨x, h2, h3, h4, h5, -⟩ := join_ok hs (rc := 0) ok
      rw [h1] at h2
      simp only [Res.ok.injEq] at h2
      subst h2
      cases q with
      | idle =>
        have := h3 r.2.1
        simp only [Option.some.injEq, Prod.mk.injEq, true_and] at this
        obtain ⟨rfl, rfl, rfl⟩ := this
        exact ⟨.idle, rfl, r⟩
      | new f a => have := h4 r.2.1 f a (by rw [r.2.2.2]; simp) rfl; cases this
      | running =>
        obtain ⟨r0, r1, r2, f, a, r3⟩ := r
        have := h4 r1 f a (by rw [r3]; simp) rfl; cases this
      | done u =>
        have := h5 r.2.1 u (by rw [r.2.2]; simp) rfl
        simp only [Option.some.injEq, Prod.mk.injEq, true_and] at this
        obtain ⟨rfl, rfl, rfl⟩ := this
        refine ⟨.idle, rfl, r.1, rfl, fun i => ?_⟩
        show (if i = p.s.t.id then none else p.s.w i) = none
        rw [r.2.2]
        split <;> rfl
  complete := by
    intro q p e q' r hn
    have ok := posix_ok r
    cases q <;> cases e <;> simp only [next, reduceCtorEq] at hn
    · rename_i f a
      cases hn
      refine ⟨_, .start (o := ⟨0, 0, 1⟩) (t := { p.s.t with id := 1 })
        (w := fun i => if i = 1 then some (.running f a) else p.s.w i)
        (fun _ => ⟨fun _ => ⟨by decide, r.2.2 1⟩, fun h => absurd rfl h⟩) (by simp [Thread.start]), r.1, ?_, ?_, fun i => ?_⟩
      · simp
      · simp
      · simp only [r.2.2]
    · cases hn
      obtain ⟨rc, w, t, h1, h2, h3⟩ := start_ok hs (o := ⟨12, 0, 1⟩) (fn := 0) (arg := 0) ok
      rcases h3 with ⟨-, rfl, rfl, h5⟩ | ⟨h5, -⟩ | ⟨h5, -⟩
      · exact ⟨_, .startFails (o := ⟨12, 0, 1⟩) (fun h => absurd h (by decide)) h1 (by decide), h2, h5.trans r.2.1, r.2.2⟩
      · simp at h5
      · simp at h5
    · cases hn
      obtain ⟨x, h2, h3, -⟩ := join_ok hs (rc := 0) ok
      have := h3 r.2.1
      subst this
      exact ⟨_, .term h2, r⟩
    · rename_i f a g b
      split at hn
      · next hg =>
        cases hn
        obtain ⟨r0, r1, r2, r3⟩ := r
        obtain ⟨rfl, rfl⟩ := hg
        exact ⟨_, .runs p.s.t.id (by simp [r3]) r2, r0, r1, by simp, _, _, r3⟩
      · cases hn
    · rename_i v
      cases hn
      obtain ⟨r0, r1, r2, f, a, r3⟩ := r
      refine ⟨_, .ends p.s.t.id v (by rw [r3]; simp; exact ⟨rfl, rfl⟩) r2, r0, r1, fun i => ?_⟩
      simp only [r3]
      split <;> rfl
    · rename_i v u
      split at hn
      · next hg =>
        cases hn
        subst hg
        obtain ⟨x, h2, -, -, h5, -⟩ := join_ok hs (rc := 0) ok
        have := h5 r.2.1 u (by rw [r.2.2]; simp) rfl
        subst this
        refine ⟨_, .join h2, r.1, rfl, fun i => ?_⟩
        show (if i = p.s.t.id then none else p.s.w i) = none
        rw [r.2.2]
        split <;> rfl
      · cases hn
    · rename_i v
      cases hn
      obtain ⟨x, h2, -, -, h5, -⟩ := join_ok hs (rc := 0) ok
      have := h5 r.2.1 v (by rw [r.2.2]; simp) rfl
      subst this
      refine ⟨_, .term h2, r.1, rfl, fun i => ?_⟩
      show (if i = p.s.t.id then none else p.s.w i) = none
      rw [r.2.2]
      split <;> rfl

/-! ## The claim -/

/-- **C166.** What can be seen of a thread object is the same on both systems, and is what the
specification says: each function is called once, with its argument, and each join gives the value of
the thread started last. Missing: programs that start a thread before they have joined the one before,
or ask for a value when there is nothing to join, see below; joins that fail; and a `pthread_create` that fails and
stores something, see C66. -/
theorem portable_partial {env : Env} (hs : Texts env.strerror) (hj : env.tidy) {id : Nat}
    {err : List UInt8} (he : err.length = 128) (t : WObj) {es : List Ev} (h : Tidy false es) :
    (Sees (PStep env) (pfresh id err) es ↔ Good .idle es) ∧ (Sees WStep (wfresh t) es ↔ Good .idle es) :=
  ⟨(posix_follows hs hj).iff (q := .idle) ⟨he, rfl, fun _ => rfl⟩ h,
   win_follows.iff (q := .idle) ⟨rfl, fun _ => rfl⟩ h⟩

/-- **C166 is violated** by joining twice: on Windows the second join gives the value again, elsewhere it
gives a null pointer. -/
theorem join_twice_violated {env : Env} (hs : Texts env.strerror) (hj : env.tidy) {id : Nat} {err : List UInt8}
    (he : err.length = 128) (t : WObj) {v : Nat} (hv : v ≠ 0) :
    Sees WStep (wfresh t) [.start 1 2, .runs 1 2, .ends v, .join v, .join v] ∧
    ¬ Sees (PStep env) (pfresh id err) [.start 1 2, .runs 1 2, .ends v, .join v, .join v] := by
  constructor
  · exact ⟨⟨{ t with fn := 1, arg := 2, id := 1 }, fun i => if i = 1 then some .new else none⟩,
      .start 1 (by decide) rfl (by simp [winStart, wfresh]), _, .runs 1 rfl, _, .ends 1 v (by simp), _,
      .join (t' := { t with fn := 1, arg := 2, id := 0, ret := v }) (fun _ => by simp [winBody]) (by simp [winJoin, winBody]), _,
      .join (t' := { t with fn := 1, arg := 2, id := 0, ret := v }) (fun h => absurd rfl h) (by simp [winJoin]), trivial⟩
  · rintro ⟨s1, h1, s2, h2, s3, h3, s4, h4, s5, h5, -⟩
    have f := posix_follows hs hj
    obtain ⟨q1, e1, r1⟩ := f.sound (q := .idle) (e := .start 1 2) (es := []) ⟨he, rfl, fun _ => rfl⟩ ⟨rfl, trivial⟩ h1
    cases e1
    obtain ⟨q2, e2, r2⟩ := f.sound (e := .runs 1 2) (es := []) r1 trivial h2
    cases e2
    obtain ⟨q3, e3, r3⟩ := f.sound (e := .ends v) (es := []) r2 trivial h3
    cases e3
    obtain ⟨q4, e4, r4⟩ := f.sound (e := .join v) (es := []) r3 ⟨rfl, trivial⟩ h4
    simp only [next, if_true] at e4
    cases e4
    cases h5 with
    | join h =>
      rw [Thread.join, if_pos r4.2.1] at h
      simp only [Res.ok.injEq, Option.some.injEq, Prod.mk.injEq] at h
      exact hv h.2.1.symm

/-- **C166 is violated** by a thread started before the one before has begun: on Windows both call the
second function, because they take it from the object. -/
theorem restart_violated {env : Env} (hs : Texts env.strerror) {id : Nat} {err : List UInt8} (he : err.length = 128)
    (t : WObj) :
    Sees WStep (wfresh t) [.start 1 1, .start 2 2, .runs 2 2, .runs 2 2] ∧
    ¬ Sees (PStep env) (pfresh id err) [.start 1 1, .start 2 2, .runs 2 2, .runs 2 2] := by
  constructor
  · refine ⟨⟨{ t with fn := 1, arg := 1, id := 1 }, fun i => if i = 1 then some .new else none⟩,
      .start 1 (by decide) rfl (by simp [winStart, wfresh]),
      ⟨{ t with fn := 2, arg := 2, id := 2 }, fun i => if i = 2 then some .new else if i = 1 then some .new else none⟩,
      .start 2 (by decide) rfl (by simp [winStart]), _, .runs 2 rfl, _, .runs 1 rfl, trivial⟩
  · rintro ⟨s1, h1, s2, h2, s3, h3, s4, h4, -⟩
    have start : ∀ {p p' : PState} {f a}, OK p.s → PStep env p (.start f a) p' → ∃ i,
        p'.s.w = (fun j => if j = i then some (.running f a) else p.s.w j) ∧ OK p'.s := by
      intro p p' f a ok st
      cases st with
      | @start o _ _ w t ha h =>
        obtain ⟨rc, w', t', h2, h3, h4⟩ := start_ok hs (o := o) (fn := f) (arg := a) ok
        rw [h] at h2
        simp only [Res.ok.injEq, Prod.mk.injEq] at h2
        obtain ⟨rfl, rfl, rfl⟩ := h2
        rcases h4 with ⟨-, h5, -⟩ | ⟨-, h5, h6, -⟩ | ⟨h5, h6, -, rfl, h7, -⟩
        · simp at h5
        · exact absurd h6.symm h5
        · exact ⟨o.id, rfl, h3, fun _ => by simp [h7]⟩
    obtain ⟨i, e1, o1⟩ := start (p := pfresh id err) ⟨he, fun h => absurd rfl h⟩ h1
    obtain ⟨j, e2, -⟩ := start o1 h2
    have at2 : ∀ k, s2.s.w k = some (.running 2 2) → k = j := by
      intro k hk
      rw [e2] at hk
      by_cases e : k = j
      · exact e
      · simp only [e, if_false, e1] at hk
        split at hk
        · simp at hk
        · cases hk
    cases h3 with
    | runs k h5 h6 =>
      cases h4 with
      | runs l h7 h8 =>
        have := at2 k h5
        have := at2 l h7
        subst_vars
        simp at h8

/-- **C166 is violated** by a join of an object through which nothing was started: on Windows it gives
whatever was in memory, elsewhere a null pointer. -/
theorem join_unstarted_violated {env : Env} {id : Nat} {err : List UInt8} {v : Nat} (hv : v ≠ 0) :
    (∃ t, Sees WStep (wfresh t) [.join v]) ∧ ¬ Sees (PStep env) (pfresh id err) [.join v] := by
  constructor
  · exact ⟨⟨5, 0, 0, v, []⟩, _, .join (fun h => absurd rfl h) (by simp [winJoin, wfresh]; rfl), trivial⟩
  · rintro ⟨s, h, -⟩
    cases h with
    | join h =>
      rw [Thread.join, if_pos (show (pfresh id err).s.t.id = 0 from rfl)] at h
      simp only [Res.ok.injEq, Option.some.injEq, Prod.mk.injEq] at h
      exact hv h.2.1.symm

/-! ## Examples -/

/-- Two threads, one after the other, with a failed start between them. -/
def twice : List Ev := [.start 1 2, .runs 1 2, .ends 5, .join 5, .startFails, .start 3 4, .runs 3 4, .ends 6, .join 6, .term]

example : Tidy false twice := by simp [twice, Tidy]

example : Good .idle twice := ⟨_, rfl, _, rfl, _, rfl, _, rfl, _, rfl, _, rfl, _, rfl, _, rfl, _, rfl, _, rfl, trivial⟩

example : Sees (PStep Thread.env) (pfresh 7 (buf 0 128)) twice ∧ Sees WStep (wfresh ⟨9, 9, 9, 9, []⟩) twice := by
  have hs : Texts Thread.env.strerror := fun _ => ⟨[69], CStr.self (s := [69]) (by simp)⟩
  have := portable_partial hs (fun _ _ h => h) (id := 7) (err := buf 0 128) (by simp [buf]) ⟨9, 9, 9, 9, []⟩
    (es := twice) (by simp [twice, Tidy])
  have g : Good .idle twice := ⟨_, rfl, _, rfl, _, rfl, _, rfl, _, rfl, _, rfl, _, rfl, _, rfl, _, rfl, _, rfl, trivial⟩
  exact ⟨this.1.mpr g, this.2.mpr g⟩

/-- A join cannot give the value of another thread, nor the argument. -/
example : ¬ Sees WStep (wfresh ⟨9, 9, 9, 9, []⟩) [.start 1 2, .runs 1 2, .ends 5, .join 2] := by
  rw [win_follows.iff (q := .idle) ⟨rfl, fun _ => rfl⟩ (by simp [Tidy, Q.busy])]
  simp [Good, next]

end Verif.Thread.Portable
