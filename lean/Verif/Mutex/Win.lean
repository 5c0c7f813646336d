import Verif.Mutex.Props

/-!
# The Windows part of mutex/sc_mutex.c

A critical section has an owner, and counts how often it has been entered by it. Leaving by anybody but the owner is undefined.
-/

namespace Verif.Mutex.Win

/-- `sc_mutex_init`, mutex/sc_mutex.c:41-45; the call does not fail. -/
def init (h : Held) : Int × Held := (0, { h with mutexes := h.mutexes + 1 })

/-- `sc_mutex_term`, mutex/sc_mutex.c:47-51 -/
def term (h : Held) : Int × Held := (0, { h with mutexes := h.mutexes - 1 })

/-- The critical section, and which threads wait for it -/
structure WState where
  owner : Option (Nat × Nat)
  waiting : Nat → Bool

def WState.fresh : WState := ⟨none, fun _ => false⟩

/-- `EnterCriticalSection` by thread `t`, if it returns -/
def enter (t : Nat) : Option (Nat × Nat) → Option (Nat × Nat)
  | none => some (t, 1)
  | some (i, n) => if i = t then some (t, n + 1) else none

/-- `sc_mutex_unlock`, mutex/sc_mutex.c:58-61, by thread `t` -/
def unlock (t : Nat) (s : WState) : Res WState :=
  match s.owner with
  | none => .ub
  | some (i, n) => if i = t then .ok { s with owner := if n ≤ 1 then none else some (i, n - 1) } else .ub

inductive Step : WState → Option Event → WState → Prop
  /-- `sc_mutex_lock`, mutex/sc_mutex.c:53-56, is called -/
  | lock {s} (t : Nat) : s.waiting t = false → Step s none { s with waiting := fun i => if i = t then true else s.waiting i }
  /-- and returns -/
  | locked {s t l} : s.waiting t = true → enter t s.owner = some l →
      Step s (some (.locked t)) ⟨some l, fun i => if i = t then false else s.waiting i⟩
  | unlocked {s s' t} : s.waiting t = false → unlock t s = .ok s' → Step s (some (.unlocked t)) s'

inductive Run : WState → List Event → WState → Prop
  | refl {s} : Run s [] s
  | step {s s' s'' e es} : Run s es s' → Step s' e s'' → Run s (es ++ e.toList) s''

/-- Histories of a lock that its owner may take again: `Nested es o` where `o` tells who has it, and how often. -/
inductive Nested : List Event → Option (Nat × Nat) → Prop
  | nil : Nested [] none
  | lock {es} (t : Nat) : Nested es none → Nested (es ++ [.locked t]) (some (t, 1))
  | again {es t n} : Nested es (some (t, n)) → Nested (es ++ [.locked t]) (some (t, n + 1))
  | unlock {es t n} : Nested es (some (t, n + 2)) → Nested (es ++ [.unlocked t]) (some (t, n + 1))
  | last {es t} : Nested es (some (t, 1)) → Nested (es ++ [.unlocked t]) none

/-- Whoever has it has taken it at least once. -/
theorem Nested.pos {es o} (h : Nested es o) : ∀ {t n}, o = some (t, n) → 1 ≤ n := by
  cases h <;> intro t n e <;> cases e <;> omega

/-- **C87, Windows.** Whoever locks and unlocks, in whatever order: no two threads have the mutex together, and it is free when its owner
has unlocked it as often as locked it. -/
theorem exclusion {es : List Event} {s : WState} (r : Run .fresh es s) : Nested es s.owner := by
  generalize hf : WState.fresh = s₀ at r
  induction r with
  | refl => subst hf; exact .nil
  | step r st ih =>
    cases st with
    | lock t h => simpa using ih
    | @locked t l h he =>
      revert he ih
      generalize WState.owner _ = o
      intro ih he
      match o, he with
      | none, he => cases he; exact .lock t ih
      | some (i, n), he =>
        by_cases e : i = t
        · subst e
          simp only [enter, if_true] at he
          cases he
          exact .again ih
        · simp [enter, e] at he
    | @unlocked s' t hw h =>
      unfold unlock at h
      revert h ih
      generalize ho : WState.owner _ = o
      intro ih h
      match o, h, ih with
      | none, h, ih => cases h
      | some (i, n), h, ih =>
        simp only at h
        split at h
        · next e =>
          subst e
          have := ih.pos rfl
          by_cases hn : n ≤ 1
          · have : n = 1 := by omega
            subst this
            cases h
            exact .last ih
          · obtain ⟨m, rfl⟩ : ∃ m, n = m + 2 := ⟨n - 2, by omega⟩
            cases h
            simp only [hn, if_false]
            exact .unlock ih
        · cases h

/-- Histories in which nobody locks what they have -/
inductive Single : List Event → Option Nat → Prop
  | nil : Single [] none
  | lock {es o} (t : Nat) : Single es o → o ≠ some t → Single (es ++ [.locked t]) (some t)
  | unlock {es o} (t : Nat) : Single es o → Single (es ++ [.unlocked t]) none

theorem append_cancel {es es' : List Event} {a b : Event} (h : es ++ [a] = es' ++ [b]) : es = es' ∧ a = b := by
  have := List.append_inj' h rfl
  exact ⟨this.1, by simpa using this.2⟩

theorem append_ne {es : List Event} {a : Event} : es ++ [a] ≠ [] := by simp

theorem Nested.turns {es o} (h : Nested es o) : ∀ {o'}, Single es o' → Turns es (o.map (·.1)) ∧ o' = o.map (·.1) ∧ ∀ t n, o = some (t, n) → n = 1 := by
  induction h with
  | nil =>
    intro o' hs
    generalize hx : ([] : List Event) = x at hs
    cases hs with
    | nil => exact ⟨.nil, rfl, by intro t n e; cases e⟩
    | lock t' hs hn => exact absurd hx.symm append_ne
    | unlock t' hs => exact absurd hx.symm append_ne
  | @lock es t h ih =>
    intro o' hs
    generalize hx : es ++ [Event.locked t] = x at hs
    cases hs with
    | nil => exact absurd hx append_ne
    | lock t' hs hn =>
      obtain ⟨rfl, e⟩ := append_cancel hx
      cases e
      obtain ⟨h1, h2, h3⟩ := ih hs
      exact ⟨.lock t h1, rfl, by intro t n e; cases e; rfl⟩
    | unlock t' hs => obtain ⟨-, e⟩ := append_cancel hx; cases e
  | @again es t n h ih =>
    intro o' hs
    generalize hx : es ++ [Event.locked t] = x at hs
    cases hs with
    | nil => exact absurd hx append_ne
    | lock t' hs hn =>
      obtain ⟨rfl, e⟩ := append_cancel hx
      cases e
      obtain ⟨h1, h2, h3⟩ := ih hs
      exact absurd h2 hn
    | unlock t' hs => obtain ⟨-, e⟩ := append_cancel hx; cases e
  | @unlock es t n h ih =>
    intro o' hs
    generalize hx : es ++ [Event.unlocked t] = x at hs
    cases hs with
    | nil => exact absurd hx append_ne
    | lock t' hs hn => obtain ⟨-, e⟩ := append_cancel hx; cases e
    | unlock t' hs =>
      obtain ⟨rfl, e⟩ := append_cancel hx
      obtain ⟨h1, h2, h3⟩ := ih hs
      have := h3 _ _ rfl
      omega
  | @last es t h ih =>
    intro o' hs
    generalize hx : es ++ [Event.unlocked t] = x at hs
    cases hs with
    | nil => exact absurd hx append_ne
    | lock t' hs hn => obtain ⟨-, e⟩ := append_cancel hx; cases e
    | unlock t' hs =>
      obtain ⟨rfl, e⟩ := append_cancel hx
      cases e
      obtain ⟨h1, h2, h3⟩ := ih hs
      exact ⟨.unlock h1, rfl, by intro t n e; cases e⟩

/-- **C107.** If nobody locks what they have, the history is one of the mutex of other systems. -/
theorem portable_partial {es : List Event} {s : WState} (r : Run .fresh es s) {o} (h : Single es o) : Turns es (s.owner.map (·.1)) :=
  ((exclusion r).turns h).1

/-- Other systems do all that their specification allows. -/
theorem turns_posix {es : List Event} {o : Option Nat} (h : Turns es o) : Mutex.Run .fresh es ⟨o, fun _ => false⟩ := by
  induction h with
  | nil => exact .refl
  | @lock es t h ih =>
    have := (ih.step (.lock t rfl)).step (.locked (t := t) (by simp) rfl)
    simp only [Option.toList, List.append_nil] at this
    refine Eq.mp (congrArg _ ?_) this
    congr 1
    funext i
    by_cases e : i = t <;> simp [e]
  | @unlock es t h ih => exact ih.step (.unlocked rfl (by simp [Mutex.unlock]))

/-- So does Windows. -/
theorem turns_win {es : List Event} {o : Option Nat} (h : Turns es o) : Run .fresh es ⟨o.map (·, 1), fun _ => false⟩ := by
  induction h with
  | nil => exact .refl
  | @lock es t h ih =>
    have := (ih.step (.lock t rfl)).step (.locked (t := t) (l := (t, 1)) (by simp) rfl)
    simp only [Option.toList, List.append_nil] at this
    refine Eq.mp (congrArg _ ?_) this
    unfold Option.map
    congr 1
    funext i
    by_cases e : i = t <;> simp [e]
  | @unlock es t h ih => exact ih.step (.unlocked rfl (by simp [unlock]))

/-- **C107.** If nobody locks what they have, the histories are the same on both systems. Missing: threads
that do, see below. -/
theorem portable_both_partial {es : List Event} {o : Option Nat} (h : Single es o) :
    (∃ s, Run .fresh es s) ↔ ∃ s, Mutex.Run .fresh es s :=
  ⟨fun ⟨_, r⟩ => ⟨_, turns_posix (portable_partial r h)⟩, fun ⟨_, r⟩ => ⟨_, turns_win (Mutex.exclusion r)⟩⟩

/-- **C107 is violated** by a thread that locks the mutex twice: on Windows it goes on, on other systems, by `self_deadlock`, it waits for
ever. -/
theorem portable_violated : (∃ s, Run .fresh [.locked 1, .locked 1] s) ∧ ¬ ∃ s, Mutex.Run .fresh [.locked 1, .locked 1] s := by
  constructor
  · have r1 := (Run.refl (s := .fresh)).step (.lock 1 rfl)
    have r2 := r1.step (.locked (t := 1) (l := (1, 1)) rfl rfl)
    have r3 := r2.step (.lock 1 rfl)
    have r4 := r3.step (.locked (t := 1) (l := (1, 2)) rfl rfl)
    exact ⟨_, r4⟩
  · rintro ⟨s, r⟩
    have h := Mutex.exclusion r
    generalize s.owner = o at h
    generalize hx : [Event.locked 1, Event.locked 1] = x at h
    cases h with
    | nil => cases hx
    | @lock es t h =>
      have hx : [Event.locked 1] ++ [Event.locked 1] = es ++ [.locked t] := hx
      obtain ⟨rfl, -⟩ := append_cancel hx
      generalize hy : [Event.locked 1] = y at h
      generalize hz : (none : Option Nat) = z at h
      cases h with
      | nil => cases hy
      | lock => cases hz
      | @unlock es t h =>
        have hy : [] ++ [Event.locked 1] = es ++ [.unlocked t] := hy
        obtain ⟨-, e⟩ := append_cancel hy
        cases e
    | @unlock es t h =>
      have hx : [Event.locked 1] ++ [Event.locked 1] = es ++ [.unlocked t] := hx
      obtain ⟨-, e⟩ := append_cancel hx
      cases e

/-- **C87, Windows.** A free mutex goes to anybody who waits for it. -/
theorem progress {s : WState} {t : Nat} (h : s.waiting t = true) :
    (∃ s', Step s (some (.locked t)) s') ∨ ∃ i n, s.owner = some (i, n) ∧ i ≠ t := by
  cases ho : s.owner with
  | none => exact .inl ⟨_, .locked (l := (t, 1)) h (by rw [ho]; rfl)⟩
  | some o =>
    obtain ⟨i, n⟩ := o
    by_cases e : i = t
    · exact .inl ⟨_, .locked (l := (t, n + 1)) h (by rw [ho]; simp [enter, e])⟩
    · exact .inr ⟨i, n, rfl, e⟩

/-- **C87, Windows.** Creating and destroying succeed, and nothing is left. -/
theorem init_term (h : Held) : (init h).1 = 0 ∧ term (init h).2 = (0, h) := by simp [init, term]

/-- Two threads take turns, and nobody locks what they have. -/
example : ∃ s, Run .fresh [.locked 1, .unlocked 1, .locked 2] s ∧ Single [.locked 1, .unlocked 1, .locked 2] (some 2) := by
  have r1 := (Run.refl (s := .fresh)).step (.lock 1 rfl)
  have r2 := r1.step (.lock 2 rfl)
  have r3 := r2.step (.locked (t := 1) (l := (1, 1)) rfl rfl)
  have r4 := r3.step (.unlocked (t := 1) rfl rfl)
  have r5 := r4.step (.locked (t := 2) (l := (2, 1)) rfl rfl)
  exact ⟨_, r5, .lock 2 (.unlock 1 (.lock 1 .nil (by decide))) (by decide)⟩

end Verif.Mutex.Win
