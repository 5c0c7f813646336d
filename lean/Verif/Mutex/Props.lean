import Verif.Mutex.Model

/-! # Properties of the mutex -/

namespace Verif.Mutex

/-- A history in which one thread at a time has the mutex: it is locked and unlocked by turns, and
unlocked by the thread that locked it. The second argument is who has it in the end. -/
inductive Turns : List Event → Option Nat → Prop
  | nil : Turns [] none
  | lock {es} (t : Nat) : Turns es none → Turns (es ++ [.locked t]) (some t)
  | unlock {es t} : Turns es (some t) → Turns (es ++ [.unlocked t]) none

/-- **C87.** Whoever locks and unlocks, in whatever order: no two threads have the mutex together. -/
theorem exclusion {es : List Event} {s : State} (r : Run .fresh es s) : Turns es s.owner := by
  generalize hf : State.fresh = s₀ at r
  induction r with
  | refl => subst hf; exact .nil
  | step r st ih =>
    cases st with
    | lock t h => simpa using ih
    | @locked t h ho => rw [ho] at ih; exact .lock t ih
    | @unlocked s' t hw h =>
      unfold unlock at h
      split at h
      · next ho => cases h; rw [ho] at ih; exact .unlock ih
      · cases h

/-- **C87.** A free mutex goes to anybody who waits for it; there is no third thing it waits for. -/
theorem progress {s : State} {t : Nat} (h : s.waiting t = true) :
    (∃ s', Step s (some (.locked t)) s') ∨ ∃ i, s.owner = some i := by
  cases ho : s.owner with
  | none => exact .inl ⟨_, .locked h ho⟩
  | some i => exact .inr ⟨i, rfl⟩

/-- Destroying returns 0 or -1. -/
theorem term_result (rm : Int) (h : Held) : (rm = 0 ∧ (term rm h).1 = 0) ∨ (rm ≠ 0 ∧ (term rm h) = (-1, h)) := by
  unfold term
  by_cases h1 : rm = 0 <;> simp [h1]

/-- **C87.** Creating returns 0 and holds a mutex, or -1 and holds nothing new; the attributes are
given back on every path. Destroying gives the mutex back. -/
theorem init_spec (ra rm : Int) (h : Held) :
    ((ra = 0 ∧ rm = 0) ∧ init ra rm h = (0, ⟨h.attrs, h.mutexes + 1⟩) ∧ term 0 (init ra rm h).2 = (0, h)) ∨
    (¬ (ra = 0 ∧ rm = 0) ∧ init ra rm h = (-1, h)) := by
  unfold init term
  by_cases h1 : ra = 0
  · by_cases h2 : rm = 0 <;> simp [h1, h2]
  · simp [h1]

/-- A thread that locks the mutex twice waits for ever: nobody else can free it. -/
theorem self_deadlock {s : State} {t : Nat} (ho : s.owner = some t) (hw : s.waiting t = true) {es : List Event} {s' : State}
    (r : Run s es s') : es = [] ∧ s'.owner = some t ∧ s'.waiting t = true := by
  induction r with
  | refl => exact ⟨rfl, ho, hw⟩
  | step r st ih =>
    obtain ⟨h1, h2, h3⟩ := ih
    cases st with
    | lock i h => exact ⟨by simpa using h1, h2, by simp [h3]⟩
    | locked h h' => rw [h2] at h'; cases h'
    | @unlocked s' i hi h =>
      unfold unlock at h
      split at h
      · next e => rw [h2] at e; cases e; rw [hi] at h3; cases h3
      · cases h

/-- Two threads take turns. -/
example : ∃ s, Run .fresh [.locked 1, .unlocked 1, .locked 2] s := by
  have r1 := (Run.refl (s := .fresh)).step (.lock 1 rfl)
  have r2 := r1.step (.lock 2 rfl)
  have r3 := r2.step (.locked (t := 1) rfl rfl)
  have r4 := r3.step (.unlocked (t := 1) rfl rfl)
  have r5 := r4.step (.locked (t := 2) rfl rfl)
  exact ⟨_, r5⟩

end Verif.Mutex
