import Verif.Cond.Win

/-!
# Cases of the theorems on condition variables on Windows

A thread waits, another one signals; and a thread that waits for good.
-/

namespace Verif.Cond.Win

open Spec

/-- Thread 1 waits and sleeps. -/
theorem sleeping : ∃ s, Run .fresh [.call 1 .wait] s ∧ s.lock = none ∧ s.done = false ∧ s.th = fun i => if i = 1 then .blocked else .idle := by
  have r1 := Run.refl.step (Step.call (s := .fresh) 1 .wait rfl)
  have r2 := r1.step (.wLock (t := 1) (l := (1, 1)) rfl rfl)
  have r3 := r2.step (.wTest (t := 1) rfl)
  have r4 := r3.step (.wBlock (t := 1) rfl)
  refine ⟨_, r4, rfl, rfl, ?_⟩
  funext i
  by_cases h : i = 1
  · subst h; rfl
  · simp [WState.set, WState.fresh, h]

/-- Thread 2 signals 7 then, and thread 1 gets it. -/
theorem woken : ∃ s, Run .fresh [.call 1 .wait, .call 2 (.signal 7), .ret 2 (.signal 7) 0, .ret 1 .wait 7] s ∧ s.lock = none := by
  have r1 := Run.refl.step (Step.call (s := .fresh) 1 .wait rfl)
  have r2 := r1.step (.wLock (t := 1) (l := (1, 1)) rfl rfl)
  have r3 := r2.step (.wTest (t := 1) rfl)
  have r4 := r3.step (.wBlock (t := 1) rfl)
  have r5 := r4.step (.call 2 (.signal 7) rfl)
  have r6 := r5.step (.sLock (t := 2) (l := (2, 1)) rfl rfl)
  have r7 := r6.step (.sData (t := 2) rfl)
  have r8 := r7.step (.sDone (t := 2) rfl)
  have r9 := r8.step (.sWakeOne (t := 2) 1 rfl rfl)
  have r10 := r9.step (.sUnlock (t := 2) rfl)
  have r11 := r10.step (.relock (t := 1) (l := (1, 1)) rfl rfl)
  have r12 := r11.step (.wTest (t := 1) rfl)
  have r13 := r12.step (.wRead (t := 1) rfl)
  have r14 := r13.step (.wData (t := 1) rfl)
  have r15 := r14.step (.wDone (t := 1) rfl)
  have r16 := r15.step (.wUnlock (t := 1) rfl)
  exact ⟨_, r16, rfl⟩

/-- **C65**: the history is that of a box, and 7 was received as often as it was sent. -/
example : Linearizable [.call 1 .wait, .call 2 (.signal 7), .ret 2 (.signal 7) 0, .ret 1 .wait 7] ∧
    [Event.call 1 .wait, .call 2 (.signal 7), .ret 2 (.signal 7) 0, .ret 1 .wait 7].countP (got 7) = 1 ∧
    [Event.call 1 .wait, .call 2 (.signal 7), .ret 2 (.signal 7) 0, .ret 1 .wait 7].countP (got 7) ≤
      [Event.call 1 .wait, .call 2 (.signal 7), .ret 2 (.signal 7) 0, .ret 1 .wait 7].countP (sent 7) := by
  obtain ⟨s, r, -⟩ := woken
  exact ⟨linearizable r, rfl, no_duplicates r 7⟩

/-- **C65**: the sleeping thread is one that nothing was sent to, and nothing can be done forever. -/
example : ∃ s, Run .fresh [.call 1 .wait] s ∧ (∃ acts b, Spec.Run .empty acts b ∧ acts.filterMap Spec.Act.seen = [.call 1 .wait] ∧
    ∀ t, b.th t = .idle ∨ (b.th t = .pending .wait ∧ b.slot = none)) ∧ ∃ bound, ∀ k s', Settle s k s' → k ≤ bound := by
  obtain ⟨s, r, h1, h2, h3⟩ := sleeping
  refine ⟨s, r, no_lost_signal r ?_, settles r 2 (fun i hi => by rw [h3]; exact if_neg (by omega))⟩
  have hs : ∀ t, s.th t = .blocked ∨ s.th t = .idle := fun t => by
    rw [h3]
    by_cases h : t = 1
    · exact .inl (if_pos h)
    · exact .inr (if_neg h)
  intro l s' st ho
  cases st <;> first
    | exact ho
    | grind

/-- **C65**: the thread that has the mutex is alone. -/
example : ∃ s, Run .fresh [.call 1 .wait] s ∧ s.lock = some (1, 1) ∧ ∀ i, (s.th i).inside = true → i = 1 := by
  have r1 := Run.refl.step (Step.call (s := .fresh) 1 .wait rfl)
  have r2 := r1.step (.wLock (t := 1) (l := (1, 1)) rfl rfl)
  exact ⟨_, r2, rfl, fun i => (exclusive r2 (t := 1) rfl).2⟩

end Verif.Cond.Win
