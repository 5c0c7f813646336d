import Verif.Cond.Win
import Verif.Cond.Cases

/-! # A condition does the same on every system -/

namespace Verif.Cond.Win

open Spec (Event Op)

/-- Only finitely many threads have called something. -/
theorem finite {es : List Event} {s : State} (r : Cond.Run .fresh es s) : ∃ n, ∀ i, n ≤ i → s.th i = .idle := by
  generalize h : State.fresh = x at r
  induction r with
  | refl => subst h; exact ⟨0, fun _ _ => rfl⟩
  | @step s' s'' l es r st ih =>
    obtain ⟨n, hn⟩ := ih
    have set : ∀ (t : Nat) (x : Status) i, max n (t + 1) ≤ i → (if i = t then x else s'.th i) = .idle := by
      intro t x i hi
      rw [if_neg (by omega)]
      exact hn i (by omega)
    cases st with
    | @sWake t d p h hp =>
      refine ⟨max n (t + 1), fun i hi => ?_⟩
      show (if i = t then _ else if s'.th i = .blocked ∧ p i = true then _ else s'.th i) = _
      rw [if_neg (by omega), hn i (by omega)]
      simp
    | call t | @sLock t | @sData t | @sDone t | @sUnlock t | @wLock t | @wTest t | @wBlock t | @spurious t | @relock t
    | @wRead t | @wData t | @wDone t | @wUnlock t => exact ⟨_, set t _⟩

/-- Any threads below `n` that sleep can wake for no reason. -/
theorem wake_many {s₀ s : WState} {es : List Event} (r : Run s₀ es s) (p : Nat → Bool) :
    ∀ n, Run s₀ es { s with th := fun i => if i < n ∧ s.th i = .blocked ∧ p i = true then .relock else s.th i } := by
  intro n
  induction n with
  | zero => simpa using r
  | succ n ih =>
    by_cases h : s.th n = .blocked ∧ p n = true
    · have := Run.step ih (.spurious (t := n) (by simp [h.1]))
      simp only [Label.seen, List.append_nil] at this
      refine Eq.mp (congrArg _ ?_) this
      unfold WState.set
      congr 1
      funext i
      by_cases e : i = n
      · subst e; simp [h]
      · have : i < n + 1 ↔ i < n := by omega
        simp [e, this]
    · refine Eq.mp (congrArg _ ?_) ih
      congr 1
      funext i
      by_cases e : i = n
      · subst e
        rw [if_neg (by simp), if_neg (fun hc => h hc.2)]
      · have : i < n + 1 ↔ i < n := by omega
        simp [this]

/-- What other systems do Windows may do, too: where they wake more than one thread, it wakes one and the
others wake for no reason. -/
theorem run_down {es : List Event} {s : State} (r : Cond.Run .fresh es s) : Run .fresh es (up s) := by
  have fin := @finite
  generalize h : State.fresh = x at r fin
  induction r with
  | refl => subst h; exact .refl
  | @step s' s'' l es r st ih =>
    obtain ⟨n, hn⟩ := fin r
    have go : Step (up s') l (up s'') → Run .fresh (es ++ l.seen) (up s'') := .step ih
    cases st with
    | call t op h => exact go (.call t op h)
    | sLock h hl => exact go (.sLock h (l := (_, 1)) (by show enter _ (s'.lock.map _) = _; rw [hl]; rfl))
    | sData h => exact go (.sData h)
    | sDone h => exact go (.sDone h)
    | @sWake t d p h hp =>
      by_cases hb : ∃ i, s'.th i = .blocked
      · obtain ⟨i, hi, hpi⟩ := hp hb
        have := wake_many (.step ih (.sWakeOne i h hi)) p n
        refine Eq.mp (congrArg _ ?_) this
        unfold up WState.set State.set State.wake
        congr 1
        funext j
        by_cases e : j = t
        · simp [e]
        · by_cases e' : j = i
          · subst e'; simp [e, hi, hpi]
          · by_cases e'' : j < n
            · simp [e, e', e'']
            · simp [e, e', hn j (by omega)]
      · refine Eq.mp (congrArg _ ?_) (Run.step ih (.sWakeNone h fun i hi => hb ⟨i, hi⟩))
        unfold up WState.set State.set State.wake
        congr 1
        funext j
        have : s'.th j ≠ .blocked := fun e => hb ⟨j, e⟩
        simp [this]
    | sUnlock h => exact go (by have := Step.sUnlock (s := up s') h; simpa [up, WState.set, State.set, leave_up] using this)
    | wLock h hl => exact go (.wLock h (l := (_, 1)) (by show enter _ (s'.lock.map _) = _; rw [hl]; rfl))
    | wTest h => exact go (.wTest h)
    | wBlock h => exact go (by have := Step.wBlock (s := up s') h; simpa [up, WState.set, State.set, leave_up] using this)
    | spurious h => exact go (.spurious h)
    | relock h hl => exact go (.relock h (l := (_, 1)) (by show enter _ (s'.lock.map _) = _; rw [hl]; rfl))
    | wRead h => exact go (.wRead h)
    | wData h => exact go (.wData h)
    | wDone h => exact go (.wDone h)
    | wUnlock h => exact go (by have := Step.wUnlock (s := up s') h; simpa [up, WState.set, State.set, leave_up] using this)

/-- Where other systems stand still Windows does. -/
theorem stuck_down {s : State} (w : WF s) (h : Cond.Stuck s) : Stuck (up s) := by
  intro l s' st
  obtain ⟨s₁, h1, -⟩ := step_up w st
  exact h _ _ h1

/-- **C167.** The calls and returns that can be seen are the same on Windows and elsewhere. -/
theorem portable (es : List Event) : (∃ s, Run .fresh es s) ↔ ∃ s, Cond.Run .fresh es s :=
  ⟨fun ⟨_, r⟩ => let ⟨s, h, _⟩ := run_up WF.fresh r; ⟨s, h⟩, fun ⟨_, r⟩ => ⟨_, run_down r⟩⟩

/-- **C167.** And so are those after which nothing happens any more, with the threads that wait then. -/
theorem portable_rest (es : List Event) (waits : Nat → Prop) :
    (∃ s, Run .fresh es s ∧ Stuck s ∧ ∀ t, s.th t = .blocked ↔ waits t) ↔
    ∃ s, Cond.Run .fresh es s ∧ Cond.Stuck s ∧ ∀ t, s.th t = .blocked ↔ waits t := by
  constructor
  · rintro ⟨_, r, h, hw⟩
    obtain ⟨s, r', rfl⟩ := run_up WF.fresh r
    exact ⟨s, r', stuck_up h, hw⟩
  · rintro ⟨s, r, h, hw⟩
    exact ⟨up s, run_down r, stuck_down (WF.run WF.fresh r) h, hw⟩

/-- The example of Windows is one of other systems: a signal wakes a thread that sleeps. -/
example : ∃ s, Cond.Run .fresh [.call 1 .wait, .call 2 (.signal 7), .ret 2 (.signal 7) 0, .ret 1 .wait 7] s := by
  obtain ⟨s, r, -⟩ := woken
  exact (portable _).mp ⟨s, r⟩

/-- And the other way round: two signals release one of two threads. -/
example : ∃ es s, Run .fresh es s ∧ Stuck s ∧ ∃ t, s.th t = .blocked := by
  refine ⟨_, up _, run_down two_signals, stuck_down (WF.run WF.fresh two_signals) two_signals_stuck, 2, rfl⟩

end Verif.Cond.Win
