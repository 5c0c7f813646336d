import Verif.Cond.Props

/-!
# The Windows part of condition/sc_cond.c

A critical section may be entered again by the thread that is inside; it has to be left as often. Sleeping on a condition variable
leaves the critical section once, and enters it again after waking. `WakeConditionVariable` wakes one of the sleeping threads, if there
is any; a thread can also wake for no reason. `SleepConditionVariableCS` without a limit of time does not fail (the assert). The steps
are those of the other systems otherwise.
-/

namespace Verif.Cond.Win

open Spec (Op Event Linearizable)

/-- `sc_cond_init`, condition/sc_cond.c:48-56: the result, the object, and what is held. A critical section counts as a mutex; a
condition variable needs no release. -/
def init (h : Held) : Int × Obj × Held := (0, ⟨true, false, 0⟩, { h with mutexes := h.mutexes + 1 })

/-- `sc_cond_term`, condition/sc_cond.c:58-68 -/
def term (c : Obj) (h : Held) : Int × Obj × Held :=
  if ¬ c.init then (0, c, h) else (0, { c with init := false }, { h with mutexes := h.mutexes - 1 })

/-- The object, the owner of its critical section and how often it has to leave, and the threads -/
structure WState where
  lock : Option (Nat × Nat)
  done : Bool
  data : Nat
  th : Nat → Status

/-- After `sc_cond_init`, condition/sc_cond.c:50-53 -/
def WState.fresh : WState := ⟨none, false, 0, fun _ => .idle⟩

def WState.set (s : WState) (t : Nat) (x : Status) : WState := { s with th := fun i => if i = t then x else s.th i }

/-- `EnterCriticalSection` by thread `t`, if it returns -/
def enter (t : Nat) : Option (Nat × Nat) → Option (Nat × Nat)
  | none => some (t, 1)
  | some (i, n) => if i = t then some (t, n + 1) else none

/-- `LeaveCriticalSection` -/
def leave : Option (Nat × Nat) → Option (Nat × Nat)
  | none => none
  | some (i, n) => if n ≤ 1 then none else some (i, n - 1)

/-- The steps of `sc_cond_signal`, condition/sc_cond.c:70-79, and of `sc_cond_wait`, condition/sc_cond.c:81-101. The names of the places
are those of the other systems. -/
inductive Step : WState → Label → WState → Prop
  | call {s} (t : Nat) (op : Op) : s.th t = .idle → Step s (.ev (.call t op)) (s.set t (Op.entry op))
  /-- condition/sc_cond.c:72 -/
  | sLock {s t d l} : s.th t = .sLock d → enter t s.lock = some l → Step s .tau { s.set t (.sData d) with lock := some l }
  /-- condition/sc_cond.c:74 -/
  | sData {s t d} : s.th t = .sData d → Step s .tau { s.set t (.sDone d) with data := d }
  /-- condition/sc_cond.c:75 -/
  | sDone {s t d} : s.th t = .sDone d → Step s .tau { s.set t (.sWake d) with done := true }
  /-- condition/sc_cond.c:77, nobody sleeps -/
  | sWakeNone {s t d} : s.th t = .sWake d → (∀ i, s.th i ≠ .blocked) → Step s .tau (s.set t (.sUnlock d))
  /-- condition/sc_cond.c:77, thread `i` is woken -/
  | sWakeOne {s t d} (i : Nat) : s.th t = .sWake d → s.th i = .blocked → Step s .tau ((s.set i .relock).set t (.sUnlock d))
  /-- condition/sc_cond.c:78 -/
  | sUnlock {s t d} : s.th t = .sUnlock d → Step s (.ev (.ret t (.signal d) 0)) { s.set t .idle with lock := leave s.lock }
  /-- condition/sc_cond.c:86 -/
  | wLock {s t l} : s.th t = .wLock → enter t s.lock = some l → Step s .tau { s.set t .wTest with lock := some l }
  /-- condition/sc_cond.c:88 -/
  | wTest {s t} : s.th t = .wTest → Step s .tau (s.set t (if s.done = false then .wBlock else .wRead))
  /-- condition/sc_cond.c:90 -/
  | wBlock {s t} : s.th t = .wBlock → Step s .tau { s.set t .blocked with lock := leave s.lock }
  | spurious {s t} : s.th t = .blocked → Step s .spurious (s.set t .relock)
  /-- condition/sc_cond.c:90 -/
  | relock {s t l} : s.th t = .relock → enter t s.lock = some l → Step s .tau { s.set t .wTest with lock := some l }
  /-- condition/sc_cond.c:94 -/
  | wRead {s t} : s.th t = .wRead → Step s .tau (s.set t (.wData s.data))
  /-- condition/sc_cond.c:95 -/
  | wData {s t v} : s.th t = .wData v → Step s .tau { s.set t (.wDone v) with data := 0 }
  /-- condition/sc_cond.c:96 -/
  | wDone {s t v} : s.th t = .wDone v → Step s .tau { s.set t (.wUnlock v) with done := false }
  /-- condition/sc_cond.c:98-100 -/
  | wUnlock {s t v} : s.th t = .wUnlock v → Step s (.ev (.ret t .wait v)) { s.set t .idle with lock := leave s.lock }

/-- Executions, and what can be observed of them -/
inductive Run : WState → List Event → WState → Prop
  | refl {s} : Run s [] s
  | step {s s' s'' l es} : Run s es s' → Step s' l s'' → Run s (es ++ l.seen) s''

/-- Executions of a number of steps that the functions take on their own -/
inductive Settle : WState → Nat → WState → Prop
  | refl {s} : Settle s 0 s
  | step {s s' s'' l n} : Settle s n s' → Step s' l s'' → l.own → Settle s (n + 1) s''

/-- Nothing happens any more unless a function is called or a thread wakes for no reason. -/
def Stuck (s : WState) : Prop := ∀ l s', Step s l s' → ¬ l.own

/-! ## The same as on other systems -/

/-- A state of other systems on Windows: who is inside has entered once. -/
def up (s : State) : WState := ⟨s.lock.map (·, 1), s.done, s.data, s.th⟩

theorem leave_up (o : Option Nat) : leave (o.map (·, 1)) = none := by
  cases o <;> simp [leave]

theorem enter_up {o : Option Nat} {t : Nat} (ho : o ≠ some t) {l : Nat × Nat} (h : enter t (o.map (·, 1)) = some l) : o = none ∧ l = (t, 1) := by
  cases o with
  | none => cases h; exact ⟨rfl, rfl⟩
  | some i =>
    have : i ≠ t := fun e => ho (by rw [e])
    simp [enter, this] at h

/-- Whoever is about to enter is not inside. -/
theorem outside {s : State} (w : WF s) {t : Nat} (h : (s.th t).inside = false) : s.lock ≠ some t := by
  intro hc
  rw [(w.own t).2 hc] at h
  cases h

/-- Every step on Windows is one that other systems may take. -/
theorem step_up {s : State} (w : WF s) {l : Label} {s' : WState} (st : Step (up s) l s') : ∃ s₁, Cond.Step s l s₁ ∧ s' = up s₁ := by
  cases st with
  | call t op h => exact ⟨_, .call t op h, rfl⟩
  | @sLock t d l h he =>
    obtain ⟨h1, rfl⟩ := enter_up (outside w (by change s.th t = _ at h; rw [h]; rfl)) he
    exact ⟨_, .sLock h h1, rfl⟩
  | sData h => exact ⟨_, .sData h, rfl⟩
  | sDone h => exact ⟨_, .sDone h, rfl⟩
  | @sWakeNone t d h hn =>
    refine ⟨_, .sWake (fun _ => false) h (fun ⟨i, hi⟩ => absurd hi (hn i)), ?_⟩
    unfold up WState.set State.set State.wake
    congr 1
    funext i
    simp
  | @sWakeOne t d i h hi =>
    refine ⟨_, .sWake (fun j => j == i) h (fun _ => ⟨i, hi, by simp⟩), ?_⟩
    unfold up WState.set State.set State.wake
    congr 1
    funext j
    change s.th i = _ at hi
    by_cases e : j = t
    · simp [e]
    · by_cases e' : j = i
      · subst e'; simp [e, hi]
      · simp [e, e']
  | sUnlock h => exact ⟨_, .sUnlock h, by simp [up, WState.set, State.set, leave_up]⟩
  | @wLock t l h he =>
    obtain ⟨h1, rfl⟩ := enter_up (outside w (by change s.th t = _ at h; rw [h]; rfl)) he
    exact ⟨_, .wLock h h1, rfl⟩
  | wTest h => exact ⟨_, .wTest h, rfl⟩
  | wBlock h => exact ⟨_, .wBlock h, by simp [up, WState.set, State.set, leave_up]⟩
  | spurious h => exact ⟨_, .spurious h, rfl⟩
  | @relock t l h he =>
    obtain ⟨h1, rfl⟩ := enter_up (outside w (by change s.th t = _ at h; rw [h]; rfl)) he
    exact ⟨_, .relock h h1, rfl⟩
  | wRead h => exact ⟨_, .wRead h, rfl⟩
  | wData h => exact ⟨_, .wData h, rfl⟩
  | wDone h => exact ⟨_, .wDone h, rfl⟩
  | wUnlock h => exact ⟨_, .wUnlock h, by simp [up, WState.set, State.set, leave_up]⟩

theorem run_up {s₀ : State} (w : WF s₀) {es : List Event} {s' : WState} (r : Run (up s₀) es s') : ∃ s, Cond.Run s₀ es s ∧ s' = up s := by
  generalize h : up s₀ = x at r
  induction r with
  | refl => exact ⟨s₀, .refl, h.symm⟩
  | step r st ih =>
    obtain ⟨s, h1, rfl⟩ := ih
    obtain ⟨s₁, h2, rfl⟩ := step_up (WF.run w h1) st
    exact ⟨s₁, .step h1 h2, rfl⟩

/-- Where Windows stands still other systems do. -/
theorem stuck_up {s : State} (h : Stuck (up s)) : Cond.Stuck s := by
  intro l s' st ho
  have go : ∀ {s₁}, Step (up s) l s₁ → False := fun st => h _ _ st ho
  cases st with
  | call t op h => exact ho
  | sLock h hl => exact go (.sLock h (l := (_, 1)) (by show enter _ (s.lock.map _) = _; rw [hl]; rfl))
  | sData h => exact go (.sData h)
  | sDone h => exact go (.sDone h)
  | sWake p h hp =>
    by_cases hb : ∃ i, s.th i = .blocked
    · obtain ⟨i, hi⟩ := hb; exact go (.sWakeOne i h hi)
    · exact go (.sWakeNone h fun i hi => hb ⟨i, hi⟩)
  | sUnlock h => exact go (.sUnlock h)
  | wLock h hl => exact go (.wLock h (l := (_, 1)) (by show enter _ (s.lock.map _) = _; rw [hl]; rfl))
  | wTest h => exact go (.wTest h)
  | wBlock h => exact go (.wBlock h)
  | spurious h => exact ho
  | relock h hl => exact go (.relock h (l := (_, 1)) (by show enter _ (s.lock.map _) = _; rw [hl]; rfl))
  | wRead h => exact go (.wRead h)
  | wData h => exact go (.wData h)
  | wDone h => exact go (.wDone h)
  | wUnlock h => exact go (.wUnlock h)

/-- **C65, Windows.** What can be observed is a history of a box. -/
theorem linearizable {es : List Event} {s : WState} (r : Run .fresh es s) : Linearizable es := by
  obtain ⟨s, h, -⟩ := run_up WF.fresh r
  exact Cond.linearizable h

/-- **C65, Windows.** No value is taken more often than it was sent. -/
theorem no_duplicates {es : List Event} {s : WState} (r : Run .fresh es s) (v : Nat) : es.countP (got v) ≤ es.countP (sent v) := by
  obtain ⟨s, h, -⟩ := run_up WF.fresh r
  exact Cond.no_duplicates h v

/-- **C65, Windows.** When nothing moves any more, every signal has returned, and a thread waits only if the box is empty. -/
theorem no_lost_signal {es : List Event} {s : WState} (r : Run .fresh es s) (h : Stuck s) :
    ∃ acts b, Spec.Run .empty acts b ∧ acts.filterMap Spec.Act.seen = es ∧
      ∀ t, b.th t = .idle ∨ (b.th t = .pending .wait ∧ b.slot = none) := by
  obtain ⟨s, h1, rfl⟩ := run_up WF.fresh r
  exact Cond.no_lost_signal h1 (stuck_up h)

/-- **C65, Windows.** With finitely many threads every execution comes to rest. -/
theorem settles {es : List Event} {s : WState} (r : Run .fresh es s) (n : Nat) (w : ∀ i, n ≤ i → s.th i = .idle) :
    ∃ bound, ∀ k s', Settle s k s' → k ≤ bound := by
  obtain ⟨s, h1, rfl⟩ := run_up WF.fresh r
  refine ⟨s.work n, fun k s' hs => ?_⟩
  have wf : WF s := WF.run WF.fresh h1
  have : ∃ s₁, Cond.Settle s k s₁ ∧ s' = up s₁ ∧ WF s₁ := by
    clear r
    generalize hx : up s = x at hs
    induction hs with
    | refl => exact ⟨s, .refl, hx.symm, wf⟩
    | step hs st ho ih =>
      obtain ⟨s₁, h2, rfl, h3⟩ := ih
      obtain ⟨s₂, h4, rfl⟩ := step_up h3 st
      exact ⟨s₂, .step h2 h4 ho, rfl, h3.step h4⟩
  obtain ⟨s₁, h2, -, -⟩ := this
  exact Cond.settles w h2

/-- **C65, Windows.** The fields are accessed, and the critical section is left, by the thread that is inside, which has entered once. -/
theorem exclusive {es : List Event} {s : WState} (r : Run .fresh es s) {t i : Nat} (ht : (s.th t).inside = true) :
    s.lock = some (t, 1) ∧ ((s.th i).inside = true → i = t) := by
  obtain ⟨s, h1, rfl⟩ := run_up WF.fresh r
  obtain ⟨h2, h3⟩ := Cond.exclusive (i := i) h1 ht
  exact ⟨by show s.lock.map _ = _; rw [h2]; rfl, h3⟩

/-- **C85, Windows.** Creating succeeds; destroying gives everything back, and may be done again. -/
theorem init_term_spec (h : Held) :
    (init h).1 = 0 ∧ (init h).2.1 = ⟨true, false, 0⟩ ∧ term (init h).2.1 (init h).2.2 = (0, ⟨false, false, 0⟩, h) ∧
    ∀ c h', term (term c h').2.1 (term c h').2.2 = term c h' := by
  refine ⟨rfl, rfl, ?_, ?_⟩
  · simp [init, term]
  · intro c h'
    unfold term
    cases hc : c.init <;> simp [hc]

/-- A thread waits; another signals 7; the first returns it. -/
theorem example_run : ∃ s, Run .fresh [.call 1 .wait, .call 2 (.signal 7), .ret 2 (.signal 7) 0, .ret 1 .wait 7] s := by
  have r1 := (Run.refl (s := .fresh)).step (.call 1 .wait rfl)
  have r2 := r1.step (.wLock (t := 1) (l := (1, 1)) rfl rfl)
  have r3 := r2.step (.wTest (t := 1) rfl)
  have r4 := r3.step (.wBlock (t := 1) rfl)
  have r5 := r4.step (.call 2 (.signal 7) rfl)
  have r6 := r5.step (.sLock (t := 2) (d := 7) (l := (2, 1)) rfl rfl)
  have r7 := r6.step (.sData (t := 2) (d := 7) rfl)
  have r8 := r7.step (.sDone (t := 2) (d := 7) rfl)
  have r9 := r8.step (.sWakeOne (t := 2) (d := 7) 1 rfl rfl)
  have r10 := r9.step (.sUnlock (t := 2) (d := 7) rfl)
  have r11 := r10.step (.relock (t := 1) (l := (1, 1)) rfl rfl)
  have r12 := r11.step (.wTest (t := 1) rfl)
  have r13 := r12.step (.wRead (t := 1) rfl)
  have r14 := r13.step (.wData (t := 1) (v := 7) rfl)
  have r15 := r14.step (.wDone (t := 1) (v := 7) rfl)
  have r16 := r15.step (.wUnlock (t := 1) (v := 7) rfl)
  exact ⟨_, r16⟩

end Verif.Cond.Win
