import Verif.Log.Progress

/-!
# The life of the logger: its mutex, and what creating and destroying it report

What happens between creation and destruction is a `Run` of `Model`, with any number of threads. A process
may create and destroy the logger again and again.
-/

namespace Verif.Log.Life

/-- Results of the calls of the library during the n-th creation: 0 or the number of an error -/
structure Env where
  attr : Nat → Nat
  mutex : Nat → Nat

/-- What `sc_log.mtx` is: zeros, a mutex made by the initialiser, a mutex made by `pthread_mutex_init`. -/
inductive Mtx where
  | zero
  | static
  | made
  deriving DecidableEq

/-- The process: mutexes and attributes that were made and not destroyed, streams that are open, creations
so far, and `errno` -/
structure World where
  mutexes : Nat
  attrs : Nat
  streams : Nat
  n : Nat
  errno : Nat
  deriving DecidableEq

/-- The parts of `struct sc_log`, logger/sc_log.c:156-170, that creation and destruction look at; `sh` is
the rest while the logger is in use. -/
structure Logger where
  init : Bool
  fp : Bool
  mtx : Mtx
  deriving DecidableEq

/-- `sc_log_mutex_init`, logger/sc_log.c:118-137 -/
def mutexInit (e : Env) (w : World) : Nat × Mtx × World :=
  let m := Mtx.static
  let rc := e.attr w.n
  if rc ≠ 0 then (rc, m, w)
  else
    let w := { w with attrs := w.attrs + 1 }
    let rc := e.mutex w.n
    let (m, w) := if rc = 0 then (Mtx.made, { w with mutexes := w.mutexes + 1 }) else (m, w)
    let w := { w with attrs := w.attrs - 1 }
    (rc, m, w)

/-- `sc_log_mutex_term`, logger/sc_log.c:139-142: destroying zeros is undefined. -/
def mutexTerm (m : Mtx) (w : World) : Res World :=
  match m with
  | .zero => .ub
  | .static => .ok w
  | .made => .ok { w with mutexes := w.mutexes - 1 }

/-- `sc_log_init`, logger/sc_log.c:173-190 -/
def init (e : Env) (w : World) : Int × Logger × World :=
  let (rc, m, w) := mutexInit e w
  let w := if rc ≠ 0 then { w with errno := rc } else w
  (rc, ⟨true, false, m⟩, { w with n := w.n + 1 })

/-- `sc_log_term`, logger/sc_log.c:192-211; `ok` is whether `fclose` succeeds, which closes the stream in
any case. -/
def term (ok : Bool) (l : Logger) (w : World) : Res (Int × Logger × World) :=
  if ¬ l.init then .ok (-1, l, w)
  else do
    let (rc, w) := if l.fp then ((if ok then 0 else -1 : Int), { w with streams := w.streams - 1 }) else (0, w)
    let w ← mutexTerm l.mtx w
    .ok (rc, ⟨false, false, .zero⟩, w)

/-- `sc_log_mutex_init`, logger/sc_log.c:88-92, on Windows -/
def winMutexInit (w : World) : Nat × Mtx × World := (0, .made, { w with mutexes := w.mutexes + 1 })

/-- `sc_log_mutex_term`, logger/sc_log.c:94-98, on Windows: deleting what was not made is undefined. -/
def winMutexTerm (m : Mtx) (w : World) : Res (Int × World) :=
  match m with
  | .made => .ok (0, { w with mutexes := w.mutexes - 1 })
  | _ => .ub

/-- Histories of one process: the logger is created only if it is not in use; between creation and
destruction threads use it, after which its stream is as some run of them has left it. -/
inductive Hist (e : Env) (w₀ : World) : Logger → World → Prop
  | start : Hist e w₀ ⟨false, false, .zero⟩ w₀
  | init {l w rc l' w'} : Hist e w₀ l w → l.init = false → init e w = (rc, l', w') → Hist e w₀ l' w'
  | use {l w fs out err es s} : Hist e w₀ l w → l.init = true → l.fp = false → Run (begun fs out err) es s →
    (∀ t op, .call t op ∈ es → op.valid) → s.lock = none →
    Hist e w₀ { l with fp := s.sh.fp } { w with streams := w.streams + s.sh.streams }
  | term {l w ok rc l' w'} : Hist e w₀ l w → term ok l w = .ok (rc, l', w') → Hist e w₀ l' w'

/-- What is in use -/
def Owns (w₀ : World) (l : Logger) (w : World) : Prop :=
  w.attrs = w₀.attrs ∧ (l.init = true ↔ l.mtx ≠ .zero) ∧ (l.init = false → l.fp = false) ∧
  w.streams = w₀.streams + (if l.fp then 1 else 0) ∧ w.mutexes = w₀.mutexes + (if l.mtx = .made then 1 else 0)

theorem init_owns {e : Env} {w₀ w : World} {l : Logger} (h : Owns w₀ l w) (hi : l.init = false) :
    Owns w₀ (init e w).2.1 (init e w).2.2 := by
  obtain ⟨h1, h2, h3, h4, h5⟩ := h
  have hz : l.mtx = .zero := by
    by_cases hm : l.mtx = .zero
    · exact hm
    · rw [h2.2 hm] at hi; cases hi
  have hf := h3 hi
  rw [hf] at h4
  rw [hz] at h5
  unfold Owns init mutexInit
  by_cases ha : e.attr w.n = 0
  · by_cases hm : e.mutex w.n = 0
    · simp [ha, hm, h1] at h4 h5 ⊢
      omega
    · simp [ha, hm, h1] at h4 h5 ⊢
      omega
  · simp [ha, h1] at h4 h5 ⊢
    omega

theorem term_owns {w₀ w : World} {l : Logger} (h : Owns w₀ l w) (ok : Bool) :
    ∃ rc l' w', term ok l w = .ok (rc, l', w') ∧ Owns w₀ l' w' ∧ l'.init = false ∧
      (rc = 0 ∨ rc = -1) ∧ (rc = -1 ↔ l.init = false ∨ l.fp = true ∧ ok = false) := by
  obtain ⟨h1, h2, h3, h4, h5⟩ := h
  obtain ⟨i, f, m⟩ := l
  simp only at h2 h3 h4 h5
  unfold term
  cases i with
  | false =>
    refine ⟨_, _, _, rfl, ⟨h1, h2, h3, h4, h5⟩, rfl, .inr rfl, by simp⟩
  | true =>
    have hm : m ≠ .zero := h2.1 rfl
    simp only [not_true_eq_false, if_false]
    cases m with
    | zero => exact absurd rfl hm
    | static =>
      cases f <;> cases ok <;>
        (refine ⟨_, _, _, rfl, ⟨h1, by simp, fun _ => rfl, ?_, ?_⟩, rfl, ?_, ?_⟩ <;> simp at h4 h5 ⊢ <;> omega)
    | made =>
      cases f <;> cases ok <;>
        (refine ⟨_, _, _, rfl, ⟨h1, by simp, fun _ => rfl, ?_, ?_⟩, rfl, ?_, ?_⟩ <;> simp at h4 h5 ⊢ <;> omega)

theorem hist_owns {e : Env} {w₀ w : World} {l : Logger} (h : Hist e w₀ l w) : Owns w₀ l w := by
  induction h with
  | start => exact ⟨rfl, by simp, fun _ => rfl, by simp, by simp⟩
  | @init l w rc l' w' _ hi hr ih =>
    have := init_owns (e := e) ih hi
    rw [hr] at this
    exact this
  | @use l w fs out err es s _ hi hf hr hv hl ih =>
    obtain ⟨h1, h2, h3, h4, h5⟩ := ih
    have hs := (no_leak hr hv hl ⟨true, 0, none, 0, 0⟩).1
    refine ⟨h1, h2, fun hc => ?_, ?_, h5⟩
    · simp only at hc; rw [hi] at hc; cases hc
    · rw [hf] at h4
      simp only [hs]
      simp only [Bool.false_eq_true, if_false] at h4
      omega
  | @term l w ok rc l' w' _ hr ih =>
    obtain ⟨_, _, _, k1, k2, -⟩ := term_owns ih ok
    rw [k1] at hr
    cases hr
    exact k2

/-- **C113.** However often the logger is created, used and destroyed, and whatever fails: once it is destroyed no
mutex, no attribute and no stream is left, and destroying it is never undefined; it fails iff the logger was
not in use or its file cannot be closed. -/
theorem no_leak {e : Env} {w₀ w : World} {l : Logger} (h : Hist e w₀ l w) (ok : Bool) :
    ∃ rc l' w', term ok l w = .ok (rc, l', w') ∧ w'.mutexes = w₀.mutexes ∧ w'.attrs = w₀.attrs ∧ w'.streams = w₀.streams ∧
      l'.init = false ∧ (rc = 0 ∨ rc = -1) ∧ (rc = -1 ↔ l.init = false ∨ l.fp = true ∧ ok = false) := by
  obtain ⟨rc, l', w', h1, ⟨k1, k2, k3, k4, k5⟩, h3, h4⟩ := term_owns (hist_owns h) ok
  refine ⟨rc, l', w', h1, ?_, k1, ?_, h3, h4⟩
  · have : l'.mtx = .zero := by
      by_cases hm : l'.mtx = .zero
      · exact hm
      · rw [k2.2 hm] at h3; cases h3
    rw [k5, this]; simp
  · rw [k4, k3 h3]; simp

/-- **C113 is violated** by every failure of creating the logger: the header promises a negative number, the
result is a positive one. -/
theorem init_result_violated (e : Env) (w : World) :
    0 ≤ (init e w).1 ∧ (e.attr w.n ≠ 0 → 0 < (init e w).1) ∧
    (e.attr w.n = 0 → e.mutex w.n ≠ 0 → 0 < (init e w).1) := by
  refine ⟨?_, ?_, ?_⟩
  · exact Int.natCast_nonneg _
  · intro h
    simp only [init, mutexInit, if_pos h]
    omega
  · intro h h'
    simp only [init, mutexInit, h, ne_eq, not_true_eq_false, if_false]
    omega

/-- Creating the logger reports success iff both calls succeed, and sets `errno` just otherwise.
Missing: that the result is negative then (`init_result_violated`). -/
theorem init_partial (e : Env) (w : World) :
    ((init e w).1 = 0 ↔ e.attr w.n = 0 ∧ e.mutex w.n = 0) ∧
    ((init e w).1 ≠ 0 → ((init e w).2.2.errno : Int) = (init e w).1) ∧
    ((init e w).1 = 0 → (init e w).2.2.errno = w.errno) ∧ (init e w).2.1.init = true := by
  unfold init mutexInit
  by_cases ha : e.attr w.n = 0
  · by_cases hm : e.mutex w.n = 0
    · simp [ha, hm]
    · simp [ha, hm]
  · simp [ha]

/-- **C113 is violated** by destroying a logger that is not in use: the result is negative, but `errno` is not set. -/
theorem term_errno_violated (ok : Bool) (l : Logger) (w : World) (h : l.init = false) : term ok l w = .ok (-1, l, w) := by
  unfold term
  rw [h]
  rfl

/-- On Windows the mutex is always made, and destroyed by destroying the logger. -/
theorem win_mutex (w : World) : ∃ m w', winMutexInit w = (0, m, w') ∧ winMutexTerm m w' = .ok (0, w) :=
  ⟨_, _, rfl, rfl⟩

/-! ## Examples -/

/-- The second creation fails for lack of memory. -/
def env : Env := ⟨fun n => if n = 1 then 12 else 0, fun _ => 0⟩

def world : World := ⟨0, 0, 3, 0, 0⟩

/-- Created, destroyed, created in vain, destroyed. -/
example : Hist env world ⟨false, false, .zero⟩ ⟨0, 0, 3, 2, 12⟩ :=
  .term (ok := true) (rc := 0) (.init (rc := 12) (.term (ok := true) (rc := 0) (.init (rc := 0) .start rfl rfl) rfl) rfl rfl) rfl

example : (init env ⟨0, 0, 3, 1, 0⟩).1 = 12 := by decide

end Verif.Log.Life
