import Verif.Basic

/-!
# What a thread object is

It stands for at most one thread. Joining waits for that thread and yields what its function
returned; then, and before anything is started, the object stands for none, and joining yields
nothing at once.
-/

namespace Verif.Thread.Spec

/-- What can be observed. -/
inductive Event where
  /-- a call of start returned 0 and the thread `id` runs `fn(arg)` -/
  | started (id fn arg : Nat)
  /-- a call of start returned an error -/
  | startFailed (rc : Int)
  /-- the function of thread `id` returned `v` -/
  | finished (id v : Nat)
  /-- a call of join returned 0 and this value -/
  | joined (v : Nat)
  /-- a call of join returned an error -/
  | joinFailed (rc : Int)
  deriving DecidableEq

/-- The thread the object stands for, and what finished threads that have not been joined returned. -/
structure State where
  cur : Option Nat
  res : Nat → Option Nat

def State.init : State := ⟨none, fun _ => none⟩

inductive Step : State → Event → State → Prop
  | started {s} (id fn arg : Nat) : Step s (.started id fn arg) { s with cur := some id }
  | startFailed {s} (rc : Int) : rc ≠ 0 → Step s (.startFailed rc) s
  | finished {s} (id v : Nat) : s.res id = none →
      Step s (.finished id v) { s with res := fun i => if i = id then some v else s.res i }
  /-- the value of the thread, once -/
  | joined {s id v} : s.cur = some id → s.res id = some v →
      Step s (.joined v) ⟨none, fun i => if i = id then none else s.res i⟩
  /-- nothing to join: 0 at once, no value -/
  | nothing {s} : s.cur = none → Step s (.joined 0) s
  | joinFailed {s id} (rc : Int) : s.cur = some id → rc ≠ 0 → Step s (.joinFailed rc) { s with cur := none }

inductive Run : State → List Event → State → Prop
  | refl {s} : Run s [] s
  | step {s s' s'' e es} : Run s es s' → Step s' e s'' → Run s (es ++ [e]) s''

end Verif.Thread.Spec
