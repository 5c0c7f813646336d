import Verif.Basic

/-!
# Model of mutex/sc_mutex.c

The POSIX part. A normal mutex: locking waits while anybody owns it, the caller included; unlocking
by anybody but the owner is undefined. The asserts say that the library functions do not fail.
-/

namespace Verif.Mutex

/-- What the process holds of the thread library. -/
structure Held where
  attrs : Int
  mutexes : Int
  deriving DecidableEq

/-- `sc_mutex_init`, mutex/sc_mutex.c:65-92, with the results of `pthread_mutexattr_init` and
`pthread_mutex_init`. -/
def init (ra rm : Int) (h : Held) : Int × Held :=
  if ra ≠ 0 then (-1, h)
  else
    let h := { h with attrs := h.attrs + 1 }
    let rc := rm
    let h := if rc = 0 then { h with mutexes := h.mutexes + 1 } else h
    let h := { h with attrs := h.attrs - 1 }
    (if rc ≠ 0 then -1 else 0, h)

/-- `sc_mutex_term`, mutex/sc_mutex.c:94-100, with the result of `pthread_mutex_destroy`. -/
def term (rm : Int) (h : Held) : Int × Held :=
  let rc := rm
  let h := if rc = 0 then { h with mutexes := h.mutexes - 1 } else h
  (if rc ≠ 0 then -1 else 0, h)

/-- The mutex, and which threads wait for it. -/
structure State where
  owner : Option Nat
  waiting : Nat → Bool

def State.fresh : State := ⟨none, fun _ => false⟩

inductive Event where
  /-- `sc_mutex_lock` returned -/
  | locked (t : Nat)
  /-- `sc_mutex_unlock` returned -/
  | unlocked (t : Nat)
  deriving DecidableEq

/-- `sc_mutex_unlock`, mutex/sc_mutex.c:112-120, by thread `t`. -/
def unlock (t : Nat) (s : State) : Res State := if s.owner = some t then .ok { s with owner := none } else .ub

inductive Step : State → Option Event → State → Prop
  /-- `sc_mutex_lock`, mutex/sc_mutex.c:102-110, is called -/
  | lock {s} (t : Nat) : s.waiting t = false → Step s none { s with waiting := fun i => if i = t then true else s.waiting i }
  /-- and returns -/
  | locked {s t} : s.waiting t = true → s.owner = none →
      Step s (some (.locked t)) ⟨some t, fun i => if i = t then false else s.waiting i⟩
  | unlocked {s s' t} : s.waiting t = false → unlock t s = .ok s' → Step s (some (.unlocked t)) s'

inductive Run : State → List Event → State → Prop
  | refl {s} : Run s [] s
  | step {s s' s'' e es} : Run s es s' → Step s' e s'' → Run s (es ++ e.toList) s''

end Verif.Mutex
