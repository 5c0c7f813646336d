import Verif.Cond.Spec

/-!
# Model of condition/sc_cond.c

The POSIX part. Any number of threads call `sc_cond_signal` and `sc_cond_wait` on one object. Each
access to a field and each call of the thread library is one step, and the steps of different
threads mix in any way the library allows:

* a mutex is locked by one thread at a time, and locking waits until it is free;
* `pthread_cond_wait` unlocks the mutex and blocks in one step; a blocked thread that is woken locks
  the mutex again before it goes on;
* `pthread_cond_signal` wakes at least one blocked thread, if there is any, and maybe several;
* a blocked thread can also wake for no reason.

The functions of the library do not fail when called on initialised objects (the asserts).
-/

namespace Verif.Cond

open Spec (Op Event)

/-! ## Creating and destroying -/

/-- What the process holds of the thread library. -/
structure Held where
  attrs : Int
  mutexes : Int
  conds : Int
  deriving DecidableEq

/-- The fields of `struct sc_cond` that are not library objects, condition/sc_cond.h:45-58. -/
structure Obj where
  init : Bool
  done : Bool
  data : Nat
  deriving DecidableEq

/-- The results of the calls in `sc_cond_init`: 0 or an error number. -/
structure InitOut where
  attr : Int
  mutex : Int
  cond : Int

/-- `sc_cond_init`, condition/sc_cond.c:105-147: returned value, `errno`, the object, and what is
held. `pthread_mutexattr_settype` and the destroy functions do not fail. -/
def init (o : InitOut) (errno : Int) (h : Held) : Int × Int × Obj × Held :=
  let c : Obj := ⟨false, false, 0⟩
  if o.attr ≠ 0 then (-1, o.attr, c, h)
  else
    let h := { h with attrs := h.attrs + 1 }
    if o.mutex ≠ 0 then
      let h := { h with attrs := h.attrs - 1 }
      (-1, o.mutex, c, h)
    else
      let h := { h with mutexes := h.mutexes + 1 }
      if o.cond ≠ 0 then
        let h := { h with mutexes := h.mutexes - 1 }
        let h := { h with attrs := h.attrs - 1 }
        (-1, o.cond, c, h)
      else
        let h := { h with conds := h.conds + 1 }
        let h := { h with attrs := h.attrs - 1 }
        (0, errno, { c with init := true }, h)

/-- `sc_cond_term`, condition/sc_cond.c:149-172: returned value, `errno`, the object and what is
held, where `rm` and `rc` are the results of the destroy functions. A failed destroy keeps what was
held. -/
def term (rm rc : Int) (c : Obj) (h : Held) : Int × Int × Obj × Held :=
  let errno := 0
  if ¬ c.init then (0, errno, c, h)
  else
    let errno := if rm ≠ 0 then rm else errno
    let h := if rm = 0 then { h with mutexes := h.mutexes - 1 } else h
    let errno := if rc ≠ 0 ∧ errno = 0 then rc else errno
    let h := if rc = 0 then { h with conds := h.conds - 1 } else h
    (errno, errno, { c with init := false }, h)

/-! ## Signalling and waiting -/

/-- Where a thread is: the next thing it does. -/
inductive Status where
  | idle
  /-- line 178, lock -/
  | sLock (d : Nat)
  /-- line 180, store the data -/
  | sData (d : Nat)
  /-- line 181, set the flag -/
  | sDone (d : Nat)
  /-- line 184, `pthread_cond_signal` -/
  | sWake (d : Nat)
  /-- line 188, unlock -/
  | sUnlock (d : Nat)
  /-- line 196, lock -/
  | wLock
  /-- line 198, test of the flag -/
  | wTest
  /-- line 200, `pthread_cond_wait` -/
  | wBlock
  /-- inside `pthread_cond_wait`, asleep -/
  | blocked
  /-- inside `pthread_cond_wait`, awake and locking the mutex again -/
  | relock
  /-- line 205, load of the data -/
  | wRead
  /-- line 206, clear the data -/
  | wData (v : Nat)
  /-- line 207, clear the flag -/
  | wDone (v : Nat)
  /-- line 209, unlock -/
  | wUnlock (v : Nat)
  deriving DecidableEq

/-- The object, the owner of its mutex, and the threads. -/
structure State where
  lock : Option Nat
  done : Bool
  data : Nat
  th : Nat → Status

/-- After `sc_cond_init`, condition/sc_cond.c:109. -/
def State.fresh : State := ⟨none, false, 0, fun _ => .idle⟩

/-- A thread moves on. -/
def State.set (s : State) (t : Nat) (x : Status) : State :=
  { s with th := fun i => if i = t then x else s.th i }

/-- The blocked threads in `p` wake. -/
def State.wake (s : State) (p : Nat → Bool) : State :=
  { s with th := fun i => if s.th i = .blocked ∧ p i = true then .relock else s.th i }

/-- Where a call begins. -/
def Op.entry : Op → Status
  | .signal d => .sLock d
  | .wait => .wLock

/-- What a step is, seen from outside. -/
inductive Label where
  /-- a call or a return -/
  | ev (e : Event)
  /-- a step inside a function -/
  | tau
  /-- a thread wakes for no reason -/
  | spurious

/-- The steps of `sc_cond_signal`, condition/sc_cond.c:174-189, and of `sc_cond_wait`,
condition/sc_cond.c:191-212. -/
inductive Step : State → Label → State → Prop
  | call {s} (t : Nat) (op : Op) : s.th t = .idle → Step s (.ev (.call t op)) (s.set t (Op.entry op))
  /-- condition/sc_cond.c:178 -/
  | sLock {s t d} : s.th t = .sLock d → s.lock = none → Step s .tau { s.set t (.sData d) with lock := some t }
  /-- condition/sc_cond.c:180 -/
  | sData {s t d} : s.th t = .sData d → Step s .tau { s.set t (.sDone d) with data := d }
  /-- condition/sc_cond.c:181 -/
  | sDone {s t d} : s.th t = .sDone d → Step s .tau { s.set t (.sWake d) with done := true }
  /-- condition/sc_cond.c:184 -/
  | sWake {s t d} (p : Nat → Bool) : s.th t = .sWake d →
      ((∃ i, s.th i = .blocked) → ∃ i, s.th i = .blocked ∧ p i = true) →
      Step s .tau ((s.wake p).set t (.sUnlock d))
  /-- condition/sc_cond.c:188 -/
  | sUnlock {s t d} : s.th t = .sUnlock d → Step s (.ev (.ret t (.signal d) 0)) { s.set t .idle with lock := none }
  /-- condition/sc_cond.c:196 -/
  | wLock {s t} : s.th t = .wLock → s.lock = none → Step s .tau { s.set t .wTest with lock := some t }
  /-- condition/sc_cond.c:198 -/
  | wTest {s t} : s.th t = .wTest → Step s .tau (s.set t (if s.done = false then .wBlock else .wRead))
  /-- condition/sc_cond.c:200 -/
  | wBlock {s t} : s.th t = .wBlock → Step s .tau { s.set t .blocked with lock := none }
  | spurious {s t} : s.th t = .blocked → Step s .spurious (s.set t .relock)
  /-- condition/sc_cond.c:200 -/
  | relock {s t} : s.th t = .relock → s.lock = none → Step s .tau { s.set t .wTest with lock := some t }
  /-- condition/sc_cond.c:205 -/
  | wRead {s t} : s.th t = .wRead → Step s .tau (s.set t (.wData s.data))
  /-- condition/sc_cond.c:206 -/
  | wData {s t v} : s.th t = .wData v → Step s .tau { s.set t (.wDone v) with data := 0 }
  /-- condition/sc_cond.c:207 -/
  | wDone {s t v} : s.th t = .wDone v → Step s .tau { s.set t (.wUnlock v) with done := false }
  /-- condition/sc_cond.c:209-211 -/
  | wUnlock {s t v} : s.th t = .wUnlock v → Step s (.ev (.ret t .wait v)) { s.set t .idle with lock := none }

/-- What can be observed of a step. -/
def Label.seen : Label → List Event
  | .ev e => [e]
  | _ => []

/-- Executions, and what can be observed of them. -/
inductive Run : State → List Event → State → Prop
  | refl {s} : Run s [] s
  | step {s s' s'' l es} : Run s es s' → Step s' l s'' → Run s (es ++ l.seen) s''

/-- Steps that the functions take on their own: no new call, and no waking for no reason. -/
def Label.own : Label → Prop
  | .ev (.call _ _) => False
  | .ev (.ret _ _ _) => True
  | .tau => True
  | .spurious => False

/-- Executions of a number of such steps. -/
inductive Settle : State → Nat → State → Prop
  | refl {s} : Settle s 0 s
  | step {s s' s'' l n} : Settle s n s' → Step s' l s'' → l.own → Settle s (n + 1) s''

end Verif.Cond
