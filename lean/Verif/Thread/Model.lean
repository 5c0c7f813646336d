import Verif.Ini.Model
import Verif.Thread.Spec

/-!
# Model of thread/sc_thread.c

Threads of the system are named by numbers, never 0 (so it is in the implementations the library is
written for; POSIX leaves `pthread_t` opaque). Any call can fail with any error. A join of something
that is not a thread of the process, or has been joined, is undefined (POSIX).
-/

namespace Verif.Thread

open Ini (strncpy)
open Spec (Event)

/-- A thread of the system. -/
inductive Th where
  | running (fn arg : Nat)
  | finished (v : Nat)
  deriving DecidableEq

/-- `struct sc_thread`, thread/sc_thread.h:53-56: `err` has 128 bytes. -/
structure Obj where
  id : Nat
  err : List UInt8

/-- The threads of the process that have not been joined. -/
abbrev World := Nat → Option Th

/-- `sc_thread_init`, thread/sc_thread.c:36-39 -/
def init (t : Obj) : Obj := { t with id := 0 }

/-- How the calls of `sc_thread_start` turn out: results of `pthread_attr_init` and
`pthread_create`, and the number the latter stores, which is unspecified if it fails. -/
structure StartOut where
  attr : Int
  create : Int
  id : Nat

/-- `sc_thread_start`, thread/sc_thread.c:121-144. `strerror` gives the texts. -/
def start (strerror : Int → List UInt8) (o : StartOut) (fn arg : Nat) (w : World) (t : Obj) : Res (Int × World × Obj) :=
  if o.attr ≠ 0 then do
    let err ← strncpy t.err (strerror o.attr) 0 (128 - 1)
    .ok (-1, w, { t with err := err })
  else
    let t := { t with id := o.id }
    if o.create ≠ 0 then do
      let err ← strncpy t.err (strerror o.create) 0 (128 - 1)
      .ok (o.create, w, { t with err := err })
    else .ok (o.create, fun i => if i = o.id then some (.running fn arg) else w i, t)

/-- `pthread_join` with result `rc`: the value, and the threads; `none` if it waits. A failed join
changes nothing. -/
def pjoin (rc : Int) (id : Nat) (w : World) : Res (Option (Nat × World)) :=
  match w id with
  | none => .ub
  | some (.running _ _) => if rc = 0 then .ok none else .ok (some (0, w))
  | some (.finished v) => if rc = 0 then .ok (some (v, fun i => if i = id then none else w i)) else .ok (some (0, w))

/-- thread/sc_thread.c:156-158 -/
def noteErr (strerror : Int → List UInt8) (rc : Int) (t : Obj) : Res Obj :=
  if rc ≠ 0 then do
    let err ← strncpy t.err (strerror rc) 0 (128 - 1)
    .ok { t with err := err }
  else .ok t

/-- `sc_thread_join`, thread/sc_thread.c:146-168, and `sc_thread_term`, 172-175, which drops the
value: result, value and state, or `none` if it waits. -/
def join (strerror : Int → List UInt8) (rc : Int) (w : World) (t : Obj) : Res (Option (Int × Nat × World × Obj)) :=
  if t.id = 0 then .ok (some (0, 0, w, t))
  else do
    let r ← pjoin rc t.id w
    match r with
    | none => .ok none
    | some (val, w) => do
      let t ← noteErr strerror rc t
      .ok (some (rc, val, w, { t with id := 0 }))

/-- The object and the threads. -/
structure State where
  w : World
  t : Obj

/-- The environment: texts of errors, and what a failed `pthread_create` can leave in place of a
number. -/
structure Env where
  strerror : Int → List UInt8
  junk : (old new : Nat) → Prop

/-- A started thread has a new number; a failed start may leave junk. -/
def Env.allows (env : Env) (s : State) (o : StartOut) : Prop :=
  o.attr = 0 → (o.create = 0 → o.id ≠ 0 ∧ s.w o.id = none) ∧ (o.create ≠ 0 → env.junk s.t.id o.id)

/-- What happens: the program uses the object, a thread ends. -/
inductive Step (env : Env) : State → Event → State → Prop
  | started {s o fn arg w t} : env.allows s o →
      start env.strerror o fn arg s.w s.t = .ok (0, w, t) → Step env s (.started o.id fn arg) ⟨w, t⟩
  | startFailed {s o fn arg rc w t} : env.allows s o →
      start env.strerror o fn arg s.w s.t = .ok (rc, w, t) → rc ≠ 0 → Step env s (.startFailed rc) ⟨w, t⟩
  | finished {s} (id v : Nat) {fn arg : Nat} : s.w id = some (.running fn arg) →
      Step env s (.finished id v) { s with w := fun i => if i = id then some (.finished v) else s.w i }
  | joined {s rc v w t} : join env.strerror rc s.w s.t = .ok (some (0, v, w, t)) → Step env s (.joined v) ⟨w, t⟩
  | joinFailed {s rc e v w t} : join env.strerror rc s.w s.t = .ok (some (e, v, w, t)) → e ≠ 0 →
      Step env s (.joinFailed e) ⟨w, t⟩

inductive Run (env : Env) : State → List Event → State → Prop
  | refl {s} : Run env s [] s
  | step {s s' s'' e es} : Run env s es s' → Step env s' e s'' → Run env s (es ++ [e]) s''

/-! ## Windows -/

/-- `struct sc_thread`, thread/sc_thread.h:41-47: `err` has 64 bytes; `ret` is not initialised. -/
structure WObj where
  id : Nat
  fn : Nat
  arg : Nat
  ret : Nat
  err : List UInt8

/-- `sc_thread_errstr`, thread/sc_thread.c:49-62; no text if `FormatMessageA` fails. -/
def errstr (msg : Option (List UInt8)) (t : WObj) : Res WObj :=
  match msg with
  | some m => do
    let err ← strncpy t.err m 0 (64 - 1)
    .ok { t with err := err }
  | none => .ok t

/-- `sc_thread_start`, thread/sc_thread.c:72-86: `h` is the handle, 0 if `_beginthreadex` fails. -/
def winStart (h : Nat) (msg : Option (List UInt8)) (fn arg : Nat) (t : WObj) : Res (Int × WObj) :=
  let t := { t with fn := fn, arg := arg }
  let t := { t with id := h }
  if t.id = 0 then do
    let t ← errstr msg t
    .ok (-1, t)
  else .ok (0, t)

/-- `sc_thread_fn`, thread/sc_thread.c:64-70: the started thread stores what the function returned. -/
def winBody (v : Nat) (t : WObj) : WObj := { t with ret := v }

/-- `sc_thread_join`, thread/sc_thread.c:88-118, once the thread has ended: `wok` and `cok` say
whether `WaitForSingleObject` and `CloseHandle` succeed. -/
def winJoin (wok cok : Bool) (msg : Option (List UInt8)) (t : WObj) : Res (Int × Nat × WObj) :=
  if t.id = 0 then .ok (0, t.ret, t)
  else do
    let (rc, t) ← if ¬ wok then do
        let t ← errstr msg t
        .ok ((-1 : Int), t)
      else .ok (0, t)
    let (rc, t) ← if ¬ cok then do
        let t ← errstr msg t
        .ok ((-1 : Int), t)
      else .ok (rc, t)
    .ok (rc, t.ret, { t with id := 0 })

end Verif.Thread
