import Verif.Ini.Model
import Verif.Log.Spec

/-!
# Model of logger/sc_log.c

The variant with C11 atomics. Any number of threads call the functions; each call of the C library
is one step, and steps of different threads mix in any way the mutex allows. Whether a call of the
library succeeds, and how much it has written if not, is arbitrary.

Files are named by their paths, and nobody else touches them. A stream is taken to have written what
was printed to it; what buffers mean for a process that dies is modelled in Crash.lean. `time` and `localtime_r` yield any time. What `vfprintf`
makes of a message is given as the text. Strings are in the "C" locale.
-/

namespace Verif.Log

open Spec (Level Tm)
open Ini (strncpy)

/-! ## Levels -/

/-- `tolower` of a `char`, which is signed (C11 7.4): only for values of `unsigned char` and EOF. -/
def tolowerChar (c : UInt8) : Res Int :=
  if c < 128 then .ok (toLower c).toNat else if c = 255 then .ok (-1) else .ub

/-- The loop of `sc_strcasecmp`, logger/sc_log.c:222-231. -/
def strcasecmpLoop (a b : List UInt8) : (fuel i : Nat) → Res Int
  | 0, _ => .ub
  | fuel + 1, i => do
    let x ← rd a i
    let y ← rd b i
    if x = 0 ∧ y = 0 then .ok 0
    else do
      let u ← tolowerChar x
      let v ← tolowerChar y
      if u - v ≠ 0 then .ok (u - v) else strcasecmpLoop a b fuel (i + 1)

/-- `sc_strcasecmp`, logger/sc_log.c:218-232 -/
def strcasecmp (a b : List UInt8) : Res Int := strcasecmpLoop a b (a.length + 1) 0

/-- `sc_log_levels`, logger/sc_log.h:53-63 -/
def levels : List (Level × List UInt8) :=
  [(.debug, [68, 69, 66, 85, 71, 0]), (.info, [73, 78, 70, 79, 0]), (.warn, [87, 65, 82, 78, 0]),
   (.error, [69, 82, 82, 79, 82, 0]), (.off, [79, 70, 70, 0])]

/-- The loop of `sc_log_set_level`, logger/sc_log.c:238-249. -/
def setLevelLoop (level : Level) (str : List UInt8) : List (Level × List UInt8) → Res (Level × Int)
  | [] => .ok (level, -1)
  | (l, s) :: ls => do
    let r ← strcasecmp str s
    if r = 0 then .ok (l, 0) else setLevelLoop level str ls

/-- `sc_log_set_level`, logger/sc_log.c:234-252: the new level and the result. -/
def setLevel (level : Level) (str : List UInt8) : Res (Level × Int) := setLevelLoop level str levels

/-! ## Names of threads -/

/-- `sc_name` at first, logger/sc_log.c:71: "Thread" -/
def name0 : List UInt8 := [84, 104, 114, 101, 97, 100] ++ List.replicate 26 0

/-- `sc_log_set_thread_name`, logger/sc_log.c:213-216 -/
def setName (name str : List UInt8) : Res (List UInt8) := strncpy name str 0 31

/-! ## The state -/

/-- `struct sc_log`, logger/sc_log.c:156-170, but for the mutex and the level, and what can be
observed: the files, the standard streams, the calls of the callback and the number of open
streams. -/
structure Shared where
  fp : Bool
  cur : List UInt8
  prev : List UInt8
  size : Nat
  toStdout : Bool
  cb : Option Nat
  fs : List UInt8 → Option (List UInt8)
  out : List UInt8
  err : List UInt8
  calls : List (Nat × Level × List UInt8)
  streams : Nat

/-- How a call of the library turns out: whether it succeeds, how many bytes it has written if not,
the local time, the result of a callback, and `errno`. -/
structure Out where
  ok : Bool
  n : Nat := 0
  tm : Option Tm := none
  rc : Int32 := 0
  errno : Int := 0

/-- What is written of a text. -/
def Out.put (o : Out) (text : List UInt8) : List UInt8 := if o.ok then text else text.take o.n

/-- Appends to the stream of a level, logger/sc_log.c:358. -/
def Shared.emit (s : Shared) (l : Level) (bytes : List UInt8) : Shared :=
  if l = .error then { s with err := s.err ++ bytes } else { s with out := s.out ++ bytes }

/-- Changes a file. -/
def Shared.file (s : Shared) (path : List UInt8) (c : Option (List UInt8)) : Shared :=
  { s with fs := fun p => if p = path then c else s.fs p }

/-- Appends to a file. -/
def Shared.append (s : Shared) (path bytes : List UInt8) : Shared :=
  s.file path (some ((s.fs path).getD [] ++ bytes))

/-- `"%02d"` -/
def two (n : Nat) : List UInt8 := if (dec n).length < 2 then 48 :: dec n else dec n

/-- The text printed by `sc_log_print_header`, logger/sc_log.c:344-347. -/
def header (tm : Tm) (l : Level) (name : List UInt8) : List UInt8 :=
  [91] ++ dec tm.year ++ [45] ++ two tm.mon ++ [45] ++ two tm.mday ++ [32] ++ two tm.hour ++ [58] ++
    two tm.min ++ [58] ++ two tm.sec ++ [93] ++ [91] ++
    (l.name ++ List.replicate (5 - l.name.length) 32) ++ [93] ++ [91] ++ name ++ [93] ++ [32]

/-- SC_LOG_FILE_SIZE, logger/sc_log.h:69 -/
def LIMIT : Nat := 2097152

/-! ## Critical sections -/

/-- What is called. A message is given as its text; the names of files as blocks of memory. -/
inductive Op where
  | log (l : Level) (msg : List UInt8)
  | setStdout (b : Bool)
  | setCallback (cb : Option Nat)
  | setFile (names : Option (List UInt8 × List UInt8))

/-- Positions inside the critical sections. -/
inductive Pc where
  /-- logger/sc_log.c:360 -/
  | out1
  /-- logger/sc_log.c:365 -/
  | out2
  /-- logger/sc_log.c:377 -/
  | file1
  /-- logger/sc_log.c:382-389 -/
  | file2
  /-- logger/sc_log.c:390 -/
  | rotClose
  /-- logger/sc_log.c:391 -/
  | rotRename
  /-- logger/sc_log.c:393-398 -/
  | rotOpen
  /-- logger/sc_log.c:442-446 -/
  | callback
  /-- logger/sc_log.c:257, 326-327 -/
  | assign
  /-- logger/sc_log.c:269-275 -/
  | close
  /-- logger/sc_log.c:277-287 -/
  | names
  /-- logger/sc_log.c:289-292 -/
  | open
  /-- logger/sc_log.c:294-296 -/
  | newline
  /-- logger/sc_log.c:298-304 -/
  | tell
  /-- logger/sc_log.c:312-313 -/
  | failed
  /-- the mutex is released: logger/sc_log.c:258, 316, 328, 448 -/
  | unlock
  deriving DecidableEq

/-- Locals: the position, `rc` and `saved_errno`. -/
structure Loc where
  pc : Pc
  rc : Int32 := 0
  errno : Int := 0

/-- Where a critical section begins. -/
def start : Op → Loc
  | .log .. => { pc := .out1 }
  | .setStdout _ => { pc := .assign }
  | .setCallback _ => { pc := .assign }
  | .setFile _ => { pc := .close }

/-- The position after a failure in `sc_log_stdout` or `sc_log_file`, whose result is or-ed to `rc`. -/
def Loc.fail (loc : Loc) (pc : Pc) : Loc := { loc with pc := pc, rc := loc.rc ||| -1 }

/-- One step of `sc_log_log`, logger/sc_log.c:404-451, with `sc_log_stdout`, logger/sc_log.c:355-371,
`sc_log_file`, logger/sc_log.c:373-402, and `sc_log_print_header`, logger/sc_log.c:331-353. -/
def stepLog (name : List UInt8) (l : Level) (msg : List UInt8) (loc : Loc) (o : Out) (s : Shared) :
    Res (Loc × Shared) :=
  match loc.pc with
  | .out1 =>
    if s.toStdout then
      match o.tm with
      | none => .ok (loc.fail .file1, s)
      | some tm => do
        let nm ← cstr name 0
        .ok (if o.ok then { loc with pc := .out2 } else loc.fail .file1, s.emit l (o.put (header tm l nm)))
    else .ok ({ loc with pc := .file1 }, s)
  | .out2 => .ok (if o.ok then { loc with pc := .file1 } else loc.fail .file1, s.emit l (o.put msg))
  | .file1 =>
    if s.fp then
      match o.tm with
      | none => .ok (loc.fail .callback, s)
      | some tm => do
        let nm ← cstr name 0
        let path ← cstr s.cur 0
        .ok (if o.ok then { loc with pc := .file2 } else loc.fail .callback,
          s.append path (o.put (header tm l nm)))
    else .ok ({ loc with pc := .callback }, s)
  | .file2 => do
    let path ← cstr s.cur 0
    let s := s.append path (o.put msg)
    if o.ok then
      let s := { s with size := add64 s.size msg.length }
      .ok ({ loc with pc := if s.size > LIMIT then .rotClose else .callback }, s)
    else .ok (loc.fail .callback, s)
  | .rotClose => .ok ({ loc with pc := .rotRename }, { s with streams := s.streams - 1 })
  | .rotRename => do
    let cur ← cstr s.cur 0
    let prev ← cstr s.prev 0
    .ok ({ loc with pc := .rotOpen },
      if o.ok ∧ cur ≠ prev then (s.file prev (s.fs cur)).file cur none else s)
  | .rotOpen => do
    let path ← cstr s.cur 0
    if o.ok then
      .ok ({ loc with pc := .callback },
        { s.file path (some []) with fp := true, size := 0, streams := s.streams + 1 })
    else .ok (loc.fail .callback, { s with fp := false })
  | .callback =>
    match s.cb with
    | some f => .ok ({ loc with pc := .unlock, rc := loc.rc ||| o.rc },
        { s with calls := s.calls ++ [(f, l, msg)] })
    | none => .ok ({ loc with pc := .unlock }, s)
  | _ => .ub

/-- One step of `sc_log_set_file`, logger/sc_log.c:261-320. The result of `fclose` is ignored. After
the check of the names `errno` is what it happens to be. -/
def stepFile (names : Option (List UInt8 × List UInt8)) (loc : Loc) (o : Out) (s : Shared) :
    Res (Loc × Shared) :=
  match loc.pc with
  | .close => do
    let prev ← wr s.prev 0 0
    let cur ← wr s.cur 0 0
    .ok ({ loc with pc := .names },
      { s with fp := false, streams := if s.fp then s.streams - 1 else s.streams, prev := prev, cur := cur })
  | .names =>
    match names with
    | none => .ok ({ loc with pc := .unlock }, s)
    | some (p, c) => do
      let lp ← strlen p 0
      let lc ← strlen c 0
      if lp ≥ 255 ∨ lc ≥ 255 then .ok ({ pc := .unlock, rc := -1, errno := o.errno }, s)
      else do
        let prev ← memcpy s.prev 0 p 0 (lp + 1)
        let cur ← memcpy s.cur 0 c 0 (lc + 1)
        .ok ({ loc with pc := .open }, { s with prev := prev, cur := cur })
  | .open => do
    let path ← cstr s.cur 0
    if o.ok then .ok ({ loc with pc := .newline }, { s.append path [] with streams := s.streams + 1 })
    else .ok ({ pc := .unlock, rc := -1, errno := o.errno }, s)
  | .newline => do
    let path ← cstr s.cur 0
    .ok (if o.ok then { loc with pc := .tell } else { pc := .failed, rc := -1, errno := o.errno },
      s.append path (o.put [10]))
  | .tell => do
    let path ← cstr s.cur 0
    if o.ok then
      .ok ({ loc with pc := .unlock }, { s with size := ((s.fs path).getD []).length, fp := true })
    else .ok ({ pc := .failed, rc := -1, errno := o.errno }, s)
  | .failed => .ok ({ loc with pc := .unlock }, { s with streams := s.streams - 1 })
  | _ => .ub

/-- One step inside a critical section; `sc_log_set_stdout`, logger/sc_log.c:254-259, and
`sc_log_set_callback`, logger/sc_log.c:322-329, are a single one. -/
def step (name : List UInt8) (op : Op) (loc : Loc) (o : Out) (s : Shared) : Res (Loc × Shared) :=
  match op with
  | .log l msg => stepLog name l msg loc o s
  | .setFile names => stepFile names loc o s
  | .setStdout b =>
    match loc.pc with
    | .assign => .ok ({ loc with pc := .unlock }, { s with toStdout := b })
    | _ => .ub
  | .setCallback cb =>
    match loc.pc with
    | .assign => .ok ({ loc with pc := .unlock }, { s with cb := cb })
    | _ => .ub

/-- `sc_log_init`, logger/sc_log.c:173-190: the state after it; `fs`, `out` and `err` are the files and
streams of the process. The level is `info`. -/
def init (fs : List UInt8 → Option (List UInt8)) (out err : List UInt8) : Shared :=
  { fp := false, cur := List.replicate 256 0, prev := List.replicate 256 0, size := 0, toStdout := true,
    cb := none, fs := fs, out := out, err := err, calls := [], streams := 0 }

/-- `sc_log_term`, logger/sc_log.c:192-211, after `sc_log_init`: the streams left open and the result. -/
def term (s : Shared) (o : Out) : Nat × Int :=
  if s.fp then (s.streams - 1, if o.ok then 0 else -1) else (s.streams, 0)

/-! ## Threads -/

/-- What a thread is doing; `outs` is how the calls in the critical section have turned out, which only
events look at. -/
inductive Status where
  | idle
  /-- before line 415 -/
  | check (l : Level) (msg : List UInt8)
  /-- before the mutex is taken: logger/sc_log.c:256, 267, 325, 421 -/
  | waiting (op : Op)
  | inside (op : Op) (loc : Loc) (outs : List Out)

/-- Where a call begins: only `sc_log_log` looks at the level. -/
def Op.entry : Op → Status
  | .log l msg => .check l msg
  | op => .waiting op

/-- A thread: `sc_name` and what it is doing. -/
structure Thread where
  name : List UInt8
  st : Status

/-- The process: `sc_log.level`, the owner of the mutex, the rest of the logger, the threads. -/
structure State where
  level : Level
  lock : Option Nat
  sh : Shared
  th : Nat → Thread

/-- What can be observed. -/
inductive Event where
  /-- a function is called -/
  | call (t : Nat) (op : Op)
  /-- `sc_log_set_level` returns -/
  | level (l : Level) (rc : Int)
  /-- `sc_log_log` returns 0 for a message below the level, which is given too -/
  | skip (t : Nat) (l : Level) (msg : List UInt8) (at_ : Level)
  /-- a function returns, after its calls have turned out in a certain way -/
  | done (t : Nat) (name : List UInt8) (op : Op) (outs : List Out) (loc : Loc)

/-- The state with a thread changed. -/
def State.set (s : State) (t : Nat) (x : Status) : State :=
  { s with th := fun i => if i = t then { s.th i with st := x } else s.th i }

/-- One step of a thread. -/
inductive Step : State → Option Event → State → Prop
  | call {s} (t : Nat) (op : Op) : (s.th t).st = .idle →
      Step s (some (.call t op))
        (s.set t op.entry)
  | setLevel {s l rc} (t : Nat) (str : List UInt8) : (s.th t).st = .idle → setLevel s.level str = .ok (l, rc) →
      Step s (some (.level l rc)) { s with level := l }
  | setName {s name} (t : Nat) (str : List UInt8) : (s.th t).st = .idle → setName (s.th t).name str = .ok name →
      Step s none { s with th := fun i => if i = t then { s.th i with name := name } else s.th i }
  /-- logger/sc_log.c:415-418 -/
  | skip {s t l msg} : (s.th t).st = .check l msg → l.rank < s.level.rank →
      Step s (some (.skip t l msg s.level)) (s.set t .idle)
  /-- logger/sc_log.c:415-418 -/
  | pass {s t l msg} : (s.th t).st = .check l msg → ¬ l.rank < s.level.rank →
      Step s none (s.set t (.waiting (.log l msg)))
  | lock {s t op} : (s.th t).st = .waiting op → s.lock = none →
      Step s none { s.set t (.inside op (start op) []) with lock := some t }
  | step {s t op loc outs loc' sh'} (o : Out) : (s.th t).st = .inside op loc outs → loc.pc ≠ .unlock →
      step (s.th t).name op loc o s.sh = .ok (loc', sh') →
      Step s none { s.set t (.inside op loc' (outs ++ [o])) with sh := sh' }
  | unlock {s t op loc outs} : (s.th t).st = .inside op loc outs → loc.pc = .unlock →
      Step s (some (.done t (s.th t).name op outs loc)) { s.set t .idle with lock := none }

/-- Executions and what can be observed of them. -/
inductive Run : State → List Event → State → Prop
  | refl {s} : Run s [] s
  | step {s s' s'' e es} : Run s es s' → Step s' e s'' → Run s (es ++ e.toList) s''

end Verif.Log
