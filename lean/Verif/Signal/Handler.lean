import Verif.Signal.Model

/-!
# Model of signal/sc_signal.c: the handlers

The shutdown handler runs in small steps, one for each access to a shared variable and each call,
and may itself be interrupted: SIGINT and SIGTERM have the handler with an empty mask, so a signal
is only held back while its own handler runs. The state of one process is a stack of handler
calls. The results of `write` and what calls do to `errno` are arbitrary.

Signal numbers are those of Linux. Built without SC_SIGNAL_TEST, where `sc_exit` is `_Exit`. The
handlers for Windows, signal/sc_signal.c:215-321, are in Verif/Signal/Win.lean.
-/

namespace Verif.Signal

open Spec (Arg)

/-- The text of a literal, with its terminator. -/
def lit (s : String) : List UInt8 := (s.toList.map fun c => UInt8.ofNat c.toNat) ++ [0]

/-- Signal numbers. -/
abbrev SIGHUP : Nat := 1
abbrev SIGINT : Nat := 2
abbrev SIGILL : Nat := 4
abbrev SIGABRT : Nat := 6
abbrev SIGBUS : Nat := 7
abbrev SIGFPE : Nat := 8
abbrev SIGSEGV : Nat := 11
abbrev SIGPIPE : Nat := 13
abbrev SIGTERM : Nat := 15

/-- Positions in `sc_signal_on_shutdown`, signal/sc_signal.c:385-423. -/
inductive Pc where
  /-- before line 387 -/
  | save
  /-- line 397 -/
  | recv
  /-- line 399 -/
  | check
  /-- line 400 -/
  | forceLog
  /-- line 401 -/
  | forceExit
  /-- line 404 -/
  | set
  /-- line 406 -/
  | choose
  /-- line 407 -/
  | sendLog
  /-- line 409 -/
  | send
  /-- line 411 -/
  | failLog
  /-- line 414 -/
  | failExit
  /-- line 417 -/
  | noneLog
  /-- line 419 -/
  | noneExit
  /-- line 422 -/
  | restore
  deriving DecidableEq

/-- A call of the handler: its argument, position and the locals `saved_errno` and `fd`. `entry` is
the value of `errno` when the signal arrived, which only the statements of theorems look at. -/
structure Frame where
  sig : Nat
  pc : Pc
  saved : Int
  fd : Int
  entry : Int
  deriving DecidableEq

/-- The process: `sc_signal_will_shutdown`, `sc_signal_log_fd`, `sc_signal_shutdown_fd`, `errno`, the
running handlers, the latest first, and the exit status. -/
structure State where
  will : Bool
  logFd : Int
  shutFd : Int
  errno : Int
  frames : List Frame
  exit : Option Int

/-- What can be observed. -/
inductive Event where
  /-- the application does something -/
  | app
  /-- a signal is delivered -/
  | arrive (sig : Nat)
  /-- text is written to a descriptor -/
  | text (fd : Int) (bytes : List UInt8)
  /-- a byte is written to the shutdown descriptor, with the result of `write` -/
  | command (fd : Int) (rc : Int)
  /-- `_Exit` -/
  | exit (code : Int)
  /-- the handler returns -/
  | ret (sig : Nat)
  deriving DecidableEq

/-- The name of a shutdown signal, signal/sc_signal.c:389-395. -/
def shutdownName (sig : Nat) : List UInt8 :=
  if sig = SIGINT then lit "SIGINT" else if sig = SIGTERM then lit "SIGTERM" else lit "Shutdown signal"

/-- A call of `sc_signal_log` with a buffer of 4096 bytes. -/
def LogCall (fmt : List UInt8) (args : List Arg) (bytes : List UInt8) : Prop :=
  ∃ buf dst, buf.length = 4096 ∧ dst.length = 32 ∧ log buf 4096 fmt args dst = .ok bytes

/-- Format, arguments and next position of the calls of `sc_signal_log`,
signal/sc_signal.c:397, 400, 407, 411, 417. -/
def logOf (sig : Nat) : Pc → Option (List UInt8 × List Arg × Pc)
  | .recv => some (lit "Recv : %s, (%d) \n", [.str (some (shutdownName sig)), .int (Int32.ofNat sig)], .check)
  | .forceLog => some (lit "Forcing shut down! \n", [], .forceExit)
  | .sendLog => some (lit "Sending shutdown command. \n", [], .send)
  | .failLog => some (lit "Failed to send shutdown command, shutting down immediately! \n", [], .failExit)
  | .noneLog => some (lit "No shutdown handler, shutting down! \n", [], .noneExit)
  | _ => none

/-- One step of the process, with what can be observed of it. -/
inductive Step : State → Option Event → State → Prop
  /-- The application changes `errno` and the descriptors, outside of the handlers. -/
  | app {s} (e l d : Int) : s.exit = none → s.frames = [] →
      Step s (some .app) { s with errno := e, logFd := l, shutFd := d }
  /-- A signal arrives; sigaction, signal/sc_signal.c:487-495: sa_mask is empty, sa_flags is 0. -/
  | arrive {s} (sig : Nat) : s.exit = none → (sig = SIGINT ∨ sig = SIGTERM) →
      (∀ f ∈ s.frames, f.sig ≠ sig) →
      Step s (some (.arrive sig)) { s with frames := ⟨sig, .save, 0, 0, s.errno⟩ :: s.frames }
  /-- signal/sc_signal.c:387-388 -/
  | save {s f fs} : s.exit = none → s.frames = f :: fs → f.pc = .save →
      Step s none { s with frames :=
        { f with pc := .recv, saved := s.errno, fd := if s.logFd ≠ -1 then s.logFd else 1 } :: fs }
  /-- a call of `sc_signal_log` -/
  | log {s f fs fmt args pc bytes} (e : Int) : s.exit = none → s.frames = f :: fs →
      logOf f.sig f.pc = some (fmt, args, pc) → LogCall fmt args bytes →
      Step s (some (.text f.fd bytes)) { s with errno := e, frames := { f with pc := pc } :: fs }
  /-- signal/sc_signal.c:399 -/
  | check {s f fs} : s.exit = none → s.frames = f :: fs → f.pc = .check →
      Step s none { s with frames := { f with pc := if s.will then .forceLog else .set } :: fs }
  /-- signal/sc_signal.c:401, 414 -/
  | exit1 {s f fs} : s.exit = none → s.frames = f :: fs → (f.pc = .forceExit ∨ f.pc = .failExit) →
      Step s (some (.exit 1)) { s with exit := some 1 }
  /-- signal/sc_signal.c:419 -/
  | exit0 {s f fs} : s.exit = none → s.frames = f :: fs → f.pc = .noneExit →
      Step s (some (.exit 0)) { s with exit := some 0 }
  /-- signal/sc_signal.c:404 -/
  | set {s f fs} : s.exit = none → s.frames = f :: fs → f.pc = .set →
      Step s none { s with will := true, frames := { f with pc := .choose } :: fs }
  /-- signal/sc_signal.c:406 -/
  | choose {s f fs} : s.exit = none → s.frames = f :: fs → f.pc = .choose →
      Step s none { s with frames := { f with pc := if s.shutFd ≠ -1 then .sendLog else .noneLog } :: fs }
  /-- signal/sc_signal.c:409-410 -/
  | send {s f fs} (rc e : Int) : s.exit = none → s.frames = f :: fs → f.pc = .send →
      Step s (some (.command s.shutFd rc))
        { s with errno := e, frames := { f with pc := if rc ≠ 1 then .failLog else .restore } :: fs }
  /-- signal/sc_signal.c:422-423 -/
  | restore {s f fs} : s.exit = none → s.frames = f :: fs → f.pc = .restore →
      Step s (some (.ret f.sig)) { s with errno := f.saved, frames := fs }

/-- Executions and what can be observed of them. -/
inductive Run : State → List Event → State → Prop
  | refl {s} : Run s [] s
  | step {s s' s'' e es} : Run s es s' → Step s' e s'' → Run s (es ++ e.toList) s''

/-! ## Fatal signals -/

/-- Dispositions of signals. -/
inductive Disp where
  | dfl | ign | shutdown | fatal
  deriving DecidableEq

/-- The calls of `signal` and `sigaction` in `sc_signal_init`, signal/sc_signal.c:486-509. -/
def initCalls : List (Nat × Disp) :=
  [(SIGHUP, .ign), (SIGPIPE, .ign), (SIGTERM, .shutdown), (SIGINT, .shutdown), (SIGABRT, .fatal),
   (SIGSEGV, .fatal), (SIGBUS, .fatal), (SIGFPE, .fatal), (SIGILL, .fatal)]

/-- The registrations of `sc_signal_init` one after the other; `oks` says which calls succeed. -/
def register : List (Nat × Disp) → (Nat → Bool) → (Nat → Disp) → Bool × (Nat → Disp)
  | [], _, t => (true, t)
  | (sig, d) :: cs, ok, t =>
    let (rc, t') := register cs ok (if ok sig then fun n => if n = sig then d else t n else t)
    (rc && ok sig, t')

/-- `sc_signal_init`, signal/sc_signal.c:478-514: the result and the dispositions. `sigemptyset` does
not fail. -/
def init (ok : Nat → Bool) (t : Nat → Disp) : Int × (Nat → Disp) :=
  let (rc, t) := register initCalls ok t
  (if rc then 0 else -1, t)

/-- The name of a fatal signal, signal/sc_signal.c:434-444. -/
def fatalName (sig : Nat) : List UInt8 :=
  if sig = SIGSEGV then lit "SIGSEGV" else if sig = SIGABRT then lit "SIGABRT"
  else if sig = SIGBUS then lit "SIGBUS" else if sig = SIGFPE then lit "SIGFPE"
  else if sig = SIGILL then lit "SIGILL" else lit "unknown signal"

/-- What the handler of fatal signals does. -/
inductive Act where
  | text (fd : Int) (bytes : List UInt8)
  | backtrace (fd : Int)
  | close (fd : Int)
  | default (sig : Nat)
  | kill (sig : Nat)
  deriving DecidableEq

/-- `sc_signal_on_fatal`, signal/sc_signal.c:425-476; `caller` is the instruction pointer with
HAVE_BACKTRACE, which `sc_instruction`, signal/sc_signal.c:331-379, finds in the context, `none` without. `buf` and `dst` are what the local arrays hold at first; they are
taken to hold it at each call. -/
def onFatal (logFd : Int) (caller : Option UInt64) (buf dst : List UInt8) (sig : Nat) : Res (List Act) := do
  let fd := if logFd ≠ -1 then logFd else 2
  let a ← log buf 4096 (lit "\nSignal : [%d][%s] \n")
    [.int (Int32.ofNat sig), .str (some (fatalName sig))] dst
  let b ← log buf 4096 (lit "\n----------------- CRASH REPORT ---------------- \n") [] dst
  let c ← (match caller with
    | some p => do
      let c ← log buf 4096 (lit "\n Caller [%p] \n\n") [.ptr p] dst
      .ok [.text fd c, .backtrace fd]
    | none => .ok [])
  let d ← log buf 4096 (lit "\n--------------- CRASH REPORT END -------------- \n") [] dst
  let e ← log buf 4096 (lit "\nSignal handler completed! \n") [] dst
  .ok ([.text fd a, .text fd b] ++ c ++ [.text fd d, .text fd e, .close fd, .default sig, .kill sig])

/-- What becomes of the process when it does these things: the signal that ends it. A signal with the
default disposition ends it, one with the handler would run the handler again. -/
def endedBy : List Act → (Nat → Disp) → Option Nat
  | [], _ => none
  | .default sig :: as, t => endedBy as fun n => if n = sig then .dfl else t n
  | .kill sig :: as, t => if t sig = .dfl then some sig else endedBy as t
  | _ :: as, t => endedBy as t

end Verif.Signal
