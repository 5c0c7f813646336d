import Verif.Signal.Props

/-!
# Model of signal/sc_signal.c: the handlers for Windows

The system runs the console handler in a new thread for each event, so handlers run at the same time
as each other and as the application. The numbers of events and signals are those of the Windows
headers. Built with the C runtime of Microsoft, where `raise` and Ctrl-C may call the handler of
SIGINT, which calls the console handler; in the model both are an event that arrives. What calls
leave in `errno` is not modelled: each thread has its own.
-/

namespace Verif.Signal.Win

open Verif.Signal.Spec (Arg Numeral Signed NoMin Renders)
open Verif.Signal (lit text log)

/-- The event for Ctrl-C. -/
abbrev CTRL_C_EVENT : Nat := 0
/-- The event for Ctrl-Break. -/
abbrev CTRL_BREAK_EVENT : Nat := 1
/-- The event for closing the console. -/
abbrev CTRL_CLOSE_EVENT : Nat := 2

/-- Positions in `sc_console_handler`, signal/sc_signal.c:215-263. -/
inductive Pc where
  /-- line 220 -/
  | start
  /-- line 230 -/
  | otherLog
  /-- line 233 -/
  | otherExit
  /-- line 236 -/
  | recv
  /-- line 239 -/
  | check
  /-- line 240 -/
  | forceLog
  /-- line 241 -/
  | forceExit
  /-- line 244 -/
  | set
  /-- line 246 -/
  | choose
  /-- line 247 -/
  | sendLog
  /-- line 249 -/
  | send
  /-- line 251 -/
  | failLog
  /-- line 254 -/
  | failExit
  /-- line 257 -/
  | noneLog
  /-- line 259 -/
  | noneExit
  /-- line 262 -/
  | ret
  deriving DecidableEq

/-- A thread that may run the handler: not started, in it with the argument, the position and the
local `fd`, or returned. -/
inductive Thread where
  | idle
  | run (type : Nat) (pc : Pc) (fd : Int)
  | done
  deriving DecidableEq

/-- The process: `sc_signal_will_shutdown`, `sc_signal_log_fd`, `sc_signal_shutdown_fd` (−1 for
`INVALID_SOCKET`), the threads and the exit status. -/
structure State where
  will : Bool
  logFd : Int
  shutFd : Int
  th : Nat → Thread
  exit : Option Int

/-- The state with one thread elsewhere. -/
def State.at (s : State) (i : Nat) (t : Thread) : State :=
  { s with th := fun j => if j = i then t else s.th j }

/-- What can be observed. -/
inductive Event where
  /-- the application changes the descriptors -/
  | app
  /-- thread `i` is started for an event -/
  | arrive (i type : Nat)
  /-- text is written to a descriptor -/
  | text (i : Nat) (fd : Int) (bytes : List UInt8)
  /-- a byte is sent to the shutdown descriptor, with the result of `send` -/
  | command (i : Nat) (fd : Int) (rc : Int)
  /-- `_Exit` -/
  | exit (i : Nat) (code : Int)
  /-- the handler returns `TRUE` -/
  | ret (i : Nat)
  deriving DecidableEq

/-- The name of an event, signal/sc_signal.c:222-234. -/
def eventName (type : Nat) : Option (List UInt8) :=
  if type = CTRL_C_EVENT then some (lit "CTRL_C event")
  else if type = CTRL_BREAK_EVENT then some (lit "CTRL_BREAK event")
  else none

/-- A call of `sc_signal_log` with a buffer of 128 bytes. -/
def LogCall (fmt : List UInt8) (args : List Arg) (bytes : List UInt8) : Prop :=
  ∃ buf dst, buf.length = 128 ∧ dst.length = 32 ∧ log buf 128 fmt args dst = .ok bytes

/-- Format, arguments and next position of the calls of `sc_signal_log`,
signal/sc_signal.c:230, 236, 240, 247, 251, 257. An event is a `DWORD` that is read as an `int`, both of 32
bits. -/
def logOf (type : Nat) : Pc → Option (List UInt8 × List Arg × Pc)
  | .otherLog => some (lit "Unknown console event [%d], shutting down! \n", [.int (Int32.ofNat type)], .otherExit)
  | .recv => some (lit "Received : %s, (%d) \n", [.str (eventName type), .int (Int32.ofNat type)], .check)
  | .forceLog => some (lit "Forcing shut down! \n", [], .forceExit)
  | .sendLog => some (lit "Sending shutdown command. \n", [], .send)
  | .failLog => some (lit "Failed to send shutdown command, shutting down immediately! \n", [], .failExit)
  | .noneLog => some (lit "No shutdown handler, shutting down! \n", [], .noneExit)
  | _ => none

/-- One step of the process, with what can be observed of it: of the application, of the system or of
`sc_console_handler`, signal/sc_signal.c:215-263, in one of the threads. -/
inductive Step : State → Option Event → State → Prop
  /-- The application sets the descriptors, at any time. -/
  | app {s} (l d : Int) : s.exit = none → Step s (some .app) { s with logFd := l, shutFd := d }
  /-- An event arrives, in a new thread. -/
  | arrive {s} (i type : Nat) : s.exit = none → s.th i = .idle → type < 4294967296 →
      Step s (some (.arrive i type)) (s.at i (.run type .start 0))
  /-- signal/sc_signal.c:220-234 -/
  | start {s i type fd} : s.exit = none → s.th i = .run type .start fd →
      Step s none (s.at i (.run type (if eventName type = none then .otherLog else .recv)
        (if s.logFd ≠ -1 then s.logFd else 1)))
  /-- a call of `sc_signal_log` -/
  | log {s i type pc fd fmt args pc' bytes} : s.exit = none → s.th i = .run type pc fd →
      logOf type pc = some (fmt, args, pc') → LogCall fmt args bytes →
      Step s (some (.text i fd bytes)) (s.at i (.run type pc' fd))
  /-- signal/sc_signal.c:239 -/
  | check {s i type fd} : s.exit = none → s.th i = .run type .check fd →
      Step s none (s.at i (.run type (if s.will then .forceLog else .set) fd))
  /-- signal/sc_signal.c:233, 241, 254 -/
  | exit1 {s i type pc fd} : s.exit = none → s.th i = .run type pc fd →
      (pc = .otherExit ∨ pc = .forceExit ∨ pc = .failExit) →
      Step s (some (.exit i 1)) { s with exit := some 1 }
  /-- signal/sc_signal.c:259 -/
  | exit0 {s i type fd} : s.exit = none → s.th i = .run type .noneExit fd →
      Step s (some (.exit i 0)) { s with exit := some 0 }
  /-- signal/sc_signal.c:244 -/
  | set {s i type fd} : s.exit = none → s.th i = .run type .set fd →
      Step s none { s.at i (.run type .choose fd) with will := true }
  /-- signal/sc_signal.c:246 -/
  | choose {s i type fd} : s.exit = none → s.th i = .run type .choose fd →
      Step s none (s.at i (.run type (if s.shutFd ≠ -1 then .sendLog else .noneLog) fd))
  /-- signal/sc_signal.c:249-250 -/
  | send {s i type fd} (rc : Int) : s.exit = none → s.th i = .run type .send fd →
      Step s (some (.command i s.shutFd rc)) (s.at i (.run type (if rc ≠ 1 then .failLog else .ret) fd))
  /-- signal/sc_signal.c:262 -/
  | ret {s i type fd} : s.exit = none → s.th i = .run type .ret fd →
      Step s (some (.ret i)) (s.at i .done)

/-- Executions and what can be observed of them. -/
inductive Run : State → List Event → State → Prop
  | refl {s} : Run s [] s
  | step {s s' s'' e es} : Run s es s' → Step s' e s'' → Run s (es ++ e.toList) s''

/-! ## Initialization and fatal errors -/

/-- What is registered: the console handler, the filter for exceptions that nobody handles, and the
handlers of SIGABRT and SIGINT. -/
structure Registered where
  console : Bool
  filter : Bool
  abort : Bool
  int : Bool
  deriving DecidableEq

/-- `sc_signal_init`, signal/sc_signal.c:305-321; `okConsole`, `okAbort` and `okInt` say whether
SetConsoleCtrlHandler and the two calls of `signal` succeed. -/
def init (okConsole okAbort okInt : Bool) (r : Registered) : Int × Registered :=
  if ¬ okConsole then (-1, r)
  else (0, ⟨true, true, r.abort || okAbort, r.int || okInt⟩)

/-- What the handlers of fatal errors do. -/
inductive Act where
  | text (fd : Int) (bytes : List UInt8)
  | exit (code : Int)
  /-- `EXCEPTION_CONTINUE_SEARCH` is returned: the system ends the process with the exception -/
  | search
  deriving DecidableEq

/-- The number of SIGABRT in the headers of Windows. -/
abbrev SIGABRT : Nat := 22

/-- `sc_signal_on_fatal`, signal/sc_signal.c:265-275. The code is a `DWORD` that is read as an
`int`. -/
def onFatal (logFd : Int) (code : UInt32) (buf dst : List UInt8) : Res (List Act) := do
  let fd := if logFd ≠ -1 then logFd else 2
  let a ← log buf 128 (lit "Fatal signal : %d, shutting down! \n") [.int (Int32.ofNat code.toNat)] dst
  .ok [.text fd a, .search]

/-- The name of a fatal signal, signal/sc_signal.c:281-291, with the numbers of Windows. -/
def fatalName (sig : Nat) : List UInt8 :=
  if sig = 11 then lit "SIGSEGV" else if sig = SIGABRT then lit "SIGABRT"
  else if sig = 8 then lit "SIGFPE" else if sig = 4 then lit "SIGILL" else lit "unknown signal"

/-- `sc_signal_std_on_fatal`, signal/sc_signal.c:277-298. -/
def stdOnFatal (logFd : Int) (sig : Nat) (buf dst : List UInt8) : Res (List Act) := do
  let fd := if logFd ≠ -1 then logFd else 2
  let a ← log buf 128 (lit "Fatal signal : [%s][%d], shutting down! \n")
    [.str (some (fatalName sig)), .int (Int32.ofNat sig)] dst
  .ok [.text fd a, .exit 1]

end Verif.Signal.Win
