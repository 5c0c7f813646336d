import Verif.Signal.Handler
import Verif.Poll.EpollWait

/-!
# A loop that waits for events and is asked to end by a signal

The use that signal/sc_signal.h:40-53 describes: an application makes a pipe with `sc_sock_pipe_init`,
socket/sc_sock.c:1012-1031, waits for input of its reading end with `sc_sock_poll_add`, gives the writing
end to the signal handlers in `sc_signal_shutdown_fd`, and ends its loop when `sc_sock_poll_wait` tells it
about the pipe. In the loop it may wait for and stop waiting for other objects.

The handlers are those of Verif/Signal/Handler.lean and the poller is that of Verif/Poll: this file only
lets them run in one process with one thread. A handler may interrupt the loop anywhere, also inside of
`epoll_wait`, and the loop goes on when all handlers have returned. Nobody else uses the pipe.
-/

namespace Verif.Shutdown

open Poll.Epoll (Env EPOLLIN EPOLLET EINTR)

/-- What does not change: the environment of the poller, its state when it was new, the number of the
pipe among the objects, the data given for it, and its writing end, `fds[1]`. -/
structure Setup where
  e : Env
  fresh : Poll.Epoll.State
  pipe : Nat
  data : Nat
  fd1 : Int

/-- The process: the signal handlers, the poller, the bytes in the pipe, whether the loop is inside of
`sc_sock_poll_wait`, and whether it has been told about the pipe. -/
structure State where
  sig : Signal.State
  poll : Poll.Epoll.State
  bytes : Nat
  waiting : Bool
  told : Bool

/-- What can be observed. -/
inductive Event where
  /-- what can be observed of the signal handlers -/
  | sig (e : Signal.Event)
  /-- `sc_sock_poll_wait` returns with these events and their data -/
  | events (l : List (BitVec 32 × Nat))
  /-- `sc_sock_poll_wait` fails -/
  | failed (er : Int)

/-- What the system keeps in the pipe: `write` returns 1 if it has stored the byte, signal/sc_signal.c:409. -/
def store (c : Setup) (e : Option Signal.Event) (n : Nat) : Nat :=
  match e with
  | some (.command fd rc) => if fd = c.fd1 ∧ rc = 1 then n + 1 else n
  | _ => n

/-- What is the case for each descriptor. For the reading end of the pipe, pipe(7): there is input if
there are bytes in the pipe; it is not broken as its writing end is open. Anything for the others. -/
structure Now (c : Setup) (bytes : Nat) (now : Int → BitVec 32) : Prop where
  input : now (c.fresh.obj c.pipe).fd &&& EPOLLIN ≠ 0 ↔ 0 < bytes
  whole : ¬ Poll.Epoll.Broken (now (c.fresh.obj c.pipe).fd)

/-- There is something to report for a descriptor, as long as it lasts: `epoll_wait` does not block. -/
def Ready (w : Poll.Epoll.World) (now : Int → BitVec 32) (fd : Int) : Prop :=
  ∃ reg d, w.reg fd = some (reg, d) ∧ reg &&& EPOLLET = 0 ∧ reg &&& now fd ≠ 0

/-- epoll_wait(2): what is reported is registered and is the case; a descriptor that is not registered for
changes only is left out only if there is no room in the array, which has 1024 places,
socket/sc_sock.c:50. -/
structure Answer (w : Poll.Epoll.World) (now : Int → BitVec 32) (l : List (BitVec 32 × Nat)) : Prop where
  room : l.length ≤ 1024
  true_ : ∀ ev d, (ev, d) ∈ l → ∃ fd reg, w.reg fd = some (reg, d) ∧ ev = reg &&& now fd ∧ ev ≠ 0
  all : ∀ fd reg d, w.reg fd = some (reg, d) → reg &&& EPOLLET = 0 → reg &&& now fd ≠ 0 →
    (reg &&& now fd, d) ∈ l ∨ l.length = 1024

/-- The loop of `sc_sock_poll_wait`, socket/sc_sock.c:1309-1311, after one call of `epoll_wait`: whether
it is called again. -/
def again (r : Except Int (List (BitVec 32 × Nat))) : Bool :=
  match r with
  | .error er => er == EINTR
  | .ok _ => false

/-- An application that asks of an event with `sc_sock_poll_event`, socket/sc_sock.c:1277-1296, and
`sc_sock_poll_data`, socket/sc_sock.c:1272-1275, whether it is input of the pipe. -/
def isPipe (c : Setup) (x : BitVec 32 × Nat) : Bool :=
  (Poll.Epoll.event x.1).mask .read && x.2 == c.data

/-- The loop runs only if no handler does. -/
def State.Main (s : State) : Prop := s.sig.exit = none ∧ s.sig.frames = [] ∧ s.told = false

/-- One step of the process. -/
inductive Step (c : Setup) : State → Option Event → State → Prop
  /-- A signal arrives, a handler makes a step, or the application does something else; it leaves
  `sc_signal_shutdown_fd` alone. -/
  | sig {s e sig'} : Signal.Step s.sig e sig' → sig'.shutFd = s.sig.shutFd →
      Step c s (e.map .sig) { s with sig := sig', bytes := store c e s.bytes }
  /-- The loop calls `sc_sock_poll_add` or `sc_sock_poll_del` for another object, with other data. -/
  | request {s r i d poll'} : s.Main → s.waiting = false → i ≠ c.pipe → d ≠ c.data →
      Poll.Epoll.Step c.e s.poll r i d poll' → Step c s none { s with poll := poll' }
  /-- The loop calls `sc_sock_poll_wait`. -/
  | enter {s} : s.Main → s.waiting = false → Step c s none { s with waiting := true }
  /-- `epoll_wait` is interrupted or fails. -/
  | error {s er} : s.Main → s.waiting = true →
      Step c s (if again (.error er) then none else some (.failed er)) { s with waiting := again (.error er) }
  /-- `epoll_wait` tells events. -/
  | events {s now l} : s.Main → s.waiting = true → Now c s.bytes now → Answer s.poll.w now l →
      Step c s (some (.events l)) { s with waiting := again (.ok l), told := l.any (isPipe c) }

/-- Executions and what can be observed of them. -/
inductive Run (c : Setup) : State → List Event → State → Prop
  | refl {s} : Run c s [] s
  | step {s s' s'' e es} : Run c s es s' → Step c s' e s'' → Run c s (es ++ e.toList) s''

/-- The state when the loop begins: no signal has arrived, the writing end of the pipe is the shutdown
descriptor, and among the requests made of the poller one for input of the pipe has been granted and not
withdrawn, without `SC_SOCK_EDGE`; the data of the pipe was given for the pipe and for nothing else. -/
structure Begin (c : Setup) (s : State) : Prop where
  laws : Poll.Epoll.Laws c.e
  fresh : Poll.Epoll.Start c.fresh
  made : ∃ l ds, Poll.Epoll.Runs c.e c.fresh l ds s.poll ∧ Poll.Spec.after l c.pipe .read = true ∧
    Poll.Spec.after l c.pipe .edge = false ∧
    ∀ i d, (i, d) ∈ ds → (i = c.pipe ↔ d = c.data)
  fd1 : c.fd1 ≠ -1
  shut : s.sig.shutFd = c.fd1
  quiet : s.sig.frames = []
  will : s.sig.will = false
  alive : s.sig.exit = none
  empty : s.bytes = 0
  told : s.told = false
  waiting : s.waiting = false

end Verif.Shutdown
