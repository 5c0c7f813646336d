import Verif.CMem

/-!
# Specification of transfers, timeouts and notifications

Independent of the model: what bytes do in streams, how long a `struct timeval` is and which place a
unix address names (unix(7)).
-/

namespace Verif.Sock.Spec

/-- What a call that moves bytes did, as its caller sees it -/
inductive Moved where
  /-- this many bytes, these -/
  | bytes (bs : List UInt8)
  /-- the end of the stream -/
  | eof
  /-- an error with this number -/
  | failed (er : Int)
  deriving DecidableEq

/-- A queue of bytes, used from both sides: all that was written and all that was read -/
structure Fifo where
  written : List UInt8
  read : List UInt8
  queue : List UInt8

/-- Nothing is lost, doubled or reordered. -/
def Fifo.Faithful (f : Fifo) : Prop := f.read ++ f.queue = f.written

/-- Length of a `struct timeval` in microseconds; POSIX wants `0 ≤ usec < 1000000`. -/
def micros (sec usec : Int) : Option Int := if 0 ≤ usec ∧ usec < 1000000 then some (sec * 1000000 + usec) else none

/-- Where a unix address leads to, unix(7) -/
inductive Target where
  | path (p : List UInt8)
  | abstract (name : List UInt8)
  | unnamed
  deriving DecidableEq

/-- The meaning of an address of which `sun_path` is given, `namelen` bytes long with the two of the
family: a path ends at a null byte or at the end, a name does not end at a null byte. -/
def target (path : List UInt8) (namelen : Nat) : Target :=
  let bs := path.take (namelen - 2)
  match bs with
  | [] => .unnamed
  | b :: rest => if b = 0 then .abstract rest else .path ((b :: rest).takeWhile (· ≠ 0))

/-- The meaning of `NOTIFY_SOCKET`, sd_notify(3): a path from the root or a name after `@`. -/
def notifyTarget (s : List UInt8) : Option Target :=
  match s with
  | b :: c :: rest => if b = 64 then some (.abstract (c :: rest)) else if b = 47 then some (.path s) else none
  | _ => none

end Verif.Sock.Spec
