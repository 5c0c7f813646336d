import Verif.Buf.Stream
import Verif.Sock.IoProps

/-!
# Messages with a length in front, over a connection

A program writes its messages into a buffer, each of them behind a number of 32 bits that says how
long it is, and sends the buffer through a socket. The other side receives into a buffer and takes a
message out of it once it is there completely. Everything the two programs do is done with
functions of the library: buffer/sc_buf.c and `sc_sock_send`, `sc_sock_recv`, socket/sc_sock.c:617-688.
-/

namespace Verif.Frame

open Buf (B Val put putAll setAt valid size quota peek get getData rbuf wbuf wpos markRead markWrite Keeping)
open Sock (Sock)
open Sock.Io (IoEnv World send recv EOF)

/-- The sender's way to write a message: room for the length, which is not known yet, then the values,
then the length at the place kept for it.
`pos = sc_buf_wpos(b); sc_buf_put_32(b, 0); ...; sc_buf_set_32_at(b, pos, sc_buf_wpos(b) - pos - 4)`,
buffer/sc_buf.c:211-214, 661-668, 476-479. -/
def putFrame (al : Nat → Nat → Alloc UInt8) (b : B) (vs : List Val) : Res B := do
  let pos := wpos b
  let b ← put (al 0 0) .w32 b 0
  let b ← putAll al b 1 vs
  setAt .w32 b pos (sub64 (sub64 (wpos b) pos) 4 % 2 ^ 32)

/-- The receiver's way to take out a message, if one is there:
`if (!sc_buf_valid(b) || sc_buf_size(b) < 4 || sc_buf_size(b) - 4 < sc_buf_peek_32(b)) return;`
`len = sc_buf_get_32(b); sc_buf_get_data(b, dest, len);`, buffer/sc_buf.c:154-167, 442-445, 545-552,
618-627. -/
def next (b : B) : Res (B × Option (List UInt8)) :=
  if !valid b then .ok (b, none)
  else if size b < 4 then .ok (b, none)
  else do
    let (b, len) ← peek .w32 b
    if size b - 4 < len then .ok (b, none)
    else do
      let (b, len) ← get .w32 b
      let (b, data) ← getData b len
      .ok (b, some data)

/-- The two ends of a connection: buffer, socket and system of each; how many of the bytes sent the
network has carried over; whether the sender has closed its end. -/
structure Conn where
  a : B
  sa : Sock
  wa : World
  moved : Nat
  closed : Bool
  b : B
  sb : Sock
  wb : World
  deriving DecidableEq

/-- `n = sc_sock_send(s, sc_buf_rbuf(b), len, 0); if (n > 0) sc_buf_mark_read(b, n);`,
buffer/sc_buf.c:176-179, 216-219. `none` if the call has not returned after `fuel` interruptions. -/
def sendSome (e : IoEnv) (fuel : Nat) (len : Int) (c : Conn) : Res (Option (Int × Conn)) := do
  let r ← send e fuel (c.a.mem.drop (rbuf c.a)) len c.wa c.sa
  match r with
  | none => .ok none
  | some (rc, w, s) =>
    .ok (some (rc, { c with wa := w, sa := s, a := if rc > 0 then markRead c.a rc.toNat else c.a }))

/-- `n = sc_sock_recv(s, sc_buf_wbuf(b), len, 0); if (n > 0) sc_buf_mark_write(b, n);`,
buffer/sc_buf.c:181-184, 221-224. -/
def recvSome (e : IoEnv) (fuel : Nat) (len : Int) (c : Conn) : Res (Option (Int × Conn)) := do
  let r ← recv e fuel (c.b.mem.drop (wbuf c.b)) len c.wb c.sb
  match r with
  | none => .ok none
  | some (rc, w, s, mem) =>
    let b := { c.b with mem := c.b.mem.take (wbuf c.b) ++ mem }
    .ok (some (rc, { c with wb := w, sb := s, b := if rc > 0 then markWrite b rc.toNat else b }))

/-- What the programs see. -/
inductive Event where
  /-- The sender has written a message. -/
  | framed (vs : List Val)
  /-- The receiver has taken out a message. -/
  | got (bs : List UInt8)
  /-- The receiver was told that nothing more will come. -/
  | eof
  | other

/-- The largest length that can be given to `sc_sock_send` and `sc_sock_recv`, an `int`. -/
def INT_MAX : Int := 2 ^ 31 - 1

/-- What can happen, in any order. Messages fit in 32 bits; one that could not be written completely is
not sent: the sender closes the connection, or leaves it. Lengths given to the sockets are at most what
is there to be sent, and the room there is. The system tells the receiver about the end only when the
sender has closed its end and everything it sent has arrived. -/
inductive Step (ea eb : IoEnv) : Conn → Event → Conn → Prop
  | frame {c al vs a} : c.closed = false → (∀ v ∈ vs, v.Ok) → (vs.flatMap Val.encode).length < 2 ^ 32 →
      putFrame al c.a vs = .ok a → valid a = true → Step ea eb c (.framed vs) { c with a := a }
  | send {c fuel len rc c'} : c.closed = false → 0 ≤ len → len ≤ INT_MAX → len ≤ size c.a →
      sendSome ea fuel len c = .ok (some (rc, c')) → Step ea eb c .other c'
  | carry {c} (n : Nat) : c.moved + n ≤ c.wa.sent.length →
      Step ea eb c .other { c with moved := c.moved + n, wb := { c.wb with inp := c.wb.inp ++ (c.wa.sent.drop c.moved).take n } }
  | close {c} : Step ea eb c .other { c with closed := true }
  | recv {c fuel len rc c'} : 0 ≤ len → len ≤ INT_MAX → len ≤ quota c.b →
      recvSome eb fuel len c = .ok (some (rc, c')) → ¬ (rc = -1 ∧ c'.wb.os.errno = EOF) → Step ea eb c .other c'
  | eof {c fuel len rc c'} : 0 ≤ len → len ≤ INT_MAX → len ≤ quota c.b →
      recvSome eb fuel len c = .ok (some (rc, c')) → rc = -1 ∧ c'.wb.os.errno = EOF →
      c.closed = true → c.moved = c.wa.sent.length → Step ea eb c .eof c'
  | next {c b bs} : next c.b = .ok (b, some bs) → Step ea eb c (.got bs) { c with b := b }
  | sender {c op a} : Keeping c.a op → Buf.step c.a op = .ok a → Step ea eb c .other { c with a := a }
  | receiver {c op b} : Keeping c.b op → Buf.step c.b op = .ok b → Step ea eb c .other { c with b := b }

inductive Run (ea eb : IoEnv) : Conn → List Event → Conn → Prop
  | refl {c} : Run ea eb c [] c
  | step {c c' c'' e es} : Run ea eb c es c' → Step ea eb c' e c'' → Run ea eb c (es ++ [e]) c''

/-- A connection that has just been made: nothing was written, sent or received. -/
structure Conn.Fresh (c : Conn) : Prop where
  a : Buf.InRange c.a ∧ c.a.rpos = c.a.wpos
  b : Buf.InRange c.b ∧ c.b.rpos = c.b.wpos
  sa : c.sa.err.length = 128
  sb : c.sb.err.length = 128
  sent : c.wa.sent = [] ∧ c.moved = 0 ∧ c.wb.inp = []
  closed : c.closed = false

/-! ## Specification -/

/-- The messages that were written. -/
def written : List Event → List (List Val)
  | [] => []
  | .framed vs :: es => vs :: written es
  | _ :: es => written es

/-- The messages that were taken out. -/
def taken : List Event → List (List UInt8)
  | [] => []
  | .got bs :: es => bs :: taken es
  | _ :: es => taken es

/-- The bytes of a message, without its length. -/
def bytes (vs : List Val) : List UInt8 := vs.flatMap Val.encode

end Verif.Frame
