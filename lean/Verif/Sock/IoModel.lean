import Verif.CNum
import Verif.Sock.Model
import Verif.Sock.IoSpec

/-!
# Model of socket/sc_sock.c: transfers, timeouts, pipes and notifications

The system moves bytes between the memory of the caller and a stream. A call moves at least one byte
if it succeeds and there is one; how many, and which calls fail, is decided by the environment.
Loops that end only when the system lets them have fuel: `none` is a call that has not returned yet.
Flags of `send` and `recv` are 0. This is the code for POSIX.
-/

namespace Verif.Sock.Io

open Ini (strncpy)
open Spec (Target target)

/-- How many bytes a call moves, at most and less one -/
structure IoEnv extends Env where
  amount : Nat → Nat

/-- The system and the two streams of a socket: what was sent and what is still to be received. An
empty one is at its end. -/
structure World where
  os : Os
  sent : List UInt8
  inp : List UInt8
  deriving DecidableEq

def EINTR : Int := 4
def EDOM : Int := 33
/-- `EOF` of stdio.h, used as an error number -/
def EOF : Int := -1

/-- `send` of `len > 0` bytes at the start of `buf` -/
def ksend (e : IoEnv) (buf : List UInt8) (len : Nat) (w : World) : Res (Int × World) :=
  match attempt e.toEnv w.os with
  | (false, os) => .ok (-1, { w with os := os })
  | (true, os) =>
    let m := min (e.amount w.os.n + 1) len
    if m ≤ buf.length then .ok (m, { w with os := os, sent := w.sent ++ slice buf 0 m }) else .ub

/-- `recv` of up to `len > 0` bytes to the start of `buf` -/
def krecv (e : IoEnv) (buf : List UInt8) (len : Nat) (w : World) : Res (Int × World × List UInt8) :=
  match attempt e.toEnv w.os with
  | (false, os) => .ok (-1, { w with os := os }, buf)
  | (true, os) =>
    let m := min (min (e.amount w.os.n + 1) len) w.inp.length
    if m ≤ buf.length then
      .ok (m, { w with os := os, inp := w.inp.drop m }, splice buf 0 (w.inp.take m))
    else .ub

/-- The label `retry` of `sc_sock_send`, socket/sc_sock.c:625-649. -/
def sendLoop (e : IoEnv) (buf : List UInt8) (len : Nat) : Nat → World → Sock → Res (Option (Int × World × Sock))
  | 0, _, _ => .ok none
  | fuel + 1, w, s => do
    let (n, w) ← ksend e buf len w
    if n = -1 then
      if w.os.errno = EINTR then sendLoop e buf len fuel w s
      else if w.os.errno = EAGAIN then .ok (some (-1, { w with os := { w.os with errno := EAGAIN } }, s))
      else do
        let s ← errstr e.toEnv 0 w.os s
        .ok (some (-1, w, s))
    else .ok (some (n, w, s))

/-- `sc_sock_send`, socket/sc_sock.c:617-650 -/
def send (e : IoEnv) (fuel : Nat) (buf : List UInt8) (len : Int) (w : World) (s : Sock) :
    Res (Option (Int × World × Sock)) :=
  if len ≤ 0 then .ok (some (len, w, s)) else sendLoop e buf len.toNat fuel w s

/-- The label `retry` of `sc_sock_recv`, socket/sc_sock.c:660-687. -/
def recvLoop (e : IoEnv) (len : Nat) : Nat → List UInt8 → World → Sock →
    Res (Option (Int × World × Sock × List UInt8))
  | 0, _, _, _ => .ok none
  | fuel + 1, buf, w, s => do
    let (n, w, buf) ← krecv e buf len w
    if n = 0 then .ok (some (-1, { w with os := { w.os with errno := EOF } }, s, buf))
    else if n = -1 then
      if w.os.errno = EINTR then recvLoop e len fuel buf w s
      else if w.os.errno = EAGAIN then .ok (some (-1, { w with os := { w.os with errno := EAGAIN } }, s, buf))
      else do
        let s ← errstr e.toEnv 0 w.os s
        .ok (some (-1, w, s, buf))
    else .ok (some (n, w, s, buf))

/-- `sc_sock_recv`, socket/sc_sock.c:652-688 -/
def recv (e : IoEnv) (fuel : Nat) (buf : List UInt8) (len : Int) (w : World) (s : Sock) :
    Res (Option (Int × World × Sock × List UInt8)) :=
  if len ≤ 0 then .ok (some (len, w, s, buf)) else recvLoop e len.toNat fuel buf w s

/-- The `struct timeval` of `sc_sock_set_rcvtimeo` and `sc_sock_set_sndtimeo`,
socket/sc_sock.c:283-286 and 303-306: seconds and microseconds. -/
def timeval (ms : Int) : Int × Int := (ms.tdiv 1000, ms.tmod 1000)

/-- `sc_sock_set_rcvtimeo` and `sc_sock_set_sndtimeo`, socket/sc_sock.c:278-316, which differ in the
option they set: the timeout of the system afterwards, in microseconds. The system refuses a
`timeval` that is not normalised. -/
def setTimeo (e : Env) (ms : Int) (os : Os) (s : Sock) (old : Int) : Res (Int × Os × Sock × Int) := do
  let (sec, usec) := timeval ms
  match attempt e os with
  | (false, os) => do
    let s ← errstr e 0 os s
    .ok (-1, os, s, old)
  | (true, os) =>
    match Spec.micros sec usec with
    | some t => .ok (0, os, s, t)
    | none => do
      let os := os.failed e EDOM
      let s ← errstr e 0 os s
      .ok (-1, os, s, old)

/-! ## Pipes -/

/-- `struct sc_sock_pipe`, socket/sc_sock.h:270-274, but for the user data; `err` has 128 bytes. -/
structure Pipe where
  fd : Int
  op : Nat
  rfd : Int
  wfd : Int
  err : List UInt8
  deriving DecidableEq

/-- `pipe`: two new descriptors. -/
def kpipe (e : Env) (os : Os) : Option (Int × Int) × Os :=
  match attempt e os with
  | (false, os) => (none, os)
  | (true, os) =>
    let a := e.newfd os.nums
    let b := e.newfd (a :: os.nums)
    (some (a, b), { os with fds := ⟨a, false⟩ :: ⟨b, false⟩ :: os.fds })

/-- `sc_sock_pipe_set_err`, socket/sc_sock.c:864-874; `text` is what the format yields. -/
def pipeSetErr (text : List UInt8) (p : Pipe) : Res Pipe := do
  let (err, _) ← vsnprintf p.err 0 128 (some text)
  let err ← wr err (128 - 1) 0
  .ok { p with err := err }

/-- `sc_sock_pipe_err`, socket/sc_sock.c:858-862: the object, whose text is returned. -/
def pipeErr (p : Pipe) : Res Pipe := do
  let err ← wr p.err (128 - 1) 0
  .ok { p with err := err }

/-- `"pipe() : %s "` -/
def initText (m : List UInt8) : List UInt8 := [112, 105, 112, 101, 40, 41, 32, 58, 32] ++ m ++ [32]

/-- `"pipe close() : %s "` -/
def closeText (m : List UInt8) : List UInt8 :=
  [112, 105, 112, 101, 32, 99, 108, 111, 115, 101, 40, 41, 32, 58, 32] ++ m ++ [32]

/-- `sc_sock_pipe_init`, socket/sc_sock.c:1012-1031 -/
def pipeInit (e : Env) (os : Os) : Res (Int × Os × Pipe) :=
  let p : Pipe := { fd := 0, op := 0, rfd := -1, wfd := -1, err := List.replicate 128 0 }
  match kpipe e os with
  | (none, os) => do
    let m ← cstr (e.strerror os.errno) 0
    let p ← pipeSetErr (initText m) p
    .ok (-1, os, p)
  | (some (a, b), os) => .ok (0, os, { p with rfd := a, wfd := b, op := 0, fd := a })

/-- One `close` of `sc_sock_pipe_term` with what follows, socket/sc_sock.c:1041-1045, 1047-1051. -/
def pipeClose (e : Env) (fd : Int) (rc : Int) (os : Os) (p : Pipe) : Res (Int × Os × Pipe) := do
  let (ok, os) ← kclose e fd os
  if ok then .ok (rc, os, p)
  else do
    let m ← cstr (e.strerror os.errno) 0
    let p ← pipeSetErr (closeText m) p
    .ok (-1, os, p)

/-- `sc_sock_pipe_term`, socket/sc_sock.c:1033-1057 -/
def pipeTerm (e : Env) (os : Os) (p : Pipe) : Res (Int × Os × Pipe) :=
  if p.rfd = -1 then .ok (0, os, p)
  else do
    let (rc, os, p) ← pipeClose e p.rfd 0 os p
    let (rc, os, p) ← pipeClose e p.wfd rc os p
    .ok (rc, os, { p with rfd := -1, wfd := -1 })

/-- `write` of `len` bytes into the pipe; `q` are the bytes in it. -/
def kwrite (e : IoEnv) (buf : List UInt8) (len : Nat) (os : Os) (q : List UInt8) : Res (Option Nat × Os × List UInt8) :=
  match attempt e.toEnv os with
  | (false, os) => .ok (none, os, q)
  | (true, os') =>
    let m := min (e.amount os.n + 1) len
    if m ≤ buf.length then .ok (some m, os', q ++ slice buf 0 m) else .ub

/-- `read` of up to `len` bytes from the pipe -/
def kread (e : IoEnv) (buf : List UInt8) (len : Nat) (os : Os) (q : List UInt8) :
    Res (Option Nat × Os × List UInt8 × List UInt8) :=
  match attempt e.toEnv os with
  | (false, os) => .ok (none, os, q, buf)
  | (true, os') =>
    let m := min (min (e.amount os.n + 1) len) q.length
    if m ≤ buf.length then .ok (some m, os', q.drop m, splice buf 0 (q.take m)) else .ub

/-- `sc_sock_pipe_write`, socket/sc_sock.c:1059-1071 -/
def pipeWrite (e : IoEnv) (buf : List UInt8) (len : Nat) : Nat → Os → List UInt8 →
    Res (Option (Int × Os × List UInt8))
  | 0, _, _ => .ok none
  | fuel + 1, os, q => do
    let (n, os, q) ← kwrite e buf len os q
    match n with
    | none => if os.errno = EINTR then pipeWrite e buf len fuel os q else .ok (some (-1, os, q))
    | some n => .ok (some (toInt32 n, os, q))

/-- `sc_sock_pipe_read`, socket/sc_sock.c:1073-1085 -/
def pipeRead (e : IoEnv) (len : Nat) : Nat → List UInt8 → Os → List UInt8 →
    Res (Option (Int × Os × List UInt8 × List UInt8))
  | 0, _, _, _ => .ok none
  | fuel + 1, buf, os, q => do
    let (n, os, q, buf) ← kread e buf len os q
    match n with
    | none => if os.errno = EINTR then pipeRead e len fuel buf os q else .ok (some (-1, os, q, buf))
    | some n => .ok (some (toInt32 n, os, q, buf))

/-! ## Notifications -/

/-- A datagram: where it goes and what is in it. -/
structure Datagram where
  to : Target
  msg : List UInt8
  deriving DecidableEq

/-- `sendmsg` of one datagram, all of it or nothing -/
def ksendmsg (e : Env) (path : List UInt8) (namelen : Nat) (msg : List UInt8) (os : Os) : Option Datagram × Os :=
  match attempt e os with
  | (false, os) => (none, os)
  | (true, os) => (some ⟨target path namelen, msg⟩, os)

/-- The part of `sc_sock_notify_systemd` that has a socket, socket/sc_sock.c:179-199. -/
def notifyOn (e : Env) (fd : Int) (msg var : List UInt8) (os : Os) : Res (Int × Os × Option Datagram) := do
  let path ← strncpy (List.replicate 108 0) var 0 (108 - 1)
  let b ← rd path 0
  let path ← (if b = 64 then wr path 0 0 else .ok path)
  let len ← strlen var 0
  let namelen := 2 + len
  let namelen := if namelen > 110 then 110 else namelen
  let n ← strlen msg 0
  let (d, os) := ksendmsg e path namelen (slice msg 0 n) os
  let (_, os) ← kclose e fd os
  .ok (if d = none then -1 else 0, os, d)

/-- `sc_sock_notify_systemd`, socket/sc_sock.c:147-200; `var` is `NOTIFY_SOCKET` if it is set. The
length of an address is not truncated to 32 bits: the environment is smaller. -/
def notify (e : Env) (msg : List UInt8) (var : Option (List UInt8)) (os : Os) : Res (Int × Os × Option Datagram) :=
  match var with
  | none => .ok (-1, os.failed e EINVAL, none)
  | some var => do
    let b ← rd var 0
    let invalid ← (if b ≠ 64 ∧ b ≠ 47 then .ok true else do
      let c ← rd var 1
      .ok (c == 0))
    if invalid then .ok (-1, os.failed e EINVAL, none)
    else
      match socket e AF_UNIX 2 0 os with
      | (none, os) => .ok (-1, os, none)
      | (some fd, os) => notifyOn e fd msg var os

end Verif.Sock.Io
