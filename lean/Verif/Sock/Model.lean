import Verif.Ini.Model
import Verif.Sock.Spec

/-!
# Model of socket/sc_sock.c: opening and closing sockets

The system is the list of open descriptors with their mode, `errno`, and what has been asked of it.
Each call can fail with any error; which ones do is decided by the environment, by the number of
calls made before. `close` of a descriptor that is not open is treated as undefined: it would hit
somebody else's. This is the code for POSIX.
-/

namespace Verif.Sock

open Ini (strncpy)
open Spec (Addr)

/-- The parts of `struct sc_sock`, socket/sc_sock.h:85-103, that matter here; `type` is user data.
`err` has 128 bytes. -/
structure Sock where
  fd : Int
  op : Nat
  blocking : Bool
  family : Int
  err : List UInt8
  deriving DecidableEq

/-- An open descriptor: its number and whether `O_NONBLOCK` is set. -/
structure Fd where
  num : Int
  nonblock : Bool
  deriving DecidableEq

/-- Options that are set. -/
inductive Opt where
  | v6only
  | reuseaddr
  | nodelay
  deriving DecidableEq

/-- What the system was asked for, in order. -/
inductive Call where
  | socket (family type proto : Int)
  | getfl (fd : Int)
  | setfl (fd : Int) (nonblock : Bool)
  | opt (fd : Int) (o : Opt)
  | bind (fd : Int) (family : Int) (addr : List UInt8)
  | connect (fd : Int) (family : Int) (addr : List UInt8)
  | listen (fd : Int) (backlog : Nat)
  | accept (fd : Int)
  | unlink (path : List UInt8)
  deriving DecidableEq

/-- The system. `n` counts the calls, `log` is what they were, `fails` the texts of their errors. -/
structure Os where
  fds : List Fd
  errno : Int
  n : Nat
  log : List Call
  fails : List (List UInt8)
  deriving DecidableEq

/-- What the environment decides: the texts of errors, whether and how the n-th call fails, the
results of `getaddrinfo`, new descriptors, the mode of accepted ones and pending errors. -/
structure Env where
  strerror : Int → List UInt8
  gaiStr : Int → List UInt8
  call : Nat → Option Int
  gai : Option (List UInt8) → Option (List UInt8) → Int → Nat → Except Int (List Addr)
  newfd : List Int → Int
  inherits : Nat → Bool
  pending : Nat → Int

def AF_UNSPEC : Int := 0
def AF_UNIX : Int := 1
def AF_INET6 : Int := 10
def SOCK_STREAM : Int := 1
def EAGAIN : Int := 11
def EINVAL : Int := 22
def EINPROGRESS : Int := 115

/-- The numbers of the open descriptors. -/
def Os.nums (os : Os) : List Int := os.fds.map Fd.num

/-- A failed call, or an error found by the library itself. -/
def Os.failed (e : Env) (os : Os) (er : Int) : Os :=
  { os with errno := er, fails := os.fails ++ [e.strerror er] }

/-- A system call that can fail: whether it succeeds. -/
def attempt (e : Env) (os : Os) : Bool × Os :=
  let os' := { os with n := os.n + 1 }
  match e.call os.n with
  | none => (true, os')
  | some er => (false, os'.failed e er)

/-- A call that is noted. -/
def noted (e : Env) (c : Call) (os : Os) : Bool × Os := attempt e { os with log := os.log ++ [c] }

/-- `socket`: a new descriptor, in blocking mode. -/
def socket (e : Env) (family type proto : Int) (os : Os) : Option Int × Os :=
  match noted e (.socket family type proto) os with
  | (false, os) => (none, os)
  | (true, os) =>
    let fd := e.newfd os.nums
    (some fd, { os with fds := ⟨fd, false⟩ :: os.fds })

/-- `accept`: a new descriptor, whose mode depends on the system. -/
def kaccept (e : Env) (fd : Int) (os : Os) : Option Int × Os :=
  match noted e (.accept fd) os with
  | (false, os) => (none, os)
  | (true, os) =>
    let new := e.newfd os.nums
    (some new, { os with fds := ⟨new, e.inherits os.n⟩ :: os.fds })

/-- `close`: the descriptor is free afterwards, whatever the result. -/
def kclose (e : Env) (fd : Int) (os : Os) : Res (Bool × Os) :=
  if fd ∈ os.nums then .ok (attempt e { os with fds := os.fds.filter (fun f => f.num ≠ fd) }) else .ub

/-- `getaddrinfo` -/
def getaddrinfo (e : Env) (host port : Option (List UInt8)) (family : Int) (os : Os) :
    Except Int (List Addr) × Os :=
  let os' := { os with n := os.n + 1 }
  match e.gai host port family os.n with
  | .ok as => (.ok as, os')
  | .error rc => (.error rc, { os' with fails := os'.fails ++ [e.gaiStr rc] })

/-- `if (rc != 0) goto error` between two steps -/
def andThen (r : Bool × Os) (f : Os → Bool × Os) : Bool × Os := if r.1 then f r.2 else r

/-- `sc_sock_errstr`, socket/sc_sock.c:217-223 -/
def errstr (e : Env) (gaiErr : Int) (os : Os) (s : Sock) : Res Sock := do
  let str := if gaiErr ≠ 0 then e.gaiStr gaiErr else e.strerror os.errno
  let err ← strncpy s.err str 0 (128 - 1)
  .ok { s with err := err }

/-- `sc_sock_set_blocking`, socket/sc_sock.c:225-236: two calls of `fcntl`. -/
def setBlocking (e : Env) (fd : Int) (blocking : Bool) (os : Os) : Bool × Os :=
  andThen (noted e (.getfl fd) os) fun os =>
    let nonblock := if blocking then false else true
    match noted e (.setfl fd nonblock) os with
    | (false, os) => (false, os)
    | (true, os) =>
      (true, { os with fds := os.fds.map fun f => if f.num = fd then { f with nonblock := nonblock } else f })

/-- `sc_sock_init`, socket/sc_sock.c:240-252 -/
def init (blocking : Bool) (family : Int) : Sock :=
  { fd := -1, op := 0, blocking := blocking, family := family, err := List.replicate 128 0 }

/-- `sc_sock_close`, socket/sc_sock.c:254-264 -/
def sockClose (e : Env) (os : Os) (s : Sock) : Res (Int × Os × Sock) :=
  if s.fd ≠ -1 then do
    let (ok, os) ← kclose e s.fd os
    .ok (if ok then 0 else -1, os, { s with fd := -1 })
  else .ok (0, os, s)

/-- `sc_sock_term`, socket/sc_sock.c:266-276 -/
def term (e : Env) (os : Os) (s : Sock) : Res (Int × Os × Sock) := do
  let (rc, os, s) ← sockClose e os s
  if rc ≠ 0 then do
    let s ← errstr e 0 os s
    .ok (rc, os, s)
  else .ok (rc, os, s)

/-- `sc_sock_error`, socket/sc_sock.c:753-757: the object, whose text is returned. -/
def error (s : Sock) : Res Sock := do
  let err ← wr s.err (128 - 1) 0
  .ok { s with err := err }

/-- `sun_path` of an address that is zero but for its family -/
def sunPath : List UInt8 := List.replicate 108 0

/-- `sc_sock_bind_unix`, socket/sc_sock.c:318-331; `host` is in the memory of the caller. -/
def bindUnix (e : Env) (fd : Int) (host : List UInt8) (os : Os) : Res (Bool × Os) := do
  let path ← strncpy sunPath host 0 (108 - 1)
  let h ← cstr host 0
  let (_, os) := noted e (.unlink h) os
  .ok (noted e (.bind fd AF_UNIX path) os)

/-- Leaving with an error, socket/sc_sock.c:360-361, 419-420 and 748-749. -/
def giveUp (e : Env) (os : Os) (s : Sock) : Res (Int × Os × Sock) := do
  let s ← errstr e 0 os s
  let (_, os, s) ← sockClose e os s
  .ok (-1, os, s)

/-- What is done with a new socket before binding it, and binding it, socket/sc_sock.c:384-412. -/
def bindSetup (e : Env) (s : Sock) (fd : Int) (p : Addr) (os : Os) : Bool × Os :=
  let r := if s.family = AF_INET6 then noted e (.opt fd .v6only) os else (true, os)
  let r := andThen r (setBlocking e fd s.blocking)
  let r := andThen r (noted e (.opt fd .reuseaddr))
  let r := andThen r (noted e (.opt fd .nodelay))
  andThen r (noted e (.bind fd p.family p.addr))

/-- The loop of `sc_sock_bind`, socket/sc_sock.c:372-415: whether it ends at `out`. -/
def bindLoop (e : Env) : List Addr → Os → Sock → Bool × Os × Sock
  | [], os, s => (false, os, s)
  | p :: ps, os, s =>
    match socket e p.family p.type p.proto os with
    | (none, os) => bindLoop e ps os s
    | (some fd, os) =>
      let s := { s with fd := fd }
      let (ok, os) := bindSetup e s fd p os
      (ok, os, s)

/-- `sc_sock_bind`, socket/sc_sock.c:333-424; a `host` of `none` is a null pointer. -/
def bind (e : Env) (host port : Option (List UInt8)) (os : Os) (s : Sock) : Res (Int × Os × Sock) := do
  let err ← wr s.err 0 0
  let s := { s with err := err }
  if s.family = AF_UNIX then
    match socket e AF_UNIX SOCK_STREAM 0 os with
    | (none, os) => giveUp e os s
    | (some fd, os) => do
      let s := { s with fd := fd }
      match host with
      | none => .ub
      | some host => do
        let (ok, os) ← bindUnix e fd host os
        if ok then .ok (0, os, s) else giveUp e os s
  else
    match getaddrinfo e host port s.family os with
    | (.error rc, os) => do
      let s ← errstr e rc os s
      .ok (-1, os, s)
    | (.ok as, os) =>
      match bindLoop e as os s with
      | (true, os, s) => .ok (0, os, s)
      | (false, os, s) => giveUp e os s

/-- `sc_sock_listen`, socket/sc_sock.c:732-751 -/
def listen (e : Env) (host port : Option (List UInt8)) (os : Os) (s : Sock) : Res (Int × Os × Sock) := do
  let (rc, os, s) ← bind e host port os s
  if rc ≠ 0 then .ok (rc, os, s)
  else
    match noted e (.listen s.fd 4096) os with
    | (true, os) => .ok (0, os, s)
    | (false, os) => giveUp e os s

/-- `sc_sock_finish_connect`, socket/sc_sock.c:426-442 -/
def finishConnect (e : Env) (os : Os) (s : Sock) : Res (Int × Os × Sock) :=
  match attempt e os with
  | (false, os) => do
    let s ← errstr e 0 os s
    .ok (-1, os, s)
  | (true, os) =>
    let ret := e.pending os.n
    if ret ≠ 0 then do
      let os := os.failed e ret
      let s ← errstr e 0 os s
      .ok (-1, os, s)
    else .ok (0, os, s)

/-- `sc_sock_connect_unix`, socket/sc_sock.c:444-480 -/
def connectUnix (e : Env) (addr : List UInt8) (os : Os) (s : Sock) : Res (Int × Os × Sock) := do
  let len ← strlen addr 0
  match socket e AF_UNIX SOCK_STREAM 0 os with
  | (none, os) => giveUp e os s
  | (some fd, os) => do
    let s := { s with fd := fd }
    if len ≥ 108 then giveUp e (os.failed e EINVAL) s
    else do
      let a ← cstr addr 0
      let path := splice sunPath 0 (a ++ [0])
      match noted e (.connect s.fd AF_UNIX path) os with
      | (true, os) => .ok (0, os, s)
      | (false, os) => giveUp e os s

/-- The loop of `sc_sock_bind_src`, socket/sc_sock.c:497-502; `rc` is the last result. -/
def bindFirst (e : Env) (fd : Int) : List Addr → Bool → Os → Bool × Os
  | [], rc, os => (rc, os)
  | p :: ps, _, os =>
    match noted e (.bind fd p.family p.addr) os with
    | (true, os) => (true, os)
    | (false, os) => bindFirst e fd ps false os

/-- `sc_sock_bind_src`, socket/sc_sock.c:482-518 -/
def bindSrc (e : Env) (addr port : Option (List UInt8)) (os : Os) (s : Sock) : Res (Int × Os × Sock) :=
  match getaddrinfo e addr port AF_UNSPEC os with
  | (.error rc, os) => do
    let s ← errstr e rc os s
    .ok (-1, os, s)
  | (.ok as, os) =>
    match bindFirst e s.fd as true os with
    | (true, os) => .ok (0, os, s)
    | (false, os) => do
      let s ← errstr e 0 os s
      .ok (-1, os, s)

/-- What is done with a new socket before connecting it, socket/sc_sock.c:559-574. -/
def connectSetup (e : Env) (s : Sock) (fd : Int) (os : Os) : Bool × Os :=
  let r := setBlocking e fd s.blocking os
  let r := andThen r (noted e (.opt fd .reuseaddr))
  andThen r (noted e (.opt fd .nodelay))

/-- How the body of the loop of `sc_sock_connect` is left. -/
inductive Next where
  /-- `continue` -/
  | next
  /-- `goto error` -/
  | error
  /-- `goto bind_error` -/
  | bindError
  /-- `goto end` after success -/
  | done
  /-- `goto end` with -1 -/
  | pending
  deriving DecidableEq

/-- The part of the body that connects, socket/sc_sock.c:583-597. -/
def connectTo (e : Env) (fd : Int) (p : Addr) (os : Os) (s : Sock) : Res (Next × Os × Sock) :=
  match noted e (.connect fd p.family p.addr) os with
  | (true, os) => .ok (.done, os, s)
  | (false, os) =>
    if s.blocking = false ∧ (os.errno = EINPROGRESS ∨ os.errno = EAGAIN) then
      .ok (.pending, { os with errno := EAGAIN }, s)
    else do
      let (_, os, s) ← sockClose e os s
      .ok (.next, os, s)

/-- The body of the loop of `sc_sock_connect`, socket/sc_sock.c:551-597, for an address that is not
skipped. -/
def connectOne (e : Env) (src srcPort : Option (List UInt8)) (p : Addr) (os : Os) (s : Sock) :
    Res (Next × Os × Sock) :=
  match socket e p.family p.type p.proto os with
  | (none, os) => .ok (.next, os, s)
  | (some fd, os) =>
    let s := { s with family := p.family, fd := fd }
    match connectSetup e s fd os with
    | (false, os) => .ok (.error, os, s)
    | (true, os) =>
      if src ≠ none ∨ srcPort ≠ none then do
        let (rc, os, s) ← bindSrc e src srcPort os s
        if rc ≠ 0 then .ok (.bindError, os, s) else connectTo e fd p os s
      else connectTo e fd p os s

/-- The inner loop of `sc_sock_connect`, socket/sc_sock.c:545-598, in round `i`. -/
def connectPass (e : Env) (src srcPort : Option (List UInt8)) (family : Int) (i : Nat) :
    List Addr → Os → Sock → Res (Next × Os × Sock)
  | [], os, s => .ok (.next, os, s)
  | p :: ps, os, s =>
    if xor (i == 0) (p.family == family) then connectPass e src srcPort family i ps os s
    else do
      let r ← connectOne e src srcPort p os s
      if r.1 = .next then connectPass e src srcPort family i ps r.2.1 r.2.2 else .ok r

/-- The labels `error`, `bind_error` and `end`, socket/sc_sock.c:600-608 -/
def connectEnd (e : Env) (r : Next × Os × Sock) : Res (Int × Os × Sock) :=
  match r with
  | (.done, os, s) => .ok (0, os, s)
  | (.pending, os, s) => .ok (-1, os, s)
  | (.bindError, os, s) => do
    let (_, os, s) ← sockClose e os s
    .ok (-1, os, s)
  | (_, os, s) => giveUp e os s

/-- `sc_sock_connect`, socket/sc_sock.c:520-609 -/
def connect (e : Env) (dst dstPort src srcPort : Option (List UInt8)) (os : Os) (s : Sock) :
    Res (Int × Os × Sock) :=
  let family := s.family
  if family = AF_UNIX then
    match dst with
    | none => .ub
    | some dst => connectUnix e dst os s
  else
    match getaddrinfo e dst dstPort AF_UNSPEC os with
    | (.error rc, os) => do
      let s ← errstr e rc os s
      .ok (-1, os, s)
    | (.ok as, os) => do
      let r ← connectPass e src srcPort family 0 as os s
      let r ← (if r.1 = .next then connectPass e src srcPort family 1 as r.2.1 r.2.2 else .ok r)
      connectEnd e r

/-- `sc_sock_accept`, socket/sc_sock.c:690-730: the listening and the accepted socket. -/
def accept (e : Env) (os : Os) (s inn : Sock) : Res (Int × Os × Sock × Sock) :=
  match kaccept e s.fd os with
  | (none, os) =>
    if s.blocking = false ∧ os.errno = EAGAIN then .ok (-1, { os with errno := EAGAIN }, s, inn)
    else do
      let s ← errstr e 0 os s
      .ok (-1, os, s, inn)
  | (some fd, os) =>
    let inn := { inn with fd := fd, op := 0, family := s.family }
    let r := if inn.family ≠ AF_UNIX then noted e (.opt fd .nodelay) os else (true, os)
    match andThen r (setBlocking e fd s.blocking) with
    | (true, os) => .ok (0, os, s, inn)
    | (false, os) => do
      let s ← errstr e 0 os s
      let (_, os, inn) ← sockClose e os inn
      .ok (-1, os, s, inn)

end Verif.Sock
