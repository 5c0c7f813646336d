import Verif.CChr

/-!
# Model of uri/sc_uri.c

A string is a block of memory, a pointer into it an index. A part of the uri is a pair of a
pointer and a length. `unsigned long` and `size_t` have 64 bits.
-/

namespace Verif.Uri

/-- `strtoul(p, &end, 10)` (C11 7.22.1.4): the value, `none` for ERANGE, and the number of
characters read. Without a number the value is 0 and nothing is read; `errno` is not set
then. -/
def strtoul (mem : List UInt8) (p : Nat) : Res (Option Nat × Nat) := do
  let s ← cstr mem p
  match strtoNum s with
  | none => .ok (some 0, 0)
  | some (neg, n, k) =>
    if n > SIZE_MAX then .ok (none, k)
    else .ok (some (if neg then sub64 0 n else n), k)

/-- The local variables of `sc_uri_create` that describe the parts, uri/sc_uri.c:50-56: pointers
and lengths, delimiters included. -/
structure Parts where
  scheme : Nat × Nat
  authority : Nat
  userinfo : Nat × Nat
  host : Nat × Nat
  port : Nat × Nat
  path : Nat × Nat
  query : Nat × Nat
  fragment : Nat × Nat
  deriving DecidableEq, Repr

/-- The port, uri/sc_uri.c:89-104: `none` for an error, else its pointer and length and the
position after it. -/
def parsePort (mem : List UInt8) (pos : Nat) : Res (Option ((Nat × Nat) × Nat)) := do
  let ptr ← strchrAt mem pos 58
  match ptr with
  | none => .ok (some ((0, 0), pos))
  | some ptr => do
    let c ← rd mem (ptr + 1)
    if c = 0 then .ok none
    else do
      let (val, k) ← strtoul mem (ptr + 1)
      match val with
      | none => .ok none
      | some val =>
        if val > 65536 then .ok none
        else
          let portLen := 1 + k
          .ok (some ((ptr, portLen), ptr + portLen))

/-- The authority after `//`, uri/sc_uri.c:73-104: userinfo, host, port and the position after
them. -/
def parseAuth (mem : List UInt8) (pos : Nat) :
    Res (Option ((Nat × Nat) × (Nat × Nat) × (Nat × Nat) × Nat)) := do
  let ptr ← strchrAt mem pos 64
  let (userinfo, pos) := match ptr with
    | some ptr => ((pos, ptr - pos + 1), ptr + 1)
    | none => ((0, 0), pos)
  let c ← rd mem pos
  let n ← cspn mem pos (if c = 91 then [93] else [58, 47, 63, 35])
  let ptr := pos + n
  let host := pos
  let hostLen := ptr - pos + (if c = 91 then 1 else 0)
  let pos := host + hostLen
  let bad ← (if c = 91 then do
      let e ← rd mem (host + hostLen - 1)
      .ok (decide (e ≠ 93))
    else .ok false)
  if bad then .ok none
  else do
    let r ← parsePort mem pos
    match r with
    | none => .ok none
    | some (port, pos) => .ok (some (userinfo, (host, hostLen), port, pos))

/-- The path, the query and the fragment, uri/sc_uri.c:107-121. -/
def parseTail (mem : List UInt8) (pos : Nat) : Res ((Nat × Nat) × (Nat × Nat) × (Nat × Nat)) := do
  let pathLen ← cspn mem pos [63, 35]
  let path := (pos, pathLen)
  let pos := pos + pathLen
  let ptr ← strchrAt mem pos 63
  let (query, pos) ← (match ptr with
    | some ptr => do
      let n ← cspn mem ptr [35]
      .ok ((ptr, n), ptr + n)
    | none => .ok ((0, 0), pos))
  let c ← rd mem pos
  if c = 35 then do
    let n ← strlen mem pos
    .ok (path, query, (pos, n))
  else .ok (path, query, (0, 0))

/-- The parsing part of `sc_uri_create`, uri/sc_uri.c:61-121. -/
def parse (mem : List UInt8) : Res (Option Parts) := do
  let ptr ← strchrAt mem 0 58
  match ptr with
  | none => .ok none
  | some ptr => do
    let scheme := (0, ptr + 1)
    let pos := ptr + 1
    let c ← rd mem pos
    let slashes ← (if c = 47 then do
        let d ← rd mem (pos + 1)
        .ok (decide (d = 47))
      else .ok false)
    if slashes then do
      let a ← parseAuth mem (pos + 2)
      match a with
      | none => .ok none
      | some (userinfo, host, port, pos) => do
        let (path, query, fragment) ← parseTail mem pos
        .ok (some ⟨scheme, 2, userinfo, host, port, path, query, fragment⟩)
    else do
      let (path, query, fragment) ← parseTail mem pos
      .ok (some ⟨scheme, 0, (0, 0), (0, 0), (0, 0), path, query, fragment⟩)

/-- `"%.*s"` with a length and a pointer (C11 7.21.6.1). The length is a `size_t` where an `int` is
expected; on the ABIs in use the call sees its low 32 bits. A negative precision counts as
none. -/
def fmtS (mem : List UInt8) (x : Nat × Nat) : Res (List UInt8) :=
  if x.2 = 0 then .ok []
  else do
    let s ← cstr mem x.1
    if toInt32 x.2 < 0 then .ok s else .ok (s.take (toInt32 x.2).toNat)

/-- `snprintf` fails on texts longer than `INT_MAX`. -/
def limited (t : List UInt8) : Option (List UInt8) := if t.length ≤ 2147483647 then some t else none

/-- 1 for `n != 0` and 0 otherwise -/
def nz (n : Nat) : Nat := if n ≠ 0 then 1 else 0

/-- `struct sc_uri`, uri/sc_uri.h:67-78; the pointers are offsets in `buf`. -/
structure Uri where
  str : Nat
  scheme : Nat
  host : Nat
  userinfo : Nat
  port : Nat
  path : Nat
  query : Nat
  fragment : Nat
  buf : List UInt8
  deriving DecidableEq, Repr

/-- The rest of `sc_uri_create`, uri/sc_uri.c:123-183. `al` is the outcome of the allocation, of
which the model keeps the bytes from `buf` on. -/
def build (al : Alloc UInt8) (mem : List UInt8) (p : Parts) : Res (Option Uri) := do
  let fullLen := p.scheme.2 + p.authority + p.userinfo.2 + p.host.2 + p.port.2 + p.path.2 +
    p.query.2 + p.fragment.2 + 1
  let partsLen := fullLen - p.authority + 7 - nz p.scheme.2 - nz p.userinfo.2 - nz p.port.2 -
    nz p.query.2 - nz p.fragment.2
  match al with
  | none => .ok none
  | some fill => do
    let buf := resized [] (partsLen + fullLen) fill
    let scheme ← fmtS mem p.scheme
    let userinfo ← fmtS mem p.userinfo
    let host ← fmtS mem p.host
    let port ← fmtS mem p.port
    let path ← fmtS mem p.path
    let query ← fmtS mem p.query
    let fragment ← fmtS mem p.fragment
    let (buf, ret) ← vsnprintf buf 0 fullLen (limited
      (scheme ++ [47, 47].take p.authority ++ userinfo ++ host ++ port ++ path ++ query ++
        fragment))
    if ret ≠ some (fullLen - 1) then .ok none
    else do
      let n ← strlen buf 0
      let dest := n + 1
      let schemeLen := p.scheme.2 - nz p.scheme.2
      let userinfoLen := p.userinfo.2 - nz p.userinfo.2
      let portLen := p.port.2 - nz p.port.2
      let queryLen := p.query.2 - nz p.query.2
      let fragmentLen := p.fragment.2 - nz p.fragment.2
      let scheme ← fmtS mem (p.scheme.1, schemeLen)
      let userinfo ← fmtS mem (p.userinfo.1, userinfoLen)
      let port ← fmtS mem (p.port.1 + nz p.port.2, portLen)
      let query ← fmtS mem (p.query.1 + nz p.query.2, queryLen)
      let fragment ← fmtS mem (p.fragment.1 + nz p.fragment.2, fragmentLen)
      let (buf, ret) ← vsnprintf buf dest partsLen (limited
        (scheme ++ [0] ++ userinfo ++ [0] ++ host ++ [0] ++ port ++ [0] ++ path ++ [0] ++ query ++
          [0] ++ fragment ++ [0]))
      if ret ≠ some (partsLen - 1) then .ok none
      else
        let userinfoP := dest + schemeLen + 1
        let hostP := userinfoP + userinfoLen + 1
        let portP := hostP + p.host.2 + 1
        let pathP := portP + portLen + 1
        let queryP := pathP + p.path.2 + 1
        let fragmentP := queryP + queryLen + 1
        .ok (some ⟨0, dest, hostP, userinfoP, portP, pathP, queryP, fragmentP, buf⟩)

/-- `sc_uri_create`, uri/sc_uri.c:42-183; `none` is a NULL argument or result. -/
def create (al : Alloc UInt8) (str : Option (List UInt8)) : Res (Option Uri) :=
  match str with
  | none => .ok none
  | some mem => do
    let r ← parse mem
    match r with
    | none => .ok none
    | some p => build al mem p

end Verif.Uri
