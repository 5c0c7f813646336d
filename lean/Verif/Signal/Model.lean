import Verif.CChr
import Verif.Signal.Spec

/-!
# Model of signal/sc_signal.c: formatting

Memory is made of blocks of bytes, pointers are indices. The scratch array `dst` and the buffer hold
arbitrary bytes at first. `int` has 32 bits, `long`, `long long` and pointers have 64, which also
means that a pointer is passed like an `unsigned long long`.
-/

namespace Verif.Signal

open Spec (Arg)

/-- `get_uint(va, size)`, signal/sc_signal.c:77-80. An argument of the signed type may be read as the
unsigned one if it is not negative (C11 7.16.1.1); any other mismatch is undefined. -/
def getUint (size : Nat) : List Arg → Res (Nat × List Arg)
  | [] => .ub
  | a :: args =>
    match size, a with
    | 3, .ullong v => .ok (v.toNat, args)
    | 3, .llong v => if 0 ≤ v.toInt then .ok (v.toInt.toNat, args) else .ub
    | 3, .ptr p => .ok (p.toNat, args)
    | 2, .ulong v => .ok (v.toNat, args)
    | 2, .long v => if 0 ≤ v.toInt then .ok (v.toInt.toNat, args) else .ub
    | 1, .uint v => .ok (v.toNat, args)
    | 1, .int v => if 0 ≤ v.toInt then .ok (v.toInt.toNat, args) else .ub
    | _, _ => .ub

/-- `get_int(va, size)`, signal/sc_signal.c:82-85. -/
def getInt (size : Nat) : List Arg → Res (Int × List Arg)
  | [] => .ub
  | a :: args =>
    match size, a with
    | 3, .llong v => .ok (v.toInt, args)
    | 3, .ullong v => if v.toNat < 9223372036854775808 then .ok (v.toNat, args) else .ub
    | 2, .long v => .ok (v.toInt, args)
    | 2, .ulong v => if v.toNat < 9223372036854775808 then .ok (v.toNat, args) else .ub
    | 1, .int v => .ok (v.toInt, args)
    | 1, .uint v => if v.toNat < 2147483648 then .ok (v.toNat, args) else .ub
    | _, _ => .ub

/-- `dst[31 - (len++)] = c`, signal/sc_signal.c:132, 141, 145, 159, 162, 163: `len` is a `size_t`. -/
def putBack (dst : List UInt8) (len : Nat) (c : UInt8) : Res (List UInt8 × Nat) :=
  if len ≤ 31 then do
    let dst ← wr dst (31 - len) c
    .ok (dst, len + 1)
  else .ub

/-- The loops that write a number from its last digit on, signal/sc_signal.c:130-133, 139-142
(`base` 10) and 158-160 (`base` 16). `digit` is the character of a digit. -/
def numLoop (base : Nat) (digit : Nat → Res UInt8) :
    (fuel : Nat) → (dst : List UInt8) → (len u : Nat) → Res (List UInt8 × Nat)
  | 0, _, _, _ => .ub
  | fuel + 1, dst, len, u => do
    let c ← digit (u % base)
    let (dst, len) ← putBack dst len c
    let u := u / base
    if u ≠ 0 then numLoop base digit fuel dst len u else .ok (dst, len)

/-- `(char) ('0' + d)`, signal/sc_signal.c:131, 140 -/
def decDigit (d : Nat) : Res UInt8 := .ok (UInt8.ofNat (48 + d))

/-- `arr[d]`, signal/sc_signal.c:90, 159 -/
def hexDigit (d : Nat) : Res UInt8 :=
  rd [48, 49, 50, 51, 52, 53, 54, 55, 56, 57, 97, 98, 99, 100, 101, 102] d

/-- What a conversion yields: `str` and `len` as a block with an index and a length, the position
after it, the remaining arguments and the scratch array. -/
structure Out where
  src : List UInt8
  p : Nat
  len : Nat
  pos : Nat
  args : List Arg
  dst : List UInt8

/-- The common part of the cases `'l'`, `'d'` and `'u'` of `sc_signal_vsnprintf` at the letter,
signal/sc_signal.c:125-154; `orig` is the position of the `%`, `none` is the failure with -1. -/
def number (fmt : List UInt8) (orig pos : Nat) (args : List Arg) (dst : List UInt8) :
    Res (Option Out) := do
  let c ← rd fmt pos
  if c = 117 then do
    let (u, args) ← getUint (pos - orig) args
    let (dst, len) ← numLoop 10 decDigit 64 dst 0 u
    .ok (some ⟨dst, 32 - len, len, pos + 1, args, dst⟩)
  else if c = 100 then do
    let (i, args) ← getInt (pos - orig) args
    let u ← (if i < 0 then
      (if i = -9223372036854775808 then .ub else .ok (-i).toNat) else .ok i.toNat)
    let (dst, len) ← numLoop 10 decDigit 64 dst 0 u
    let (dst, len) ← (if i < 0 then putBack dst len 45 else .ok (dst, len))
    .ok (some ⟨dst, 32 - len, len, pos + 1, args, dst⟩)
  else .ok none

/-- The case `'%'` of `sc_signal_vsnprintf`, signal/sc_signal.c:110-173. -/
def conversion (fmt : List UInt8) (orig : Nat) (args : List Arg) (dst : List UInt8) :
    Res (Option Out) := do
  let c ← rd fmt (orig + 1)
  if c = 115 then
    match args with
    | .str s :: args => do
      let str := s.getD [40, 110, 117, 108, 108, 41, 0]
      let len ← strlen str 0
      .ok (some ⟨str, 0, len, orig + 2, args, dst⟩)
    | _ => .ub
  else if c = 108 then do
    let d ← rd fmt (orig + 2)
    number fmt orig (orig + (if d = 108 then 3 else 2)) args dst
  else if c = 100 ∨ c = 117 then number fmt orig (orig + 1) args dst
  else if c = 112 then do
    let (u, args) ← getUint 3 args
    let (dst, len) ← numLoop 16 hexDigit 64 dst 0 u
    let (dst, len) ← putBack dst len 120
    let (dst, len) ← putBack dst len 48
    .ok (some ⟨dst, 32 - len, len, orig + 2, args, dst⟩)
  else if c = 37 then .ok (some ⟨[37, 0], 0, 1, orig + 2, args, dst⟩)
  else .ok none

/-- The loop over literal text, signal/sc_signal.c:175-177. -/
def textEnd (fmt : List UInt8) : (fuel pos : Nat) → Res Nat
  | 0, _ => .ub
  | fuel + 1, pos => do
    let c ← rd fmt pos
    if c ≠ 0 ∧ c ≠ 37 then textEnd fmt fuel (pos + 1) else .ok pos

/-- The loop of `sc_signal_vsnprintf`, signal/sc_signal.c:102-186: the buffer and the result. `out`
is an offset in the buffer. -/
def fmtLoop (fmt : List UInt8) : (fuel : Nat) → (buf : List UInt8) → (out cap pos : Nat) →
    (args : List Arg) → (dst : List UInt8) → Res (List UInt8 × Int)
  | 0, _, _, _, _, _, _ => .ub
  | fuel + 1, buf, out, cap, pos, args, dst => do
    let c ← rd fmt pos
    if c = 0 then do
      let buf ← wr buf out 0
      .ok (buf, toInt32 out)
    else do
      let r ← (if c = 37 then conversion fmt pos args dst
        else do
          let e ← textEnd fmt (fmt.length + 1) pos
          .ok (some ⟨fmt, pos, e - pos, e, args, dst⟩))
      match r with
      | none => .ok (buf, -1)
      | some o => do
        let len := if o.len < cap then o.len else cap
        let buf ← memcpy buf out o.src o.p len
        fmtLoop fmt fuel buf (out + len) (cap - len) o.pos o.args o.dst

/-- `sc_signal_vsnprintf`, signal/sc_signal.c:88-187, and `sc_signal_snprintf`,
signal/sc_signal.c:189-199. `buf` is the object that the buffer points to. -/
def vsnprintf (buf : List UInt8) (sz : Nat) (fmt : List UInt8) (args : List Arg) (dst : List UInt8) :
    Res (List UInt8 × Int) :=
  fmtLoop fmt (fmt.length + 1) buf 0 (if sz = 0 then 0 else sz - 1) 0 args dst

/-- `sc_signal_log`, signal/sc_signal.c:518-529: the bytes given to `write`. A negative result
becomes a `size_t` far larger than any object. -/
def log (buf : List UInt8) (sz : Nat) (fmt : List UInt8) (args : List Arg) (dst : List UInt8) :
    Res (List UInt8) := do
  let (buf, n) ← vsnprintf buf sz fmt args dst
  let n := (n % W64).toNat
  if n ≤ buf.length then .ok (buf.take n) else .ub

end Verif.Signal
