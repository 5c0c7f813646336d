import Verif.CNum

/-!
# Model of sc/sc.c

The helpers of sc/sc.c: the random generator, powers of two and size strings. 64-bit unsigned
numbers are naturals below 2^64, `int64_t` values are integers in range.
-/

namespace Verif.Sc

/-! ## Random numbers -/

/-- `struct sc_rand`, sc/sc.h:43-47; `tab` is the array `init`. -/
structure Rand where
  i : UInt8
  j : UInt8
  tab : List UInt8
  deriving DecidableEq, Repr

/-- The loop of `sc_rand_init`, sc/sc.c:51-56, from index `i` on; `r->j` and the index
`r->init[i] + init[i]` wrap to `unsigned char`. -/
def initLoop (seed : List UInt8) : (fuel i : Nat) → Rand → Res Rand
  | 0, _, r => .ok r
  | fuel + 1, i, r => do
    let a ← rd r.tab i
    let b ← rd seed i
    let j := r.j + (a + b)
    let t ← rd r.tab j.toNat
    let x ← rd r.tab i
    let tab ← wr r.tab j.toNat x
    let tab ← wr tab i t
    initLoop seed fuel (i + 1) { r with j := j, tab := tab }

/-- `sc_rand_init`, sc/sc.c:43-57; `seed` is the memory `init` points to. -/
def randInit (seed : List UInt8) : Res Rand := do
  let tab ← memcpy (List.replicate 256 0) 0 seed 0 256
  initLoop seed 256 0 { i := 0, j := 0, tab := tab }

/-- One round of `sc_rand_read`, sc/sc.c:69-75: the new state and the byte produced. -/
def randByte (r : Rand) : Res (Rand × UInt8) := do
  let i := r.i + 1
  let t ← rd r.tab i.toNat
  let j := r.j + t
  let x ← rd r.tab j.toNat
  let tab ← wr r.tab i.toNat x
  let tab ← wr tab j.toNat t
  let y ← rd tab i.toNat
  let t := t + y
  let b ← rd tab t.toNat
  .ok ({ i := i, j := j, tab := tab }, b)

/-- `do { … } while (--size)`, sc/sc.c:68-76: the test comes after the first byte. With a size that is not positive, the loop
would go on until it has left the buffer: the model says so at once. -/
def readDo : (fuel : Nat) → (size : Int) → (p : Nat) → Rand → List UInt8 → Res (Rand × List UInt8)
  | 0, _, _, _, _ => .ub
  | fuel + 1, size, p, r, buf => do
    let (r, b) ← randByte r
    let buf ← wr buf p b
    if size - 1 = 0 then .ok (r, buf) else readDo fuel (size - 1) (p + 1) r buf

/-- `sc_rand_read`, sc/sc.c:59-77; `buf` is the memory behind the pointer, `none` for NULL. -/
def randRead (r : Rand) (buf : Option (List UInt8)) (size : Int) :
    Res (Rand × Option (List UInt8)) :=
  match buf with
  | none => .ok (r, none)
  | some m =>
    if size ≤ 0 then .ok (r, some m)
    else do
      let (r, m) ← readDo size.toNat size 0 r m
      .ok (r, some m)

/-! ## Powers of two -/

/-- `sc_is_pow2`, sc/sc.c:79-82. -/
def isPow2 (num : Nat) : Bool := num != 0 && (num &&& sub64 num 1) == 0

/-- The loop of `sc_to_pow2`, sc/sc.c:92-94: `i = 1, 2, 4, …` while `i < 64`. -/
def smear : (fuel i size : Nat) → Nat
  | 0, _, size => size
  | fuel + 1, i, size => if i < 64 then smear fuel (i * 2) (size ||| (size >>> i)) else size

/-- `sc_to_pow2`, sc/sc.c:84-99. -/
def toPow2 (size : Nat) : Nat :=
  if size = 0 then 1
  else add64 (smear 64 1 (sub64 size 1)) 1

/-! ## Sizes -/

/-- The rounding of `printf` (IEEE round to nearest, ties to even) of `a / b`. -/
def roundEven (a b : Nat) : Nat :=
  if 2 * (a % b) < b then a / b
  else if b < 2 * (a % b) then a / b + 1
  else if (a / b) % 2 = 0 then a / b else a / b + 1

/-- What `"%.02lf"` prints for the number `h / 100`. -/
def fixed2 (h : Nat) : List UInt8 :=
  dec (h / 100) ++ [46, UInt8.ofNat (48 + h % 100 / 10), UInt8.ofNat (48 + h % 10)]

/-- The loop of `sc_bytes_to_size`, sc/sc.c:115-118, with `i = 10 * k` for the next `k`: how
often it runs. -/
def unitLoop (val : Nat) : (k : Nat) → Nat
  | 0 => if val > 0xfffcccccccccccc >>> 0 then 1 else 0
  | k + 1 => if val > 0xfffcccccccccccc >>> (10 * (k + 1)) then unitLoop val k + 1 else 0

/-- `suffix`, sc/sc.c:103: KB, MB, GB, TB, PB, EB. -/
def suffixes : List (List UInt8) :=
  [[75, 66], [77, 66], [71, 66], [84, 66], [80, 66], [69, 66]]

/-- The text `sc_bytes_to_size` formats, sc/sc.c:107-120. `(double) count / 1024` is exact as
`count` is less than 2^53 (`count_exact`), and `printf` rounds the exact value. -/
def sizeText (val : Nat) : Res (List UInt8) := do
  if val < 1024 then .ok (dec val ++ [32, 66])
  else
    let n := unitLoop val 4
    let count := val >>> (10 * n)
    let s ← rd suffixes n
    .ok (fixed2 (roundEven (count * 100) 1024) ++ [32] ++ s)

/-- `sc_bytes_to_size`, sc/sc.c:101-126: the buffer afterwards, and `true` iff `buf` is
returned. -/
def bytesToSize (buf : List UInt8) (len val : Nat) : Res (List UInt8 × Bool) := do
  let t ← sizeText val
  let (buf, wr) ← vsnprintf buf 0 len (some t)
  match wr with
  | none => .ok (buf, false)
  | some wr => .ok (buf, !(wr ≤ 0 || wr ≥ len))

/-- `INT64_MAX` -/
notation "I64_MAX" => (9223372036854775807 : Int)

/-- `strtoll(s, &end, 10)` (C11 7.22.1.4): the value and the number of characters read; `none`
when there is no number or it is out of range (`ERANGE`). -/
def strtoll (s : List UInt8) : Option (Int × Nat) :=
  match strtoNum s with
  | none => none
  | some (neg, n, k) =>
    let v : Int := if neg then -n else n
    if v < -I64_MAX - 1 ∨ I64_MAX < v then none else some (v, k)

/-- `(val > INT64_MAX / unit) ? -1 : val * unit`, sc/sc.c:167-183: signed overflow is
undefined. -/
def scale (val unit : Int) : Res Int :=
  if val > I64_MAX / unit then .ok (-1)
  else if val * unit < -I64_MAX - 1 then .ub
  else .ok (val * unit)

/-- `tolower` of a `char`, which is signed (C11 7.4): only for values of `unsigned char` and EOF. -/
def tolowerChar (c : UInt8) : Res Int :=
  if c < 128 then .ok (toLower c).toNat else if c = 255 then .ok (-1) else .ub

/-- The last `switch` of `sc_size_to_bytes`, sc/sc.c:164-187. -/
def scaleBy (val : Int) (c : UInt8) : Res Int := do
  let x ← tolowerChar c
  match x with
  | 98 => .ok val
  | 107 => scale val 1024
  | 109 => scale val (1024 * 1024)
  | 103 => scale val (1024 * 1024 * 1024)
  | 116 => scale val (1024 * 1024 * 1024 * 1024)
  | 112 => scale val (1024 * 1024 * 1024 * 1024 * 1024)
  | 101 => scale val (1024 * 1024 * 1024 * 1024 * 1024 * 1024)
  | _ => .ok (-1)

/-- `sc_size_to_bytes`, sc/sc.c:128-190. -/
def sizeToBytes (mem : List UInt8) : Res Int := do
  let s ← cstr mem 0
  match strtoll s with
  | none => .ok (-1)
  | some (val, k) =>
    let count := toInt32 (s.length - k)
    if count = 0 then .ok val
    else if count = 1 then do
      let c ← rd mem k
      scaleBy val c
    else if count = 2 then do
      let d ← rd mem (k + 1)
      let x ← tolowerChar d
      if x ≠ 98 then .ok (-1)
      else do
        let c ← rd mem k
        scaleBy val c
    else .ok (-1)

end Verif.Sc
