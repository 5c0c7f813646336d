import Verif.Buf.Model

/-! # Specification of `sc_buf` -/

namespace Verif.Buf

/-! ## What a buffer holds -/

/-- The bytes written so far. -/
def written (b : B) : List UInt8 := slice b.mem 0 b.wpos

/-- The bytes between the read and the write position: what a reader will see. -/
def unread (b : B) : List UInt8 := slice b.mem b.rpos (b.wpos - b.rpos)

/-- Positions in order and inside the memory, which is an object of `cap` bytes. -/
structure InRange (b : B) : Prop where
  mem : b.mem.length = b.cap
  rpos : b.rpos ≤ b.wpos
  wpos : b.wpos ≤ b.cap
  cap : b.cap < OBJ_MAX

/-! ## Encodings -/

/-- The `n` bytes of `v`, least significant first. -/
def le : (n v : Nat) → List UInt8
  | 0, _ => []
  | n + 1, v => UInt8.ofNat (v % 256) :: le n (v / 256)

/-- The number whose bytes these are, least significant first. -/
def leVal : List UInt8 → Nat
  | [] => 0
  | b :: bs => b.toNat + 256 * leVal bs

/-- The values a message is made of. A `double` is its 64 bits. A string is `none` for NULL. -/
inductive Val where
  | int (w : Width) (v : Nat)
  | bool (v : Bool)
  | double (bits : Nat)
  | str (s : Option (List UInt8))
  | blob (bs : List UInt8)

/-- The values C can represent. -/
def Val.Ok : Val → Prop
  | .int w v => v < 256 ^ w.bytes
  | .bool _ => True
  | .double v => v < 256 ^ 8
  | .str none => True
  | .str (some s) => (∀ c ∈ s, c ≠ 0) ∧ s.length < OBJ_MAX
  | .blob bs => bs.length < OBJ_MAX

/-- The bytes of an encoded value. -/
def Val.encode : Val → List UInt8
  | .int w v => le w.bytes v
  | .bool v => [if v then 1 else 0]
  | .double v => le 8 v
  | .str none => le 8 BUF_MAX
  | .str (some s) => le 8 s.length ++ s ++ [0]
  | .blob bs => le 8 bs.length ++ bs

/-- Writing a value with the function for its type. A string is given as a block with its
terminator. The allocator may behave differently in each of the calls. -/
def Val.put (al : Nat → Alloc UInt8) (b : B) : Val → Res B
  | .int w v => Buf.put (al 0) w b v
  | .bool v => putBool (al 0) b v
  | .double v => putDouble (al 0) b v
  | .str s => putStr (al 0) (al 1) b (s.map (· ++ [0]))
  | .blob bs => putBlob (al 0) (al 1) b bs bs.length

/-- The C string at `p`: what a caller sees behind a returned pointer. -/
def cstrAt (mem : List UInt8) (p : Nat) : Res (List UInt8) := do
  let n ← strlen mem p
  .ok (slice mem p n)

/-- Reading a value of the same type (the value given is only used for its type): for a blob
the length and then the bytes. -/
def Val.get (b : B) : Val → Res (B × Val)
  | .int w _ => do
    let (b, v) ← Buf.get w b
    .ok (b, .int w v)
  | .bool _ => do
    let (b, v) ← getBool b
    .ok (b, .bool v)
  | .double _ => do
    let (b, v) ← getDouble b
    .ok (b, .double v)
  | .str _ => do
    let (b, p) ← getStr b
    match p with
    | none => .ok (b, .str none)
    | some p => do
      let s ← cstrAt b.mem p
      .ok (b, .str (some s))
  | .blob _ => do
    let (b, n) ← Buf.get .w64 b
    let (b, d) ← getData b n
    .ok (b, .blob d)

/-- Writing a message. -/
def putAll (al : Nat → Nat → Alloc UInt8) (b : B) : (i : Nat) → List Val → Res B
  | _, [] => .ok b
  | i, v :: vs => do
    let b ← v.put (al i) b
    putAll al b (i + 1) vs

/-- Reading a message with the same types. -/
def getAll (b : B) : List Val → Res (B × List Val)
  | [] => .ok (b, [])
  | v :: vs => do
    let (b, x) ← v.get b
    let (b, xs) ← getAll b vs
    .ok (b, x :: xs)

/-! ## What callers have to observe -/

/-- The obligations of the caller of each function: positions given to `mark_read`,
`mark_write` and `set_wpos` are in range, lengths and positions are those of objects (below
2^62), source blocks are as long as claimed, strings are terminated, formatted texts are
shorter than `INT_MAX`. -/
def Allowed (b : B) : Op → Prop
  | .limit _ | .compact | .clear | .setRpos _ | .get _ | .getStr | .put .. => True
  | .reserve _ n | .shrink _ n | .getBlob n | .getData n => n < OBJ_MAX
  | .markRead n => n ≤ b.wpos - b.rpos
  | .markWrite n => n ≤ b.cap - b.wpos
  | .setWpos n => b.rpos ≤ n
  | .peekAt _ pos | .setAt _ pos _ => pos < OBJ_MAX
  | .peekData pos len => pos < OBJ_MAX ∧ len < OBJ_MAX
  | .setData off src len => off < OBJ_MAX ∧ len < OBJ_MAX ∧ len ≤ src.length
  | .putRaw _ src len | .putBlob _ _ src len => len < OBJ_MAX ∧ len ≤ src.length
  | .putStr _ _ none | .putStrLen _ _ _ none _ => True
  | .putStr _ _ (some s) => s.length < OBJ_MAX ∧ ∃ t, CStr s 0 t
  | .putStrLen _ _ _ (some s) len => len < OBJ_MAX ∧ len ≤ s.length
  | .putFmt _ t | .putText _ t => ∀ s, t = some s → s.length < 2147483647

/-- The buffer has its own memory, the allocator has some, and growing by `len` bytes, to a
multiple of 4096, stays within the limit. -/
def CanGrow (al : Alloc UInt8) (b : B) (len : Nat) : Prop :=
  b.ref = false ∧ al ≠ none ∧ (b.cap + len + 4095) / 4096 * 4096 ≤ b.limit ∧
    (b.cap + len + 4095) / 4096 * 4096 < OBJ_MAX

end Verif.Buf
