import Verif.CMem

/-! # Model of `buffer/sc_buf.c` and `buffer/sc_buf.h`

A buffer is its structure together with the block `mem` points to. Pointers the functions
return are indices into that block. Integers are natural numbers; every C operation on
`uint64_t` that can wrap is written with `add64` / `sub64`.
-/

namespace Verif.Buf

/-- `SC_BUF_MAX` = `NULL_LEN`, buffer/sc_buf.c:36-40: `UINT64_MAX - 4096`. -/
notation "BUF_MAX" => (18446744073709547519 : Nat)
/-- 2^62: an assumption about the machine, that no object is that large and allocations of that
size fail (no 64-bit machine has as much address space). -/
notation "OBJ_MAX" => (4611686018427387904 : Nat)

/-- `SC_BUF_CORRUPT`, buffer/sc_buf.h:52. -/
def CORRUPT : Nat := 1
/-- `SC_BUF_OOM`, buffer/sc_buf.h:53. -/
def OOM : Nat := 3

/-- `struct sc_buf`, buffer/sc_buf.h:59-68. -/
structure B where
  mem : List UInt8
  cap : Nat
  limit : Nat
  rpos : Nat
  wpos : Nat
  err : Nat
  ref : Bool
  deriving Repr, DecidableEq

/-- `b->err |= f`. -/
def B.fail (b : B) (f : Nat) : B := { b with err := b.err ||| f }

/-- `sc_buf_wrap`, buffer/sc_buf.c:60-73; `isRef`, `isData` are the flags `SC_BUF_REF` and
`SC_BUF_DATA`. -/
def wrap (data : List UInt8) (len : Nat) (isRef isData : Bool) : B :=
  { mem := data, cap := len, limit := if isRef then len else BUF_MAX,
    wpos := if isData then len else 0, rpos := 0, ref := isRef, err := 0 }

/-- `sc_buf_init`, buffer/sc_buf.c:42-58. `ok` says whether `calloc` succeeds (it cannot for
an object of `OBJ_MAX` bytes). -/
def init (ok : Bool) (cap : Nat) : Bool × B :=
  if cap > 0 then
    if ok && cap < OBJ_MAX then (true, wrap (List.replicate cap 0) cap false false)
    else (false, ⟨[], 0, 0, 0, 0, 0, false⟩)
  else (true, wrap [] cap false false)

/-- `sc_buf_term`, buffer/sc_buf.c:75-82; freeing is not modelled. -/
def term (_b : B) : B := (init true 0).2

/-- `sc_buf_limit`, buffer/sc_buf.c:84-87. -/
def limit (b : B) (n : Nat) : B := { b with limit := n }

/-- `sc_buf_realloc(b->mem, size)`. The C standard leaves size 0 to the implementation, and
memory that is not the buffer's (`ref`) must not be given to `realloc`: both are undefined
here. -/
def realloc (al : Alloc UInt8) (b : B) (size : Nat) : Res (Option (List UInt8)) :=
  if size = 0 ∨ b.ref then .ub
  else if size < OBJ_MAX then .ok (al.map fun fill => resized b.mem size fill)
  else .ok none

/-- `sc_buf_reserve`, buffer/sc_buf.c:99-128. -/
def reserve (al : Alloc UInt8) (b : B) (len : Nat) : Res (Bool × B) :=
  if add64 b.wpos len > b.cap then
    if b.ref then .ok (false, b.fail OOM)
    else
      let size := mul64 (add64 (add64 b.cap len) 4095 / 4096) 4096
      if size > b.limit ∨ b.cap ≥ BUF_MAX - 4096 then .ok (false, b.fail OOM)
      else do
        match ← realloc al b size with
        | none => .ok (false, b.fail OOM)
        | some m => .ok (true, { b with cap := size, mem := m })
  else .ok (true, b)

/-- `sc_buf_compact`, buffer/sc_buf.c:226-241. -/
def compact (b : B) : Res B :=
  let b := if b.rpos = b.wpos then { b with rpos := 0, wpos := 0 } else b
  if b.rpos ≠ 0 then do
    let copy := sub64 b.wpos b.rpos
    let m ← memcpy b.mem 0 b.mem b.rpos copy
    .ok { b with mem := m, rpos := 0, wpos := copy }
  else .ok b

/-- `sc_buf_shrink`, buffer/sc_buf.c:130-152. -/
def shrink (al : Alloc UInt8) (b : B) (len : Nat) : Res (Bool × B) := do
  let b ← compact b
  if len > b.cap ∨ b.wpos ≥ len then .ok (true, b)
  else
    let len := mul64 (add64 len 4095 / 4096) 4096
    match ← realloc al b len with
    | none => .ok (false, b.fail OOM)
    | some m => .ok (true, { b with cap := len, mem := m })

/-- `sc_buf_valid`, buffer/sc_buf.c:154-157. -/
def valid (b : B) : Bool := b.err = 0
/-- `sc_buf_quota`, buffer/sc_buf.c:159-162. -/
def quota (b : B) : Nat := sub64 b.cap b.wpos
/-- `sc_buf_size`, buffer/sc_buf.c:164-167. -/
def size (b : B) : Nat := sub64 b.wpos b.rpos
/-- `sc_buf_clear`, buffer/sc_buf.c:169-174. -/
def clear (b : B) : B := { b with rpos := 0, wpos := 0, err := 0 }
/-- `sc_buf_mark_read`, buffer/sc_buf.c:176-179. -/
def markRead (b : B) (len : Nat) : B := { b with rpos := add64 b.rpos len }
/-- `sc_buf_mark_write`, buffer/sc_buf.c:181-184. -/
def markWrite (b : B) (len : Nat) : B := { b with wpos := add64 b.wpos len }
/-- `sc_buf_set_rpos`, buffer/sc_buf.c:191-199. -/
def setRpos (b : B) (pos : Nat) : B :=
  if pos > b.wpos then b.fail CORRUPT else { b with rpos := pos }
/-- `sc_buf_set_wpos`, buffer/sc_buf.c:201-209. -/
def setWpos (b : B) (pos : Nat) : B :=
  if pos > b.cap then b.fail CORRUPT else { b with wpos := pos }

/-! ## Fixed-size integers -/

/-- The four integer widths. -/
inductive Width where
  | w8 | w16 | w32 | w64
  deriving Repr, DecidableEq

/-- `sizeof(*val)`. -/
def Width.bytes : Width → Nat
  | .w8 => 1 | .w16 => 2 | .w32 => 4 | .w64 => 8

/-- The loads of buffer/sc_buf.c:262, 280, 298-299, 317-320. -/
def Width.load (mem : List UInt8) (pos : Nat) : Width → Res Nat
  | .w8 => do
    let p0 ← rd mem pos
    .ok p0.toNat
  | .w16 => do
    let p0 ← rd mem pos
    let p1 ← rd mem (pos + 1)
    .ok (p0.toNat <<< 0 ||| p1.toNat <<< 8)
  | .w32 => do
    let p0 ← rd mem pos
    let p1 ← rd mem (pos + 1)
    let p2 ← rd mem (pos + 2)
    let p3 ← rd mem (pos + 3)
    .ok (p0.toNat <<< 0 ||| p1.toNat <<< 8 ||| p2.toNat <<< 16 ||| p3.toNat <<< 24)
  | .w64 => do
    let p0 ← rd mem pos
    let p1 ← rd mem (pos + 1)
    let p2 ← rd mem (pos + 2)
    let p3 ← rd mem (pos + 3)
    let p4 ← rd mem (pos + 4)
    let p5 ← rd mem (pos + 5)
    let p6 ← rd mem (pos + 6)
    let p7 ← rd mem (pos + 7)
    .ok (p0.toNat <<< 0 ||| p1.toNat <<< 8 ||| p2.toNat <<< 16 ||| p3.toNat <<< 24 |||
      p4.toNat <<< 32 ||| p5.toNat <<< 40 ||| p6.toNat <<< 48 ||| p7.toNat <<< 56)

/-- The stores of buffer/sc_buf.c:333, 350-351, 368-371, 388-395. -/
def Width.store (mem : List UInt8) (pos val : Nat) : Width → Res (List UInt8)
  | .w8 => wr mem pos (UInt8.ofNat val)
  | .w16 => do
    let m ← wr mem pos (UInt8.ofNat (val >>> 0))
    wr m (pos + 1) (UInt8.ofNat (val >>> 8))
  | .w32 => do
    let m ← wr mem pos (UInt8.ofNat (val >>> 0))
    let m ← wr m (pos + 1) (UInt8.ofNat (val >>> 8))
    let m ← wr m (pos + 2) (UInt8.ofNat (val >>> 16))
    wr m (pos + 3) (UInt8.ofNat (val >>> 24))
  | .w64 => do
    let m ← wr mem pos (UInt8.ofNat (val >>> 0))
    let m ← wr m (pos + 1) (UInt8.ofNat (val >>> 8))
    let m ← wr m (pos + 2) (UInt8.ofNat (val >>> 16))
    let m ← wr m (pos + 3) (UInt8.ofNat (val >>> 24))
    let m ← wr m (pos + 4) (UInt8.ofNat (val >>> 32))
    let m ← wr m (pos + 5) (UInt8.ofNat (val >>> 40))
    let m ← wr m (pos + 6) (UInt8.ofNat (val >>> 48))
    wr m (pos + 7) (UInt8.ofNat (val >>> 56))

/-- `sc_buf_peek_8_pos` .. `sc_buf_peek_64_pos`, buffer/sc_buf.c:254-323: the buffer, `*val`
and the return value. -/
def peekPos (w : Width) (b : B) (pos : Nat) : Res (B × Nat × Nat) :=
  if b.err ≠ 0 ∨ add64 pos w.bytes > b.wpos then .ok (b.fail CORRUPT, 0, 0)
  else do
    let v ← w.load b.mem pos
    .ok (b, v, w.bytes)

/-- `sc_buf_set_8_pos` .. `sc_buf_set_64_pos`, buffer/sc_buf.c:325-398. -/
def setPos (w : Width) (b : B) (pos val : Nat) : Res (B × Nat) :=
  if b.err ≠ 0 ∨ add64 pos w.bytes > b.cap then .ok (b.fail CORRUPT, 0)
  else do
    let m ← w.store b.mem pos val
    .ok ({ b with mem := m }, w.bytes)

/-- `sc_buf_peek_8_at` .. `sc_buf_peek_64_at`, buffer/sc_buf.c:400-430. -/
def peekAt (w : Width) (b : B) (pos : Nat) : Res (B × Nat) := do
  let (b, v, _) ← peekPos w b pos
  .ok (b, v)

/-- `sc_buf_peek_8` .. `sc_buf_peek_64`, buffer/sc_buf.c:432-450. -/
def peek (w : Width) (b : B) : Res (B × Nat) := peekAt w b b.rpos

/-- `sc_buf_set_8_at` .. `sc_buf_set_64_at`, buffer/sc_buf.c:466-484. -/
def setAt (w : Width) (b : B) (pos val : Nat) : Res B := do
  let (b, _) ← setPos w b pos val
  .ok b

/-- `sc_buf_set_8` .. `sc_buf_set_64`, buffer/sc_buf.c:486-504. -/
def set (w : Width) (b : B) (val : Nat) : Res B := setAt w b b.wpos val

/-- `sc_buf_get_8` .. `sc_buf_get_64`, buffer/sc_buf.c:527-561. -/
def get (w : Width) (b : B) : Res (B × Nat) := do
  let (b', v, n) ← peekPos w b b.rpos
  .ok ({ b' with rpos := add64 b.rpos n }, v)

/-- `sc_buf_get_bool`, buffer/sc_buf.c:522-525. -/
def getBool (b : B) : Res (B × Bool) := do
  let (b, v) ← get .w8 b
  .ok (b, v ≠ 0)

/-- `sc_buf_get_double`, buffer/sc_buf.c:563-572: a `double` is its 64 bits. -/
def getDouble (b : B) : Res (B × Nat) := get .w64 b

/-- `sc_buf_put_8` .. `sc_buf_put_64`, buffer/sc_buf.c:643-677. -/
def put (al : Alloc UInt8) (w : Width) (b : B) (val : Nat) : Res B := do
  let (ok, b) ← reserve al b w.bytes
  if !ok then .ok b
  else do
    let (b', n) ← setPos w b b.wpos val
    .ok { b' with wpos := add64 b.wpos n }

/-- `sc_buf_put_bool`, buffer/sc_buf.c:638-641. -/
def putBool (al : Alloc UInt8) (b : B) (val : Bool) : Res B := put al .w8 b (if val then 1 else 0)

/-- `sc_buf_put_double`, buffer/sc_buf.c:679-685. -/
def putDouble (al : Alloc UInt8) (b : B) (bits : Nat) : Res B := put al .w64 b bits

/-! ## Raw data -/

/-- `sc_buf_peek_data`, buffer/sc_buf.c:452-464: the buffer, the bytes in `dest`, and the
return value. -/
def peekData (b : B) (pos len : Nat) : Res (B × List UInt8 × Nat) :=
  if b.err ≠ 0 ∨ add64 pos len > b.wpos then .ok (b.fail CORRUPT, List.replicate len 0, 0)
  else if pos + len ≤ b.mem.length then .ok (b, slice b.mem pos len, len)
  else .ub

/-- `sc_buf_set_data`, buffer/sc_buf.c:506-520. -/
def setData (b : B) (offset : Nat) (src : List UInt8) (len : Nat) : Res (B × Nat) :=
  if b.err ≠ 0 ∨ add64 offset len > b.cap then .ok (b.fail CORRUPT, 0)
  else if len = 0 then .ok (b, 0)
  else do
    let m ← memcpy b.mem offset src 0 len
    .ok ({ b with mem := m }, len)

/-- `sc_buf_get_str`, buffer/sc_buf.c:574-597: the pointer returned, as an index. -/
def getStr (b : B) : Res (B × Option Nat) := do
  let (b, len) ← get .w64 b
  if len = BUF_MAX then .ok (b, none)
  else if !valid b then .ok (b, none)
  else if add64 (add64 b.rpos len) 1 > b.wpos then .ok (b.fail CORRUPT, none)
  else .ok ({ b with rpos := add64 b.rpos (add64 len 1) }, some b.rpos)

/-- `sc_buf_get_blob`, buffer/sc_buf.c:599-616. -/
def getBlob (b : B) (len : Nat) : B × Option Nat :=
  if len = 0 then (b, none)
  else if add64 b.rpos len > b.wpos then (b.fail CORRUPT, none)
  else ({ b with rpos := add64 b.rpos len }, some b.rpos)

/-- `sc_buf_get_data`, buffer/sc_buf.c:618-627. -/
def getData (b : B) (len : Nat) : Res (B × List UInt8) :=
  if add64 b.rpos len > b.wpos then .ok (b.fail CORRUPT, List.replicate len 0)
  else do
    let (b', d, n) ← peekData b b.rpos len
    .ok ({ b' with rpos := add64 b.rpos n }, d)

/-- `sc_buf_put_raw`, buffer/sc_buf.c:629-636. -/
def putRaw (al : Alloc UInt8) (b : B) (src : List UInt8) (len : Nat) : Res B := do
  let (ok, b) ← reserve al b len
  if !ok then .ok b
  else do
    let (b', n) ← setData b b.wpos src len
    .ok { b' with wpos := add64 b.wpos n }

/-- `sc_buf_put_str`, buffer/sc_buf.c:687-704. `str` is the block the string starts. -/
def putStr (al1 al2 : Alloc UInt8) (b : B) (str : Option (List UInt8)) : Res B :=
  match str with
  | none => put al1 .w64 b BUF_MAX
  | some str => do
    let sz ← strlen str 0
    if sz ≥ BUF_MAX then .ok (b.fail CORRUPT)
    else do
      let b ← put al1 .w64 b sz
      putRaw al2 b str (sz + 1)

/-- `sc_buf_put_str_len`, buffer/sc_buf.c:706-716. -/
def putStrLen (al1 al2 al3 : Alloc UInt8) (b : B) (str : Option (List UInt8)) (len : Nat) :
    Res B :=
  match str with
  | none => put al1 .w64 b BUF_MAX
  | some str => do
    let b ← put al1 .w64 b len
    let b ← putRaw al2 b str len
    put al3 .w8 b 0

/-- `sc_buf_put_blob`, buffer/sc_buf.c:816-820. -/
def putBlob (al1 al2 : Alloc UInt8) (b : B) (ptr : List UInt8) (len : Nat) : Res B := do
  let b ← put al1 .w64 b len
  putRaw al2 b ptr len

/-- `sc_buf_move`, buffer/sc_buf.c:243-252; the two buffers are different. -/
def move (al : Alloc UInt8) (dest src : B) : Res (B × B) := do
  let q := quota dest
  let s := size src
  let copy := if q < s then q else s
  let dest ← putRaw al dest (src.mem.drop src.rpos) copy
  .ok (dest, { src with rpos := add64 src.rpos copy })

/-! ## Formatted text -/

/-- `sc_buf_put_fmt`, buffer/sc_buf.c:718-768. -/
def putFmt (al : Alloc UInt8) (b : B) (text : Option (List UInt8)) : Res B := do
  let pos := b.wpos
  let q := quota b
  let q := if q > 8 then sub64 q 8 else 0
  let (m, rc) ← vsnprintf b.mem (b.wpos + 8) q text
  let b := { b with mem := m }
  match rc with
  | none => .ok (b.fail CORRUPT)
  | some wr =>
    if wr ≥ q then do
      let (ok, b) ← reserve al b (add64 wr 8)
      if !ok then .ok b
      else do
        let q := sub64 (quota b) 8
        let (m, rc) ← vsnprintf b.mem (b.wpos + 8) q text
        let b := { b with mem := m }
        match rc with
        | none => .ok (b.fail OOM)
        | some wr =>
          if wr ≥ q then .ok (b.fail OOM)
          else do
            let b ← setAt .w64 b pos wr
            .ok (markWrite b (add64 wr 9))
    else do
      let b ← setAt .w64 b pos wr
      .ok (markWrite b (add64 wr 9))

/-- `sc_buf_mark_write(b, rc - off + 1)`, buffer/sc_buf.c:809, with the `int` arithmetic:
`INT_MAX + 1` is undefined. -/
def textEnd (b : B) (rc off : Nat) : Res B :=
  if rc + 1 - off > 2147483647 then .ub else .ok (markWrite b (rc + 1 - off))

/-- `sc_buf_put_text`, buffer/sc_buf.c:770-814. -/
def putText (al : Alloc UInt8) (b : B) (text : Option (List UInt8)) : Res B := do
  let off := if size b > 0 then 1 else 0
  let q := quota b
  let (m, rc) ← vsnprintf b.mem (b.wpos - off) q text
  let b := { b with mem := m }
  match rc with
  | none => .ok (setWpos (b.fail CORRUPT) 0)
  | some wr =>
    if wr ≥ q then do
      let (ok, b) ← reserve al b (add64 wr 1)
      if !ok then .ok (setWpos b 0)
      else do
        let q := quota b
        let (m, rc) ← vsnprintf b.mem (b.wpos - off) q text
        let b := { b with mem := m }
        match rc with
        | none => .ok (setWpos { b with err := OOM } 0)
        | some rc =>
          if rc ≥ q then .ok (setWpos { b with err := OOM } 0)
          else textEnd b rc off
    else textEnd b wr off

/-! ## Encoded lengths -/

/-- `sc_buf_8_len` .. `sc_buf_64_len` (also `bool` and `double`), buffer/sc_buf.h:392-397. -/
def intLen (w : Width) : Nat :=
  match w with
  | .w8 => 1 | .w16 => 2 | .w32 => 4 | .w64 => 8

/-- `sc_buf_blob_len`, buffer/sc_buf.h:400-405. -/
def blobLen (len : Nat) : Nat := add64 len 8

/-- `sc_buf_str_len`, buffer/sc_buf.h:407-416. -/
def strLen (str : Option (List UInt8)) : Res Nat :=
  match str with
  | none => .ok 8
  | some s => do
    let n ← strlen s 0
    .ok (add64 9 n)

/-! ## Histories -/

/-- The calls of the API that change a buffer (or its error flag), with the behaviour of the
allocator during the call. Results are dropped. -/
inductive Op where
  | limit (n : Nat)
  | reserve (al : Alloc UInt8) (n : Nat)
  | shrink (al : Alloc UInt8) (n : Nat)
  | compact
  | clear
  | markRead (n : Nat)
  | markWrite (n : Nat)
  | setRpos (n : Nat)
  | setWpos (n : Nat)
  | peekAt (w : Width) (pos : Nat)
  | peekData (pos len : Nat)
  | setAt (w : Width) (pos v : Nat)
  | setData (off : Nat) (src : List UInt8) (len : Nat)
  | get (w : Width)
  | getStr
  | getBlob (n : Nat)
  | getData (n : Nat)
  | put (al : Alloc UInt8) (w : Width) (v : Nat)
  | putRaw (al : Alloc UInt8) (src : List UInt8) (len : Nat)
  | putStr (al1 al2 : Alloc UInt8) (str : Option (List UInt8))
  | putStrLen (al1 al2 al3 : Alloc UInt8) (str : Option (List UInt8)) (len : Nat)
  | putBlob (al1 al2 : Alloc UInt8) (src : List UInt8) (len : Nat)
  | putFmt (al : Alloc UInt8) (text : Option (List UInt8))
  | putText (al : Alloc UInt8) (text : Option (List UInt8))

/-- One call. -/
def step (b : B) : Op → Res B
  | .limit n => .ok (limit b n)
  | .reserve al n => do let (_, b) ← reserve al b n; .ok b
  | .shrink al n => do let (_, b) ← shrink al b n; .ok b
  | .compact => compact b
  | .clear => .ok (clear b)
  | .markRead n => .ok (markRead b n)
  | .markWrite n => .ok (markWrite b n)
  | .setRpos n => .ok (setRpos b n)
  | .setWpos n => .ok (setWpos b n)
  | .peekAt w pos => do let (b, _) ← peekAt w b pos; .ok b
  | .peekData pos len => do let (b, _, _) ← peekData b pos len; .ok b
  | .setAt w pos v => setAt w b pos v
  | .setData off src len => do let (b, _) ← setData b off src len; .ok b
  | .get w => do let (b, _) ← get w b; .ok b
  | .getStr => do let (b, _) ← getStr b; .ok b
  | .getBlob n => .ok (getBlob b n).1
  | .getData n => do let (b, _) ← getData b n; .ok b
  | .put al w v => put al w b v
  | .putRaw al src len => putRaw al b src len
  | .putStr al1 al2 str => putStr al1 al2 b str
  | .putStrLen al1 al2 al3 str len => putStrLen al1 al2 al3 b str len
  | .putBlob al1 al2 src len => putBlob al1 al2 b src len
  | .putFmt al text => putFmt al b text
  | .putText al text => putText al b text

end Verif.Buf
