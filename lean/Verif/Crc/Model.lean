import Verif.CMem

/-!
# Model of `sc_crc32` (crc32/sc_crc32.c)

`uint32_t` and `uint64_t` are `BitVec 32` and `BitVec 64`. The data are a block of bytes `buf`
at the address `addr`; only the alignment of the address matters. Table and data accesses are
checked. There are three implementations, chosen when the library is compiled: with the CRC
instruction of the processor, with tables on little-endian, and with tables on big-endian
processors. All three are modelled.
-/

namespace Verif.Crc

/-- `POLY`, crc32/sc_crc32.c:37. -/
def POLY : BitVec 32 := 0x82f63b78#32

/-- One line of the table construction, crc32/sc_crc32.c:284-291 and 365-372:
`crc & 1 ? (crc >> 1) ^ POLY : crc >> 1`. -/
def bitStep (crc : BitVec 32) : BitVec 32 :=
  if crc &&& 1#32 ≠ 0#32 then (crc >>> 1) ^^^ POLY else crc >>> 1

/-- Eight such lines. -/
def byteStep (crc : BitVec 32) : BitVec 32 :=
  bitStep (bitStep (bitStep (bitStep (bitStep (bitStep (bitStep (bitStep crc)))))))

/-- A table access `t[i]`. -/
def tab {w : Nat} (t : List (BitVec w)) (i : Nat) : Res (BitVec w) := rd t i

/-- `t[k][i]`. -/
def tab2 {w : Nat} (t : List (List (BitVec w))) (k i : Nat) : Res (BitVec w) := do
  let row ← rd t k
  rd row i

/-! ## Table driven, little-endian -/

/-- `crc32c_table_le[0]`, crc32/sc_crc32.c:282-293. -/
def table0 : List (BitVec 32) := (List.range 256).map fun n => byteStep (BitVec.ofNat 32 n)

/-- The values `crc` takes in the inner loop, crc32/sc_crc32.c:294-300: the value of
`crc32c_table_le[k][n]`. -/
def nextRow (t0 : List (BitVec 32)) (row : List (BitVec 32)) : Res (List (BitVec 32)) :=
  row.mapM fun crc => do
    let t ← tab t0 (crc &&& 0xff#32).toNat
    .ok (t ^^^ (crc >>> 8))

/-- The rows `k .. 7` of `crc32c_table_le`, given row `k - 1`. -/
def rows (t0 : List (BitVec 32)) : (n : Nat) → (row : List (BitVec 32)) →
    Res (List (List (BitVec 32)))
  | 0, _ => .ok []
  | n + 1, row => do
    let row ← nextRow t0 row
    let rest ← rows t0 n row
    .ok (row :: rest)

/-- `crc32_init_sw_le`, crc32/sc_crc32.c:280-301: `crc32c_table_le`. The two nested loops are
swapped: row by row instead of column by column, which makes no difference as the second pair
of loops reads row 0 only. -/
def initSwLe : Res (List (List (BitVec 32))) := do
  let rest ← rows table0 7 table0
  .ok (table0 :: rest)

/-- One byte at a time: `crc = table[0][(crc ^ *next++) & 0xff] ^ (crc >> 8)`,
crc32/sc_crc32.c:311-314, 332-335 and 392-395, 413-416. -/
def swByte (t0 : List (BitVec 32)) (crc : BitVec 32) (b : UInt8) : Res (BitVec 32) := do
  let t ← tab t0 ((crc ^^^ b.toBitVec.setWidth 32) &&& 0xff#32).toNat
  .ok (t ^^^ (crc >>> 8))

/-- The first loop, up to an eight-byte boundary: the position, `len` and `crc` after it. -/
def swHead (t0 : List (BitVec 32)) (buf : List UInt8) (addr : Nat) :
    (len pos : Nat) → (crc : BitVec 32) → Res (Nat × Nat × BitVec 32)
  | 0, pos, crc => .ok (pos, 0, crc)
  | len + 1, pos, crc =>
    if (addr + pos) % 8 ≠ 0 then do
      let b ← rd buf pos
      let crc ← swByte t0 crc b
      swHead t0 buf addr len (pos + 1) crc
    else .ok (pos, len + 1, crc)

/-- The last loop. -/
def swTail (t0 : List (BitVec 32)) (buf : List UInt8) :
    (len pos : Nat) → (crc : BitVec 32) → Res (BitVec 32)
  | 0, _, crc => .ok crc
  | len + 1, pos, crc => do
    let b ← rd buf pos
    let crc ← swByte t0 crc b
    swTail t0 buf len (pos + 1) crc

/-- The byte `b` at position `k` (from the least significant) of a 64-bit value. -/
def at64 (b : UInt8) (k : Nat) : BitVec 64 := b.toBitVec.setWidth 64 <<< (8 * k)

/-- Eight bytes of memory. -/
def ld8 (buf : List UInt8) (pos : Nat) : Res (List UInt8) := do
  let b0 ← rd buf pos
  let b1 ← rd buf (pos + 1)
  let b2 ← rd buf (pos + 2)
  let b3 ← rd buf (pos + 3)
  let b4 ← rd buf (pos + 4)
  let b5 ← rd buf (pos + 5)
  let b6 ← rd buf (pos + 6)
  let b7 ← rd buf (pos + 7)
  .ok [b0, b1, b2, b3, b4, b5, b6, b7]

/-- The 64-bit value the first bytes of which are `bs`, on a little-endian machine. -/
def word (bs : List UInt8) : BitVec 64 :=
  match bs with
  | [b0, b1, b2, b3, b4, b5, b6, b7] =>
    at64 b0 0 ^^^ at64 b1 1 ^^^ at64 b2 2 ^^^ at64 b3 3 ^^^ at64 b4 4 ^^^ at64 b5 5 ^^^
      at64 b6 6 ^^^ at64 b7 7
  | _ => 0#64

/-- `*(uint64_t const *) next` on a little-endian machine; `next` must be aligned. -/
def ldLe (buf : List UInt8) (addr pos : Nat) : Res (BitVec 64) := do
  cassert ((addr + pos) % 8 = 0)
  let bs ← ld8 buf pos
  .ok (word bs)

/-- `(w >> s) & 0xff` as an index. -/
def byteAt (w : BitVec 64) (s : Nat) : Nat := ((w >>> s) &&& 0xff#64).toNat

/-- The body of the loop, crc32/sc_crc32.c:318-326. -/
def sliceLe (t : List (List (BitVec 32))) (crcw m : BitVec 64) : Res (BitVec 64) := do
  let crcw := crcw ^^^ m
  let a7 ← tab2 t 7 (byteAt crcw 0)
  let a6 ← tab2 t 6 (byteAt crcw 8)
  let a5 ← tab2 t 5 (byteAt crcw 16)
  let a4 ← tab2 t 4 (byteAt crcw 24)
  let a3 ← tab2 t 3 (byteAt crcw 32)
  let a2 ← tab2 t 2 (byteAt crcw 40)
  let a1 ← tab2 t 1 (byteAt crcw 48)
  let a0 ← tab2 t 0 (crcw >>> 56).toNat
  .ok ((a7 ^^^ a6 ^^^ a5 ^^^ a4 ^^^ a3 ^^^ a2 ^^^ a1 ^^^ a0).setWidth 64)

/-- The loop of crc32/sc_crc32.c:317-329: the rest of `len`, the position and `crcw`. `len` gets smaller in each round, `fuel`
bounds the rounds. Where `len -= 8` would wrap around the outcome is undefined here. -/
def loopLe (t : List (List (BitVec 32))) (buf : List UInt8) (addr : Nat) :
    (fuel len pos : Nat) → (crcw : BitVec 64) → Res (Nat × Nat × BitVec 64)
  | 0, _, _, _ => .ub
  | fuel + 1, len, pos, crcw => do
    let m ← ldLe buf addr pos
    let crcw ← sliceLe t crcw m
    cassert (8 ≤ len)
    if len - 8 ≥ 8 then loopLe t buf addr fuel (len - 8) (pos + 8) crcw else .ok (len - 8, pos + 8, crcw)

/-- `crc32_sw_le`, crc32/sc_crc32.c:306-337. -/
def swLe (t : List (List (BitVec 32))) (crc : BitVec 32) (addr : Nat) (buf : List UInt8)
    (len : Nat) : Res (BitVec 32) := do
  let t0 ← rd t 0
  let (pos, len, crc) ← swHead t0 buf addr len 0 (~~~ crc)
  if len ≥ 8 then do
    let (len, pos, crcw) ← loopLe t buf addr len len pos (crc.setWidth 64)
    let crc ← swTail t0 buf len pos (crcw.setWidth 32)
    .ok (~~~ crc)
  else do
    let crc ← swTail t0 buf len pos crc
    .ok (~~~ crc)

/-! ## Table driven, big-endian -/

/-- `swap`, crc32/sc_crc32.c:348-353. -/
def swap (x : BitVec 64) : BitVec 64 :=
  let x := ((x <<< 8) &&& 0xff00ff00ff00ff00#64) ||| ((x >>> 8) &&& 0xff00ff00ff00ff#64)
  let x := ((x <<< 16) &&& 0xffff0000ffff0000#64) ||| ((x >>> 16) &&& 0xffff0000ffff#64)
  (x <<< 32) ||| (x >>> 32)

/-- `swap(crc)` of a 32-bit value. -/
def swap32 (x : BitVec 32) : BitVec 64 := swap (x.setWidth 64)

/-- `crc32_init_sw_be`, crc32/sc_crc32.c:361-383: `crc32c_table_be_byte` and
`crc32c_table_be`. -/
def initSwBe : Res (List (BitVec 32) × List (List (BitVec 64))) := do
  let rest ← rows table0 7 table0
  .ok (table0, (table0 :: rest).map fun row => row.map swap32)

/-- `*(uint64_t const *) next` on a big-endian machine. -/
def ldBe (buf : List UInt8) (addr pos : Nat) : Res (BitVec 64) := do
  cassert ((addr + pos) % 8 = 0)
  let bs ← ld8 buf pos
  .ok (word bs.reverse)

/-- The body of the loop, crc32/sc_crc32.c:399-407. -/
def sliceBe (t : List (List (BitVec 64))) (crcw m : BitVec 64) : Res (BitVec 64) := do
  let crcw := crcw ^^^ m
  let a0 ← tab2 t 0 (byteAt crcw 0)
  let a1 ← tab2 t 1 (byteAt crcw 8)
  let a2 ← tab2 t 2 (byteAt crcw 16)
  let a3 ← tab2 t 3 (byteAt crcw 24)
  let a4 ← tab2 t 4 (byteAt crcw 32)
  let a5 ← tab2 t 5 (byteAt crcw 40)
  let a6 ← tab2 t 6 (byteAt crcw 48)
  let a7 ← tab2 t 7 (crcw >>> 56).toNat
  .ok (a0 ^^^ a1 ^^^ a2 ^^^ a3 ^^^ a4 ^^^ a5 ^^^ a6 ^^^ a7)

/-- The loop of crc32/sc_crc32.c:398-410: the rest of `len`, the position and `crcw`. `len` gets smaller in each round, `fuel`
bounds the rounds. Where `len -= 8` would wrap around the outcome is undefined here. -/
def loopBe (t : List (List (BitVec 64))) (buf : List UInt8) (addr : Nat) :
    (fuel len pos : Nat) → (crcw : BitVec 64) → Res (Nat × Nat × BitVec 64)
  | 0, _, _, _ => .ub
  | fuel + 1, len, pos, crcw => do
    let m ← ldBe buf addr pos
    let crcw ← sliceBe t crcw m
    cassert (8 ≤ len)
    if len - 8 ≥ 8 then loopBe t buf addr fuel (len - 8) (pos + 8) crcw else .ok (len - 8, pos + 8, crcw)

/-- `crc32_sw_be`, crc32/sc_crc32.c:387-418. -/
def swBe (t : List (BitVec 32) × List (List (BitVec 64))) (crc : BitVec 32) (addr : Nat)
    (buf : List UInt8) (len : Nat) : Res (BitVec 32) := do
  let t0 := t.1
  let (pos, len, crc) ← swHead t0 buf addr len 0 (~~~ crc)
  if len ≥ 8 then do
    let (len, pos, crcw) ← loopBe t.2 buf addr len len pos (swap32 crc)
    let crc ← swTail t0 buf len pos ((swap crcw).setWidth 32)
    .ok (~~~ crc)
  else do
    let crc ← swTail t0 buf len pos crc
    .ok (~~~ crc)

/-! ## With the CRC instruction -/

/-- One bit of the instruction: the register is moved by one place, and reduced if the bit
shifted out differs from the bit of the operand. -/
def hwBit (crc : BitVec 32) (bit : Bool) : BitVec 32 :=
  if (crc.getLsbD 0 ^^ bit) then (crc >>> 1) ^^^ POLY else crc >>> 1

/-- `_mm_crc32_u8`, crc32/sc_crc32.c:52-60: the instruction adds eight bits, the least
significant first. -/
def mmU8 (crc : BitVec 32) (v : UInt8) : BitVec 32 :=
  (List.range 8).foldl (fun c i => hwBit c (v.toBitVec.getLsbD i)) crc

/-- `_mm_crc32_u64`, crc32/sc_crc32.c:46-60: the instruction adds 64 bits, the least significant first. Its result has
32 bits; the variables `crc0`, `crc1`, `crc2` of `crc32_hw` are modelled with 32 bits. -/
def mmU64 (crc : BitVec 32) (v : BitVec 64) : BitVec 32 :=
  (List.range 64).foldl (fun c i => hwBit c (v.getLsbD i)) crc

/-- `gf2_matrix_times`, crc32/sc_crc32.c:66-80; `vec` has `fuel` bits. -/
def matTimes (mat : List (BitVec 32)) : (fuel i : Nat) → (vec sum : BitVec 32) → Res (BitVec 32)
  | 0, _, _, sum => .ok sum
  | fuel + 1, i, vec, sum =>
    if vec = 0#32 then .ok sum
    else if vec &&& 1#32 ≠ 0#32 then do
      let m ← tab mat i
      matTimes mat fuel (i + 1) (vec >>> 1) (sum ^^^ m)
    else matTimes mat fuel (i + 1) (vec >>> 1) sum

/-- `gf2_matrix_times(mat, vec)`. -/
def times (mat : List (BitVec 32)) (vec : BitVec 32) : Res (BitVec 32) := matTimes mat 32 0 vec 0#32

/-- `gf2_matrix_square`, crc32/sc_crc32.c:84-89: the new matrix. -/
def square (mat : List (BitVec 32)) : Res (List (BitVec 32)) :=
  (List.range 32).mapM fun n => do
    let m ← tab mat n
    times mat m

/-- The operator for one zero bit, crc32/sc_crc32.c:98-107. -/
def oneZeroBit : List (BitVec 32) :=
  POLY :: (List.range 31).map fun n => 1#32 <<< n

/-- The loop of crc32/sc_crc32.c:118-131, and the copy after it. -/
def zerosLoop : (fuel : Nat) → (odd : List (BitVec 32)) → (len : Nat) → Res (List (BitVec 32))
  | 0, _, _ => .ub
  | fuel + 1, odd, len => do
    let even ← square odd
    let len := len >>> 1
    if len = 0 then .ok even
    else do
      let odd ← square even
      let len := len >>> 1
      if len = 0 then .ok odd
      else zerosLoop fuel odd len

/-- `crc32_zeros_op`, crc32/sc_crc32.c:96-132. -/
def zerosOp (len : Nat) : Res (List (BitVec 32)) := do
  let even ← square oneZeroBit
  let odd ← square even
  zerosLoop 64 odd len

/-- `crc32_zeros`, crc32/sc_crc32.c:136-148. -/
def zeros (len : Nat) : Res (List (List (BitVec 32))) := do
  let op ← zerosOp len
  let z0 ← (List.range 256).mapM fun n => times op (BitVec.ofNat 32 n)
  let z1 ← (List.range 256).mapM fun n => times op (BitVec.ofNat 32 n <<< 8)
  let z2 ← (List.range 256).mapM fun n => times op (BitVec.ofNat 32 n <<< 16)
  let z3 ← (List.range 256).mapM fun n => times op (BitVec.ofNat 32 n <<< 24)
  .ok [z0, z1, z2, z3]

/-- `crc32_shift`, crc32/sc_crc32.c:151-155. -/
def shift (z : List (List (BitVec 32))) (crc : BitVec 32) : Res (BitVec 32) := do
  let a ← tab2 z 0 ((crc >>> 0) &&& 0xff#32).toNat
  let b ← tab2 z 1 ((crc >>> 8) &&& 0xff#32).toNat
  let c ← tab2 z 2 ((crc >>> 16) &&& 0xff#32).toNat
  let d ← tab2 z 3 ((crc >>> 24) &&& 0xff#32).toNat
  .ok (a ^^^ b ^^^ c ^^^ d)

/-- `CRC32_LONG`, `CRC32_SHORT`, crc32/sc_crc32.c:161-162. -/
def LONG : Nat := 2048

@[inherit_doc LONG] def SHORT : Nat := 256

/-- `crc32_init_hw`, crc32/sc_crc32.c:167-171: `crc32c_long` and `crc32c_short`. -/
def initHw : Res (List (List (BitVec 32)) × List (List (BitVec 32))) := do
  let l ← zeros LONG
  let s ← zeros SHORT
  .ok (l, s)

/-- The first and last loop of `crc32_hw`: `crc0 = _mm_crc32_u8(crc0, *next)`. -/
def hwHead (buf : List UInt8) (addr : Nat) :
    (len pos : Nat) → (crc : BitVec 32) → Res (Nat × Nat × BitVec 32)
  | 0, pos, crc => .ok (pos, 0, crc)
  | len + 1, pos, crc =>
    if (addr + pos) % 8 ≠ 0 then do
      let b ← rd buf pos
      hwHead buf addr len (pos + 1) (mmU8 crc b)
    else .ok (pos, len + 1, crc)

@[inherit_doc hwHead]
def hwTail (buf : List UInt8) : (len pos : Nat) → (crc : BitVec 32) → Res (BitVec 32)
  | 0, _, crc => .ok crc
  | len + 1, pos, crc => do
    let b ← rd buf pos
    hwTail buf len (pos + 1) (mmU8 crc b)

/-- `memcpy(&a, buf + pos, 8)`. -/
def ldCopy (buf : List UInt8) (pos : Nat) : Res (BitVec 64) := do
  let bs ← ld8 buf pos
  .ok (word bs)

/-- The inner loop, crc32/sc_crc32.c:200-212 and 228-240, with the block size `blk`, until `next`
reaches `last` (`end` in the code); `fuel` bounds the rounds. -/
def hw3 (buf : List UInt8) (blk last : Nat) : (fuel pos : Nat) → (crc0 crc1 crc2 : BitVec 32) →
    Res (Nat × BitVec 32 × BitVec 32 × BitVec 32)
  | 0, _, _, _, _ => .ub
  | fuel + 1, pos, crc0, crc1, crc2 => do
    let a ← ldCopy buf pos
    let b ← ldCopy buf (pos + blk)
    let c ← ldCopy buf (pos + blk * 2)
    let crc0 := mmU64 crc0 a
    let crc1 := mmU64 crc1 b
    let crc2 := mmU64 crc2 c
    let pos := pos + 8
    if pos < last then hw3 buf blk last fuel pos crc0 crc1 crc2
    else .ok (pos, crc0, crc1, crc2)

/-- The two loops over blocks, crc32/sc_crc32.c:195-219 and 223-247: the position, `len` and
`crc0` after it. `len` decreases by `3 * blk` each round; `fuel` bounds the rounds. -/
def hwBlocks (z : List (List (BitVec 32))) (blk : Nat) (buf : List UInt8) :
    (fuel pos len : Nat) → (crc0 : BitVec 32) → Res (Nat × Nat × BitVec 32)
  | 0, _, _, _ => .ub
  | fuel + 1, pos, len, crc0 =>
    if len ≥ blk * 3 then do
      let (pos, crc0, crc1, crc2) ← hw3 buf blk (pos + blk) blk pos crc0 0#32 0#32
      let s ← shift z crc0
      let crc0 := s ^^^ crc1
      let s ← shift z crc0
      let crc0 := s ^^^ crc2
      hwBlocks z blk buf fuel (pos + blk * 2) (len - blk * 3) crc0
    else .ok (pos, len, crc0)

/-- The loop over eight-byte units, crc32/sc_crc32.c:252-258, until `next` reaches `last` (`end` in
the code); `fuel` bounds the rounds. -/
def hwUnits (buf : List UInt8) (last : Nat) :
    (fuel pos : Nat) → (crc0 : BitVec 32) → Res (Nat × BitVec 32)
  | 0, _, _ => .ub
  | fuel + 1, pos, crc0 =>
    if pos < last then do
      let a ← ldCopy buf pos
      hwUnits buf last fuel (pos + 8) (mmU64 crc0 a)
    else .ok (pos, crc0)

/-- `crc32_hw`, crc32/sc_crc32.c:173-270. -/
def hw (t : List (List (BitVec 32)) × List (List (BitVec 32))) (crc : BitVec 32) (addr : Nat)
    (buf : List UInt8) (len : Nat) : Res (BitVec 32) := do
  let (pos, len, crc0) ← hwHead buf addr len 0 (crc ^^^ 0xffffffff#32)
  let (pos, len, crc0) ← hwBlocks t.1 LONG buf (len + 1) pos len crc0
  let (pos, len, crc0) ← hwBlocks t.2 SHORT buf (len + 1) pos len crc0
  let last := pos + (len - len % 8)
  let (pos, crc0) ← hwUnits buf last (len + 1) pos crc0
  let crc0 ← hwTail buf (len % 8) pos crc0
  .ok (crc0 ^^^ 0xffffffff#32)

/-! ## The library -/

/-- The three builds, crc32/sc_crc32.c:423-447. -/
inductive Build where
  | hw
  | le
  | be
  deriving Repr, DecidableEq

/-- `sc_crc32_init` followed by `sc_crc32(crc, buf, len)`, crc32/sc_crc32.c:423-447. -/
def crc32 (b : Build) (crc : BitVec 32) (addr : Nat) (buf : List UInt8) (len : Nat) :
    Res (BitVec 32) :=
  match b with
  | .hw => do
    let t ← initHw
    hw t crc addr buf len
  | .le => do
    let t ← initSwLe
    swLe t crc addr buf len
  | .be => do
    let t ← initSwBe
    swBe t crc addr buf len

end Verif.Crc
