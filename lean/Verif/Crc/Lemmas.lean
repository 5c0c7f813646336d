import Verif.Crc.Model

namespace Verif.Crc

/-- `f` repeated. -/
def iter {α : Type} (f : α → α) : Nat → α → α
  | 0, x => x
  | n + 1, x => f (iter f n x)

theorem iter_add {α : Type} (f : α → α) (m n : Nat) (x : α) :
    iter f (m + n) x = iter f m (iter f n x) := by
  induction m with
  | zero => simp [iter]
  | succ m ih => rw [Nat.succ_add, iter, iter, ih]

theorem iter_succ' {α : Type} (f : α → α) (n : Nat) (x : α) : iter f (n + 1) x = iter f n (f x) :=
  iter_add f n 1 x

theorem iter_mul {α : Type} (f : α → α) (m n : Nat) (x : α) :
    iter f (m * n) x = iter (iter f m) n x := by
  induction n with
  | zero => simp [iter]
  | succ n ih => rw [Nat.mul_succ, Nat.add_comm, iter_add, iter, ih]

/-- `f` is linear. -/
def Lin {w v : Nat} (f : BitVec w → BitVec v) : Prop := ∀ a b, f (a ^^^ b) = f a ^^^ f b

theorem Lin.zero {w v : Nat} {f : BitVec w → BitVec v} (h : Lin f) : f 0#w = 0#v := by
  have := h 0#w 0#w
  simpa using this

theorem Lin.iter {w : Nat} {f : BitVec w → BitVec w} (h : Lin f) (n : Nat) : Lin (iter f n) := by
  induction n with
  | zero => intro a b; rfl
  | succ n ih => intro a b; rw [Crc.iter, Crc.iter, Crc.iter, ih, h]

theorem and_one {w : Nat} (c : BitVec (w + 1)) : (c &&& 1#(w + 1) ≠ 0#(w + 1)) = (c.getLsbD 0 = true) := by
  rw [eq_iff_iff]
  constructor
  · intro h
    rcases h0 : c.getLsbD 0 with _ | _
    · exfalso
      apply h
      apply BitVec.eq_of_getLsbD_eq
      intro i hi
      by_cases hi0 : i = 0
      · subst hi0; rw [BitVec.getLsbD_and, h0]; simp
      · simp [BitVec.getLsbD_one, hi0]
    · rfl
  · intro h e
    have := congrArg (fun v => v.getLsbD 0) e
    simp only [BitVec.getLsbD_and, h] at this
    simp at this

theorem bitStep_eq (c : BitVec 32) :
    bitStep c = (c >>> 1) ^^^ (if c.getLsbD 0 then POLY else 0#32) := by
  unfold bitStep
  simp only [and_one]
  split <;> simp

theorem bitStep_lin : Lin bitStep := by
  intro a b
  rw [bitStep_eq, bitStep_eq, bitStep_eq, BitVec.ushiftRight_xor_distrib, BitVec.getLsbD_xor]
  rcases a.getLsbD 0 <;> rcases b.getLsbD 0 <;> simp
  · ac_rfl
  · ac_rfl
  · have : (a >>> 1 ^^^ POLY) ^^^ (b >>> 1 ^^^ POLY) = (a >>> 1 ^^^ b >>> 1) ^^^ (POLY ^^^ POLY) := by
      ac_rfl
    rw [this, BitVec.xor_self, BitVec.xor_zero]

theorem byteStep_eq (c : BitVec 32) : byteStep c = iter bitStep 8 c := rfl

theorem byteStep_lin : Lin byteStep := bitStep_lin.iter 8

theorem bitStep_even {c : BitVec 32} (h : c.getLsbD 0 = false) : bitStep c = c >>> 1 := by
  rw [bitStep_eq, h]; simp

theorem iter_bitStep_low {n : Nat} : ∀ {c : BitVec 32}, (∀ i < n, c.getLsbD i = false) →
    iter bitStep n c = c >>> n := by
  induction n with
  | zero => intro c _; simp [iter]
  | succ n ih =>
    intro c h
    rw [iter_succ', bitStep_even (h 0 (by omega)), ih, ← BitVec.shiftRight_add, Nat.add_comm]
    intro i hi
    rw [BitVec.getLsbD_ushiftRight]
    exact h _ (by omega)

theorem byteStep_low {c : BitVec 32} (h : ∀ i < 8, c.getLsbD i = false) : byteStep c = c >>> 8 := by
  rw [byteStep_eq, iter_bitStep_low h]

theorem getLsbD_ff {w : Nat} (i : Nat) (hw : 8 ≤ w) :
    (BitVec.ofNat w 0xff).getLsbD i = decide (i < 8) := by
  rw [BitVec.getLsbD_ofNat]
  have : Nat.testBit 255 i = decide (i < 8) := by
    have := Nat.testBit_two_pow_sub_one 8 i
    simpa using this
  rw [this]
  by_cases h : i < 8
  · simp [h]; omega
  · simp [h]

theorem split8 (c : BitVec 32) : c = (c &&& 0xff#32) ^^^ ((c >>> 8) <<< 8) := by
  apply BitVec.eq_of_getLsbD_eq
  intro i hi
  rw [BitVec.getLsbD_xor, BitVec.getLsbD_and, getLsbD_ff i (by omega), BitVec.getLsbD_shiftLeft,
    BitVec.getLsbD_ushiftRight]
  by_cases h : i < 8
  · simp [h]
  · have : 8 + (i - 8) = i := by omega
    simp [h, hi, this]

theorem byteStep_split (c : BitVec 32) : byteStep c = byteStep (c &&& 0xff#32) ^^^ (c >>> 8) := by
  conv => lhs; rw [split8 c, byteStep_lin]
  congr 1
  rw [byteStep_low]
  · apply BitVec.eq_of_getLsbD_eq
    intro i hi
    simp only [BitVec.getLsbD_ushiftRight, BitVec.getLsbD_shiftLeft]
    by_cases h : 8 + i < 32
    · simp [h]
    · simp [h]; rw [BitVec.getLsbD_of_ge]; omega
  · intro i hi
    simp [BitVec.getLsbD_shiftLeft, hi]

theorem b32 (b : UInt8) (i : Nat) : (b.toBitVec.setWidth 32).getLsbD i = b.toBitVec.getLsbD i := by
  rw [BitVec.getLsbD_setWidth]
  by_cases h : i < 32
  · simp [h]
  · simp [h]; rw [BitVec.getLsbD_of_ge]; omega

/-- The register after a byte. -/
def feed (c : BitVec 32) (b : UInt8) : BitVec 32 := byteStep (c ^^^ b.toBitVec.setWidth 32)

/-- The register after some bytes. -/
def run (c : BitVec 32) (bs : List UInt8) : BitVec 32 := bs.foldl feed c

theorem run_append (c : BitVec 32) (a b : List UInt8) : run c (a ++ b) = run (run c a) b := by
  simp [run]

theorem run_xor (c d : BitVec 32) (bs : List UInt8) :
    run (c ^^^ d) bs = iter byteStep bs.length c ^^^ run d bs := by
  induction bs generalizing c d with
  | nil => rfl
  | cons b bs ih =>
    show run (feed (c ^^^ d) b) bs = _ ^^^ run (feed d b) bs
    have : feed (c ^^^ d) b = byteStep c ^^^ feed d b := by
      rw [feed, feed, BitVec.xor_assoc, byteStep_lin]
    rw [this, ih, List.length_cons, iter_succ']

theorem run_eq (c : BitVec 32) (bs : List UInt8) :
    run c bs = iter byteStep bs.length c ^^^ run 0#32 bs := by
  have := run_xor c 0#32 bs
  simpa using this

/-! ## Tables -/

theorem mapM_ok {α β : Type} {f : α → Res β} {g : α → β} {l : List α}
    (h : ∀ a ∈ l, f a = .ok (g a)) : l.mapM f = .ok (l.map g) := by
  induction l with
  | nil => rfl
  | cons a l ih =>
    rw [List.mapM_cons, h a (by simp), Res.ok_bind, ih fun b hb => h b (by simp [hb])]
    rfl

theorem and_ff_lt {w : Nat} (c : BitVec w) : (c &&& BitVec.ofNat w 0xff).toNat < 256 := by
  rw [BitVec.toNat_and]
  apply Nat.lt_of_le_of_lt Nat.and_le_right
  rw [BitVec.toNat_ofNat]
  exact Nat.lt_of_le_of_lt (Nat.mod_le _ _) (by decide)

/-- A table with 256 entries. -/
def entries {α : Type} (f : Nat → α) : List α := (List.range 256).map f

theorem tab_entries {α : Type} (f : Nat → α) {n : Nat} (h : n < 256) :
    rd (entries f) n = .ok (f n) := by
  rw [rd_eq_ok]; simp [entries, h]

theorem ofNat_toNat32 (c : BitVec 32) : BitVec.ofNat 32 c.toNat = c := by simp

theorem tab_table0 (c : BitVec 32) : tab table0 (c &&& 0xff#32).toNat = .ok (byteStep (c &&& 0xff#32)) := by
  have := tab_entries (fun n => byteStep (BitVec.ofNat 32 n)) (and_ff_lt c)
  simp only [ofNat_toNat32] at this
  exact this

theorem nextRow_eq (f : Nat → BitVec 32) :
    nextRow table0 (entries f) = .ok (entries fun n => byteStep (f n)) := by
  unfold nextRow
  rw [mapM_ok (g := byteStep)]
  · simp [entries]
  · intro c _
    rw [tab_table0, Res.ok_bind, ← byteStep_split]

theorem rows_eq (n k : Nat) :
    rows table0 n (entries fun i => iter byteStep k (BitVec.ofNat 32 i)) =
      .ok ((List.range n).map fun j => entries fun i => iter byteStep (k + j + 1) (BitVec.ofNat 32 i)) := by
  induction n generalizing k with
  | zero => rfl
  | succ n ih =>
    have h := ih (k + 1)
    rw [rows, nextRow_eq, Res.ok_bind]
    rw [show (entries fun n => byteStep (iter byteStep k (BitVec.ofNat 32 n))) =
      entries fun i => iter byteStep (k + 1) (BitVec.ofNat 32 i) from rfl, h, Res.ok_bind,
      List.range_succ_eq_map, List.map_cons, List.map_map]
    congr 2
    apply List.map_congr_left
    intro j _
    have : k + 1 + j = k + (j + 1) := by omega
    simp only [Function.comp, this, Nat.succ_eq_add_one]

/-- The tables. -/
def tables : List (List (BitVec 32)) :=
  (List.range 8).map fun k => entries fun n => iter byteStep (k + 1) (BitVec.ofNat 32 n)

theorem table0_eq : table0 = entries fun n => iter byteStep 1 (BitVec.ofNat 32 n) := rfl

theorem rows7 : rows table0 7 table0 = .ok ((List.range 7).map fun j =>
    entries fun i => iter byteStep (1 + j + 1) (BitVec.ofNat 32 i)) := by
  have h := rows_eq 7 1
  rw [← table0_eq] at h
  exact h

theorem initSwLe_eq : initSwLe = .ok tables := by
  unfold initSwLe
  rw [rows7, Res.ok_bind]
  rfl

theorem initSwBe_eq : initSwBe = .ok (table0, tables.map fun row => row.map swap32) := by
  have h := initSwLe_eq
  unfold initSwLe at h
  unfold initSwBe
  rw [rows7, Res.ok_bind] at h ⊢
  injection h with h
  rw [h]

theorem tables_get {k : Nat} (hk : k < 8) {i : Nat} (hi : i < 256) :
    tab2 tables k i = .ok (iter byteStep (k + 1) (BitVec.ofNat 32 i)) := by
  have h1 : rd tables k = .ok (entries fun n => iter byteStep (k + 1) (BitVec.ofNat 32 n)) := by
    rw [rd_eq_ok]; simp [tables, hk]
  rw [tab2, h1, Res.ok_bind]
  exact tab_entries (fun n => iter byteStep (k + 1) (BitVec.ofNat 32 n)) hi

theorem swByte_eq (c : BitVec 32) (b : UInt8) : swByte table0 c b = .ok (feed c b) := by
  unfold swByte
  rw [tab_table0, Res.ok_bind, feed, byteStep_split (c ^^^ _)]
  congr 2
  apply BitVec.eq_of_getLsbD_eq
  intro i hi
  rw [BitVec.getLsbD_ushiftRight, BitVec.getLsbD_ushiftRight, BitVec.getLsbD_xor, b32]
  rw [BitVec.getLsbD_of_ge b.toBitVec (8 + i) (by omega), Bool.xor_false]

/-! ## Bytes -/

theorem slice_succ {buf : List UInt8} {pos n : Nat} (h : pos < buf.length) :
    slice buf pos (n + 1) = buf[pos] :: slice buf (pos + 1) n := by
  unfold slice
  rw [List.drop_eq_getElem_cons h, List.take_succ_cons]

theorem slice_add (buf : List UInt8) (pos m n : Nat) :
    slice buf pos (m + n) = slice buf pos m ++ slice buf (pos + m) n := by
  unfold slice
  rw [List.take_add, List.drop_drop]

theorem swTail_eq {buf : List UInt8} {len : Nat} : ∀ {pos : Nat} {c : BitVec 32},
    pos + len ≤ buf.length → swTail table0 buf len pos c = .ok (run c (slice buf pos len)) := by
  induction len with
  | zero => intro pos c h; simp [swTail, slice, run]
  | succ len ih =>
    intro pos c h
    rw [swTail, rd_lt (by omega), Res.ok_bind, swByte_eq, Res.ok_bind, ih (by omega),
      slice_succ (by omega)]
    rfl

theorem swHead_eq {buf : List UInt8} {addr : Nat} {len : Nat} : ∀ {pos : Nat} {c : BitVec 32},
    pos + len ≤ buf.length → ∃ n ≤ len, (n < len → (addr + pos + n) % 8 = 0) ∧
      swHead table0 buf addr len pos c = .ok (pos + n, len - n, run c (slice buf pos n)) := by
  induction len with
  | zero => intro pos c h; exact ⟨0, Nat.le_refl _, by omega, by simp [swHead, slice, run]⟩
  | succ len ih =>
    intro pos c h
    rw [swHead]
    split
    · rw [rd_lt (by omega), Res.ok_bind, swByte_eq, Res.ok_bind]
      obtain ⟨n, h1, h2, h3⟩ := ih (pos := pos + 1) (c := feed c buf[pos]) (by omega)
      refine ⟨n + 1, by omega, fun h => ?_, ?_⟩
      · have := h2 (by omega)
        omega
      · rw [h3, slice_succ (by omega)]
        rw [show pos + 1 + n = pos + (n + 1) by omega, show len - n = len + 1 - (n + 1) by omega]
        rfl
    · next hm =>
      exact ⟨0, by omega, fun _ => by omega, by simp [slice, run]⟩

theorem ld8_eq {buf : List UInt8} {pos : Nat} (h : pos + 8 ≤ buf.length) :
    ld8 buf pos = .ok (slice buf pos 8) := by
  unfold ld8
  rw [rd_lt (by omega), rd_lt (by omega), rd_lt (by omega), rd_lt (by omega), rd_lt (by omega),
    rd_lt (by omega), rd_lt (by omega), rd_lt (by omega)]
  simp only [Res.ok_bind]
  rw [slice_succ (by omega), slice_succ (by omega), slice_succ (by omega), slice_succ (by omega),
    slice_succ (by omega), slice_succ (by omega), slice_succ (by omega), slice_succ (by omega)]
  simp [slice]

/-- Eight bytes, one by one. -/
theorem eight {bs : List UInt8} (h : bs.length = 8) :
    ∃ b0 b1 b2 b3 b4 b5 b6 b7, bs = [b0, b1, b2, b3, b4, b5, b6, b7] := by
  match bs, h with
  | [b0, b1, b2, b3, b4, b5, b6, b7], _ => exact ⟨b0, b1, b2, b3, b4, b5, b6, b7, rfl⟩

theorem at64_bit (b : UInt8) (k i : Nat) (hk : k < 8) :
    (at64 b k).getLsbD i = (decide (8 * k ≤ i) && b.toBitVec.getLsbD (i - 8 * k)) := by
  unfold at64
  rw [BitVec.getLsbD_shiftLeft, BitVec.getLsbD_setWidth]
  by_cases h : 8 * k ≤ i
  · by_cases h' : i < 64
    · simp [h, h', Nat.not_lt.2 h]
      intro _; omega
    · simp [h, h']
      rw [BitVec.getLsbD_of_ge]; omega
  · simp [h]

/-- Byte `k` of a value made of bytes. -/
theorem at64_byte (b : UInt8) {j k : Nat} (hj : j < 8) (hk : k < 8) :
    (at64 b j >>> (8 * k)) &&& 0xff#64 = if j = k then b.toBitVec.setWidth 64 else 0#64 := by
  apply BitVec.eq_of_getLsbD_eq
  intro i hi
  rw [BitVec.getLsbD_and, getLsbD_ff i (by omega), BitVec.getLsbD_ushiftRight, at64_bit _ _ _ hj]
  split
  · next e =>
    subst e
    rw [BitVec.getLsbD_setWidth]
    by_cases h : i < 8
    · simp [h, hi]
    · simp [h]; intro _; exact BitVec.getLsbD_of_ge _ _ (by omega)
  · next e =>
    by_cases h : i < 8
    · simp only [h, decide_true, Bool.and_true, BitVec.getLsbD_zero]
      by_cases h2 : 8 * j ≤ 8 * k + i
      · rw [BitVec.getLsbD_of_ge b.toBitVec _ (by omega)]; simp
      · simp [h2]
    · simp [h]

theorem c64_byte (c : BitVec 32) (k : Nat) :
    ((c.setWidth 64 >>> (8 * k)) &&& 0xff#64) = ((c >>> (8 * k)) &&& 0xff#32).setWidth 64 := by
  apply BitVec.eq_of_getLsbD_eq
  intro i hi
  rw [BitVec.getLsbD_and, getLsbD_ff i (by omega), BitVec.getLsbD_ushiftRight,
    BitVec.getLsbD_setWidth, BitVec.getLsbD_setWidth, BitVec.getLsbD_and, getLsbD_ff i (by omega),
    BitVec.getLsbD_ushiftRight]
  by_cases h : i < 8
  · by_cases h' : 8 * k + i < 64
    · simp [h, hi, h']
    · simp [h, h']; intro _; rw [BitVec.getLsbD_of_ge]; omega
  · simp [h]

/-- Byte `k` of the register. -/
def cb (c : BitVec 32) (k : Nat) : BitVec 32 := (c >>> (8 * k)) &&& 0xff#32

theorem cb_high (c : BitVec 32) {k : Nat} (h : 4 ≤ k) : cb c k = 0#32 := by
  unfold cb
  apply BitVec.eq_of_getLsbD_eq
  intro i hi
  rw [BitVec.getLsbD_and, BitVec.getLsbD_ushiftRight, BitVec.getLsbD_of_ge c _ (by omega)]
  simp

theorem ofNat64 (x : BitVec 32) : BitVec.ofNat 32 (x.setWidth 64).toNat = x := by
  rw [BitVec.toNat_setWidth_of_le (by omega)]
  simp

theorem b8_ff (b : UInt8) : (b.toBitVec.setWidth 32) &&& 0xff#32 = b.toBitVec.setWidth 32 := by
  apply BitVec.eq_of_getLsbD_eq
  intro i hi
  rw [BitVec.getLsbD_and, getLsbD_ff i (by omega), b32]
  by_cases h : i < 8
  · simp [h]
  · simp [h]; exact BitVec.getLsbD_of_ge _ _ (by omega)

theorem shift56 (x : BitVec 64) : (x >>> 56).toNat = byteAt x (8 * 7) := by
  unfold byteAt
  congr 1
  apply BitVec.eq_of_getLsbD_eq
  intro i hi
  rw [BitVec.getLsbD_and, getLsbD_ff i (by omega), BitVec.getLsbD_ushiftRight]
  by_cases h : i < 8
  · simp [h]
  · simp [h]; exact BitVec.getLsbD_of_ge _ _ (by omega)

/-- Byte `k` of a 64-bit value. -/
def wb (x : BitVec 64) (k : Nat) : BitVec 64 := (x >>> (8 * k)) &&& 0xff#64

theorem wb_xor (x y : BitVec 64) (k : Nat) : wb (x ^^^ y) k = wb x k ^^^ wb y k := by
  unfold wb
  apply BitVec.eq_of_getLsbD_eq
  intro i hi
  simp only [BitVec.getLsbD_and, BitVec.getLsbD_xor, BitVec.getLsbD_ushiftRight]
  cases x.getLsbD (8 * k + i) <;> cases y.getLsbD (8 * k + i) <;> simp

theorem wb_at64 (b : UInt8) {j k : Nat} (hj : j < 8) (hk : k < 8) :
    wb (at64 b j) k = if j = k then b.toBitVec.setWidth 64 else 0#64 := at64_byte b hj hk

theorem wb_word {bs : List UInt8} (h : bs.length = 8) {k : Nat} (hk : k < 8) :
    wb (word bs) k = bs[k].toBitVec.setWidth 64 := by
  obtain ⟨b0, b1, b2, b3, b4, b5, b6, b7, rfl⟩ := eight h
  have h8 : k = 0 ∨ k = 1 ∨ k = 2 ∨ k = 3 ∨ k = 4 ∨ k = 5 ∨ k = 6 ∨ k = 7 := by omega
  rcases h8 with rfl | rfl | rfl | rfl | rfl | rfl | rfl | rfl <;>
    simp [word, wb_xor, wb_at64]

/-- The index into table `7 - k`, for the `k`-th byte. -/
theorem byteAt_eq (c : BitVec 32) {bs : List UInt8} (h : bs.length = 8) {k : Nat} (hk : k < 8) :
    byteAt (c.setWidth 64 ^^^ word bs) (8 * k) =
      ((cb c k ^^^ bs[k].toBitVec.setWidth 32).setWidth 64).toNat := by
  have e : wb (c.setWidth 64 ^^^ word bs) k =
      (cb c k ^^^ bs[k].toBitVec.setWidth 32).setWidth 64 := by
    rw [wb_xor, wb_word h hk, BitVec.setWidth_xor]
    have e8 : ∀ b : BitVec 8, (b.setWidth 32).setWidth 64 = b.setWidth 64 := by
      intro b
      apply BitVec.eq_of_getLsbD_eq
      intro i hi
      simp only [BitVec.getLsbD_setWidth]
      by_cases h : i < 32
      · simp [h]
      · rw [BitVec.getLsbD_of_ge b _ (by omega)]; simp
    rw [e8, show wb (c.setWidth 64) k = (cb c k).setWidth 64 from c64_byte c k]
  rw [← e]
  rfl

theorem tables_at {c : BitVec 32} {bs : List UInt8} (h : bs.length = 8) {j k : Nat} (hk : k < 8)
    (hj : j + k = 7) : tab2 tables j (byteAt (c.setWidth 64 ^^^ word bs) (8 * k)) =
      .ok (iter byteStep (j + 1) (cb c k) ^^^ iter byteStep (j + 1) (bs[k].toBitVec.setWidth 32)) := by
  rw [tables_get (by omega) (show byteAt _ _ < 256 from and_ff_lt _), byteAt_eq c h hk, ofNat64, byteStep_lin.iter]

theorem iter_S4 (c : BitVec 32) : iter byteStep 4 c =
    iter byteStep 4 (cb c 0) ^^^ iter byteStep 3 (cb c 1) ^^^ iter byteStep 2 (cb c 2) ^^^
      iter byteStep 1 (cb c 3) := by
  have s1 : ∀ k, byteStep (c >>> (8 * k)) = byteStep (cb c k) ^^^ (c >>> (8 * (k + 1))) := by
    intro k
    rw [byteStep_split, ← BitVec.shiftRight_add]
    rfl
  have h0 := s1 0
  have h1 := s1 1
  have h2 := s1 2
  have h3 := s1 3
  simp only [Nat.mul_zero, BitVec.ushiftRight_zero, Nat.reduceMul, Nat.reduceAdd] at h0 h1 h2 h3
  have h4 : c >>> 32 = 0#32 := by
    apply BitVec.eq_of_getLsbD_eq
    intro i hi
    rw [BitVec.getLsbD_ushiftRight, BitVec.getLsbD_of_ge c _ (by omega)]
    simp
  simp only [iter]
  rw [h0, byteStep_lin, h1, byteStep_lin, byteStep_lin, byteStep_lin, h2, byteStep_lin,
    byteStep_lin, h3, h4]
  simp only [BitVec.xor_zero, BitVec.xor_assoc]

theorem sliceLe_eq (c : BitVec 32) {bs : List UInt8} (h : bs.length = 8) :
    sliceLe tables (c.setWidth 64) (word bs) = .ok ((run c bs).setWidth 64) := by
  unfold sliceLe
  simp only
  rw [shift56]
  have t0 := tables_at (c := c) h (j := 7) (k := 0) (by omega) (by omega)
  have t1 := tables_at (c := c) h (j := 6) (k := 1) (by omega) (by omega)
  have t2 := tables_at (c := c) h (j := 5) (k := 2) (by omega) (by omega)
  have t3 := tables_at (c := c) h (j := 4) (k := 3) (by omega) (by omega)
  have t4 := tables_at (c := c) h (j := 3) (k := 4) (by omega) (by omega)
  have t5 := tables_at (c := c) h (j := 2) (k := 5) (by omega) (by omega)
  have t6 := tables_at (c := c) h (j := 1) (k := 6) (by omega) (by omega)
  have t7 := tables_at (c := c) h (j := 0) (k := 7) (by omega) (by omega)
  simp only [Nat.reduceMul] at t0 t1 t2 t3 t4 t5 t6 t7
  rw [t0, t1, t2, t3, t4, t5, t6, t7]
  simp only [Res.ok_bind]
  congr 2
  have z : ∀ n, iter byteStep n 0#32 = 0#32 := fun n => (byteStep_lin.iter n).zero
  rw [cb_high c (k := 4) (by omega), cb_high c (k := 5) (by omega), cb_high c (k := 6) (by omega),
    cb_high c (k := 7) (by omega), z, z, z, z]
  have s4 : iter byteStep 8 c = iter byteStep 8 (cb c 0) ^^^ iter byteStep 7 (cb c 1) ^^^
      iter byteStep 6 (cb c 2) ^^^ iter byteStep 5 (cb c 3) := by
    have : iter byteStep 8 c = iter byteStep 4 (iter byteStep 4 c) := iter_add _ 4 4 c
    rw [this, iter_S4 c, byteStep_lin.iter, byteStep_lin.iter, byteStep_lin.iter, ← iter_add,
      ← iter_add, ← iter_add, ← iter_add]
  have hrun := run_eq c bs
  rw [h, s4] at hrun
  rw [hrun]
  obtain ⟨b0, b1, b2, b3, b4, b5, b6, b7, rfl⟩ := eight h
  have hr : run 0#32 [b0, b1, b2, b3, b4, b5, b6, b7] =
      iter byteStep 8 (b0.toBitVec.setWidth 32) ^^^ iter byteStep 7 (b1.toBitVec.setWidth 32) ^^^
      iter byteStep 6 (b2.toBitVec.setWidth 32) ^^^ iter byteStep 5 (b3.toBitVec.setWidth 32) ^^^
      iter byteStep 4 (b4.toBitVec.setWidth 32) ^^^ iter byteStep 3 (b5.toBitVec.setWidth 32) ^^^
      iter byteStep 2 (b6.toBitVec.setWidth 32) ^^^ iter byteStep 1 (b7.toBitVec.setWidth 32) := by
    simp only [run, List.foldl_cons, List.foldl_nil, feed, iter, BitVec.zero_xor]
    simp only [byteStep_lin _ _]
  rw [hr]
  simp only [List.getElem_cons_zero, List.getElem_cons_succ, Nat.reduceAdd, BitVec.zero_xor]
  ac_rfl

theorem loopLe_eq {buf : List UInt8} {addr fuel : Nat} : ∀ {len pos : Nat} {c : BitVec 32},
    (addr + pos) % 8 = 0 → 8 ≤ len → pos + len ≤ buf.length → len ≤ fuel →
    loopLe tables buf addr fuel len pos (c.setWidth 64) =
      .ok (len % 8, pos + 8 * (len / 8), (run c (slice buf pos (8 * (len / 8)))).setWidth 64) := by
  induction fuel with
  | zero => intro len pos c _ _ _ _; omega
  | succ n ih =>
    intro len pos c ha h8 h hf
    rw [loopLe, ldLe, cassert, if_pos (by simpa using ha), ld8_eq (by omega)]
    simp only [Res.ok_bind]
    rw [sliceLe_eq c (by rw [length_slice (by omega)]), Res.ok_bind, cassert, if_pos (by simpa using h8), Res.ok_bind]
    split
    · rw [ih (by omega) (by omega) (by omega) (by omega), ← run_append, ← slice_add,
        show pos + 8 + 8 * ((len - 8) / 8) = pos + 8 * (len / 8) by omega, show 8 + 8 * ((len - 8) / 8) = 8 * (len / 8) by omega,
        show (len - 8) % 8 = len % 8 by omega]
    · rw [show 8 * (len / 8) = 8 by omega, show len % 8 = len - 8 by omega]

theorem swLe_eq {buf : List UInt8} (c : BitVec 32) (addr : Nat) {len : Nat} (h : len ≤ buf.length) :
    swLe tables c addr buf len = .ok (~~~ run (~~~ c) (buf.take len)) := by
  unfold swLe
  have ht0 : rd tables 0 = .ok table0 := rfl
  rw [ht0, Res.ok_bind]
  obtain ⟨n, h1, h2, h3⟩ := swHead_eq (buf := buf) (addr := addr) (len := len) (pos := 0)
    (c := ~~~ c) (by omega)
  rw [h3, Res.ok_bind]
  simp only [Nat.zero_add]
  have hs : buf.take len = slice buf 0 len := by simp [slice]
  rw [hs]
  split
  · next h8 =>
    rw [loopLe_eq (by omega) h8 (by omega) (by omega), Res.ok_bind]
    simp only
    rw [BitVec.setWidth_setWidth_of_le _ (by omega), BitVec.setWidth_eq, swTail_eq (by omega),
      Res.ok_bind]
    congr 2
    rw [← run_append, ← run_append]
    congr 1
    have e := slice_add buf n (8 * ((len - n) / 8)) ((len - n) % 8)
    have e2 := slice_add buf 0 n (8 * ((len - n) / 8) + (len - n) % 8)
    rw [Nat.zero_add, e] at e2
    rw [← e2]
    congr 1
    omega
  · rw [swTail_eq (by omega), Res.ok_bind]
    congr 2
    have e2 := slice_add buf 0 n (len - n)
    rw [Nat.zero_add] at e2
    rw [← run_append, ← e2]
    congr 2
    omega

end Verif.Crc
