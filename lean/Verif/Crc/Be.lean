import Verif.Crc.Lemmas

/-! # The big-endian implementation -/

namespace Verif.Crc

theorem mask8 : ∀ i < 64, (0xff00ff00ff00ff00#64).getLsbD i = decide (8 ≤ i % 16) := by
  decide +kernel

theorem mask8' : ∀ i < 64, (0xff00ff00ff00ff#64).getLsbD i = decide (i % 16 < 8) := by
  decide +kernel

theorem mask16 : ∀ i < 64, (0xffff0000ffff0000#64).getLsbD i = decide (16 ≤ i % 32) := by
  decide +kernel

theorem mask16' : ∀ i < 64, (0xffff0000ffff#64).getLsbD i = decide (i % 32 < 16) := by
  decide +kernel

/-- The bytes in reverse order. -/
theorem swap_bit (x : BitVec 64) {i : Nat} (hi : i < 64) :
    (swap x).getLsbD i = x.getLsbD (8 * (7 - i / 8) + i % 8) := by
  have h1 : ∀ (x : BitVec 64) (i : Nat), i < 64 →
      (((x <<< 8) &&& 0xff00ff00ff00ff00#64) ||| ((x >>> 8) &&& 0xff00ff00ff00ff#64)).getLsbD i =
        x.getLsbD (if i % 16 < 8 then i + 8 else i - 8) := by
    intro x i hi
    rw [BitVec.getLsbD_or, BitVec.getLsbD_and, BitVec.getLsbD_and, mask8 i hi, mask8' i hi,
      BitVec.getLsbD_shiftLeft, BitVec.getLsbD_ushiftRight]
    by_cases h : i % 16 < 8
    · have : ¬ 8 ≤ i % 16 := by omega
      simp [h, this, Nat.add_comm]
    · have h' : 8 ≤ i % 16 := by omega
      have h2 : ¬ i < 8 := by omega
      simp [h, h', h2, hi]
  have h2 : ∀ (x : BitVec 64) (i : Nat), i < 64 →
      (((x <<< 16) &&& 0xffff0000ffff0000#64) ||| ((x >>> 16) &&& 0xffff0000ffff#64)).getLsbD i =
        x.getLsbD (if i % 32 < 16 then i + 16 else i - 16) := by
    intro x i hi
    rw [BitVec.getLsbD_or, BitVec.getLsbD_and, BitVec.getLsbD_and, mask16 i hi, mask16' i hi,
      BitVec.getLsbD_shiftLeft, BitVec.getLsbD_ushiftRight]
    by_cases h : i % 32 < 16
    · have : ¬ 16 ≤ i % 32 := by omega
      simp [h, this, Nat.add_comm]
    · have h' : 16 ≤ i % 32 := by omega
      have h2 : ¬ i < 16 := by omega
      simp [h, h', h2, hi]
  have h3 : ∀ (x : BitVec 64) (i : Nat), i < 64 →
      ((x <<< 32) ||| (x >>> 32)).getLsbD i = x.getLsbD (if i < 32 then i + 32 else i - 32) := by
    intro x i hi
    rw [BitVec.getLsbD_or, BitVec.getLsbD_shiftLeft, BitVec.getLsbD_ushiftRight]
    by_cases h : i < 32
    · simp [h, Nat.add_comm]
    · rw [BitVec.getLsbD_of_ge x (32 + i) (by omega)]
      simp [h, hi]
  unfold swap
  simp only
  rw [h3 _ i hi, h2 _ _ (by split <;> omega), h1 _ _ (by (repeat' split) <;> omega)]
  congr 1
  repeat' split
  all_goals omega

theorem swap_xor (x y : BitVec 64) : swap (x ^^^ y) = swap x ^^^ swap y := by
  apply BitVec.eq_of_getLsbD_eq
  intro i hi
  rw [BitVec.getLsbD_xor, swap_bit _ hi, swap_bit _ hi, swap_bit _ hi, BitVec.getLsbD_xor]

theorem swap_swap (x : BitVec 64) : swap (swap x) = x := by
  apply BitVec.eq_of_getLsbD_eq
  intro i hi
  rw [swap_bit _ hi, swap_bit _ (by omega)]
  congr 1
  omega

theorem swap32_xor (x y : BitVec 32) : swap32 (x ^^^ y) = swap32 x ^^^ swap32 y := by
  rw [swap32, swap32, swap32, BitVec.setWidth_xor, swap_xor]

theorem wb_bit (x : BitVec 64) (k : Nat) {j : Nat} (hj : j < 8) :
    (wb x k).getLsbD j = x.getLsbD (8 * k + j) := by
  unfold wb
  rw [BitVec.getLsbD_and, getLsbD_ff j (by omega), BitVec.getLsbD_ushiftRight]
  simp [hj]

theorem wb_high (x : BitVec 64) (k : Nat) {j : Nat} (hj : ¬ j < 8) : (wb x k).getLsbD j = false := by
  unfold wb
  rw [BitVec.getLsbD_and, getLsbD_ff j (by omega)]
  simp [hj]

theorem wb_swap (x : BitVec 64) {k : Nat} (hk : k < 8) : wb (swap x) k = wb x (7 - k) := by
  apply BitVec.eq_of_getLsbD_eq
  intro j _
  by_cases h : j < 8
  · rw [wb_bit _ _ h, wb_bit _ _ h, swap_bit _ (by omega)]
    congr 1
    omega
  · rw [wb_high _ _ h, wb_high _ _ h]

/-- A value is its bytes. -/
theorem eq_of_wb {x y : BitVec 64} (h : ∀ k < 8, wb x k = wb y k) : x = y := by
  apply BitVec.eq_of_getLsbD_eq
  intro i hi
  have := congrArg (fun v => v.getLsbD (i % 8)) (h (i / 8) (by omega))
  simp only [wb_bit _ _ (Nat.mod_lt i (by omega : 8 > 0))] at this
  rwa [Nat.div_add_mod] at this

theorem word_reverse {bs : List UInt8} (h : bs.length = 8) : word bs.reverse = swap (word bs) := by
  apply eq_of_wb
  intro k hk
  rw [wb_swap _ hk, wb_word (by simpa using h) hk, wb_word h (by omega)]
  congr 2
  rw [List.getElem_reverse]
  congr 1
  omega

theorem byteAt_swap (x : BitVec 64) {k : Nat} (hk : k < 8) :
    byteAt (swap x) (8 * k) = byteAt x (8 * (7 - k)) := congrArg BitVec.toNat (wb_swap x hk)

theorem byteAt_lt (x : BitVec 64) (s : Nat) : byteAt x s < 256 := and_ff_lt _

/-- An entry of the tables. -/
def ent (k i : Nat) : BitVec 32 := iter byteStep (k + 1) (BitVec.ofNat 32 i)

theorem tablesBe_get {k : Nat} (hk : k < 8) {i : Nat} (hi : i < 256) :
    tab2 (tables.map fun row => row.map swap32) k i = .ok (swap32 (ent k i)) := by
  have h1 : rd (tables.map fun row => row.map swap32) k =
      .ok (entries fun n => swap32 (iter byteStep (k + 1) (BitVec.ofNat 32 n))) := by
    rw [rd_eq_ok]; simp [tables, hk, entries, Function.comp_def]
  rw [tab2, h1, Res.ok_bind]
  exact tab_entries (fun n => swap32 (iter byteStep (k + 1) (BitVec.ofNat 32 n))) hi

theorem swap_sum (a0 a1 a2 a3 a4 a5 a6 a7 : BitVec 32) :
    swap32 a0 ^^^ swap32 a1 ^^^ swap32 a2 ^^^ swap32 a3 ^^^ swap32 a4 ^^^ swap32 a5 ^^^ swap32 a6 ^^^
      swap32 a7 = swap32 (a7 ^^^ a6 ^^^ a5 ^^^ a4 ^^^ a3 ^^^ a2 ^^^ a1 ^^^ a0) := by
  simp only [swap32_xor]
  generalize swap32 a0 = a0, swap32 a1 = a1, swap32 a2 = a2, swap32 a3 = a3, swap32 a4 = a4,
    swap32 a5 = a5, swap32 a6 = a6, swap32 a7 = a7
  ac_rfl

theorem tables_ent {k : Nat} (hk : k < 8) {i : Nat} (hi : i < 256) :
    tab2 tables k i = .ok (ent k i) := tables_get hk hi

theorem sliceBe_eq (c : BitVec 32) {bs : List UInt8} (h : bs.length = 8) :
    sliceBe (tables.map fun row => row.map swap32) (swap32 c) (swap (word bs)) =
      .ok (swap32 (run c bs)) := by
  have hle := sliceLe_eq c h
  unfold sliceLe at hle
  unfold sliceBe
  simp only at hle ⊢
  rw [swap32, ← swap_xor]
  generalize c.setWidth 64 ^^^ word bs = x at hle ⊢
  rw [shift56] at hle ⊢
  have b := byteAt_lt x
  have e0 := byteAt_swap x (k := 0) (by omega)
  have e1 := byteAt_swap x (k := 1) (by omega)
  have e2 := byteAt_swap x (k := 2) (by omega)
  have e3 := byteAt_swap x (k := 3) (by omega)
  have e4 := byteAt_swap x (k := 4) (by omega)
  have e5 := byteAt_swap x (k := 5) (by omega)
  have e6 := byteAt_swap x (k := 6) (by omega)
  have e7 := byteAt_swap x (k := 7) (by omega)
  simp only [Nat.reduceMul, Nat.reduceSub] at e0 e1 e2 e3 e4 e5 e6 e7 hle ⊢
  rw [e0, e1, e2, e3, e4, e5, e6, e7]
  rw [tables_ent (by omega) (b _), tables_ent (by omega) (b _), tables_ent (by omega) (b _),
    tables_ent (by omega) (b _), tables_ent (by omega) (b _), tables_ent (by omega) (b _),
    tables_ent (by omega) (b _), tables_ent (by omega) (b _)] at hle
  rw [tablesBe_get (by omega) (b _), tablesBe_get (by omega) (b _), tablesBe_get (by omega) (b _),
    tablesBe_get (by omega) (b _), tablesBe_get (by omega) (b _), tablesBe_get (by omega) (b _),
    tablesBe_get (by omega) (b _), tablesBe_get (by omega) (b _)]
  simp only [Res.ok_bind] at hle ⊢
  generalize run c bs = r at hle ⊢
  generalize ent 0 _ = a0, ent 1 _ = a1, ent 2 _ = a2, ent 3 _ = a3, ent 4 _ = a4, ent 5 _ = a5,
    ent 6 _ = a6, ent 7 _ = a7 at hle ⊢
  rw [swap_sum]
  have hle := congrArg (BitVec.setWidth 32) (Res.ok.inj hle)
  rw [BitVec.setWidth_setWidth_of_le _ (by omega), BitVec.setWidth_setWidth_of_le _ (by omega),
    BitVec.setWidth_eq, BitVec.setWidth_eq] at hle
  rw [hle]

theorem loopBe_eq {buf : List UInt8} {addr fuel : Nat} : ∀ {len pos : Nat} {c : BitVec 32},
    (addr + pos) % 8 = 0 → 8 ≤ len → pos + len ≤ buf.length → len ≤ fuel →
    loopBe (tables.map fun row => row.map swap32) buf addr fuel len pos (swap32 c) =
      .ok (len % 8, pos + 8 * (len / 8), swap32 (run c (slice buf pos (8 * (len / 8))))) := by
  induction fuel with
  | zero => intro len pos c _ _ _ _; omega
  | succ n ih =>
    intro len pos c ha h8 h hf
    rw [loopBe, ldBe, cassert, if_pos (by simpa using ha), ld8_eq (by omega)]
    simp only [Res.ok_bind]
    have hl : (slice buf pos 8).length = 8 := by rw [length_slice (by omega)]
    rw [word_reverse hl, sliceBe_eq c hl, Res.ok_bind, cassert, if_pos (by simpa using h8), Res.ok_bind]
    split
    · rw [ih (by omega) (by omega) (by omega) (by omega), ← run_append, ← slice_add,
        show pos + 8 + 8 * ((len - 8) / 8) = pos + 8 * (len / 8) by omega, show 8 + 8 * ((len - 8) / 8) = 8 * (len / 8) by omega,
        show (len - 8) % 8 = len % 8 by omega]
    · rw [show 8 * (len / 8) = 8 by omega, show len % 8 = len - 8 by omega]

theorem swBe_eq {buf : List UInt8} (c : BitVec 32) (addr : Nat) {len : Nat} (h : len ≤ buf.length) :
    swBe (table0, tables.map fun row => row.map swap32) c addr buf len =
      .ok (~~~ run (~~~ c) (buf.take len)) := by
  unfold swBe
  simp only
  obtain ⟨n, h1, h2, h3⟩ := swHead_eq (buf := buf) (addr := addr) (len := len) (pos := 0)
    (c := ~~~ c) (by omega)
  rw [h3, Res.ok_bind]
  simp only [Nat.zero_add]
  have hs : buf.take len = slice buf 0 len := by simp [slice]
  rw [hs]
  split
  · next h8 =>
    rw [loopBe_eq (by omega) h8 (by omega) (by omega), Res.ok_bind]
    simp only
    rw [swap32, swap_swap, BitVec.setWidth_setWidth_of_le _ (by omega), BitVec.setWidth_eq,
      swTail_eq (by omega), Res.ok_bind]
    congr 2
    rw [← run_append, ← run_append]
    congr 1
    have e := slice_add buf n (8 * ((len - n) / 8)) ((len - n) % 8)
    have e2 := slice_add buf 0 n (8 * ((len - n) / 8) + (len - n) % 8)
    rw [Nat.zero_add, e] at e2
    rw [← e2]
    congr 1
    omega
  · rw [swTail_eq (by omega), Res.ok_bind]
    congr 2
    have e2 := slice_add buf 0 n (len - n)
    rw [Nat.zero_add] at e2
    rw [← run_append, ← e2]
    congr 2
    omega

end Verif.Crc
