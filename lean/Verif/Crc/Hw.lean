import Verif.Crc.Be

/-! # The implementation with the CRC instruction -/

namespace Verif.Crc

theorem hwBit_eq (c : BitVec 32) (b : Bool) :
    hwBit c b = bitStep (c ^^^ if b then 1#32 else 0#32) := by
  rw [bitStep_eq, hwBit, BitVec.getLsbD_xor, BitVec.ushiftRight_xor_distrib]
  have e1 : (if b then 1#32 else 0#32) >>> 1 = 0#32 := by cases b <;> decide
  have e2 : (if b then 1#32 else 0#32).getLsbD 0 = b := by cases b <;> decide
  rw [e1, e2]
  split <;> simp

/-- The low `n` bits of `v`. -/
def low (v : BitVec 8) : Nat → BitVec 32
  | 0 => 0#32
  | n + 1 => low v n ^^^ if v.getLsbD n then 1#32 <<< n else 0#32

theorem iter_one : ∀ n < 32, iter bitStep n (1#32 <<< n) = 1#32 := by decide +kernel

theorem low_eq (v : BitVec 8) : low v 8 = v.setWidth 32 := by
  revert v
  decide +kernel

theorem fold_low (v : BitVec 8) (c : BitVec 32) : ∀ n ≤ 8,
    (List.range n).foldl (fun c i => hwBit c (v.getLsbD i)) c = iter bitStep n (c ^^^ low v n) := by
  intro n
  induction n with
  | zero => intro _; simp [iter, low]
  | succ n ih =>
    intro hn
    rw [List.range_succ, List.foldl_append, ih (by omega), List.foldl_cons, List.foldl_nil, hwBit_eq,
      iter, low, ← BitVec.xor_assoc, bitStep_lin.iter n (c ^^^ low v n)]
    congr 2
    split
    · rw [iter_one n (by omega)]
    · rw [(bitStep_lin.iter n).zero]

theorem mmU8_eq (c : BitVec 32) (b : UInt8) : mmU8 c b = feed c b := by
  rw [mmU8, fold_low _ _ 8 (Nat.le_refl _), low_eq, feed, byteStep_eq]

theorem word_bit {bs : List UInt8} (h : bs.length = 8) {k j : Nat} (hk : k < 8) (hj : j < 8) :
    (word bs).getLsbD (8 * k + j) = bs[k].toBitVec.getLsbD j := by
  rw [← wb_bit _ _ hj, wb_word h hk, BitVec.getLsbD_setWidth]
  simp; omega

theorem range64 : List.range 64 = (List.range 8).flatMap fun k => (List.range 8).map (8 * k + ·) := by
  decide

theorem foldl_congr_mem {α β : Type} {f g : β → α → β} {l : List α} (b : β)
    (h : ∀ b, ∀ a ∈ l, f b a = g b a) : l.foldl f b = l.foldl g b := by
  induction l generalizing b with
  | nil => rfl
  | cons a l ih =>
    rw [List.foldl_cons, List.foldl_cons, h b a (by simp)]
    exact ih _ fun b a ha => h b a (by simp [ha])

theorem mmU64_eq (c : BitVec 32) {bs : List UInt8} (h : bs.length = 8) :
    mmU64 c (word bs) = run c bs := by
  have hk : ∀ (k : Nat) (hk : k < 8) (c : BitVec 32), ((List.range 8).map (8 * k + ·)).foldl
      (fun c i => hwBit c ((word bs).getLsbD i)) c = feed c bs[k] := by
    intro k hk c
    rw [List.foldl_map, ← mmU8_eq, mmU8]
    apply foldl_congr_mem
    intro c j hj
    rw [word_bit h hk (by simpa using hj)]
  rw [mmU64, range64, List.flatMap]
  have e : (List.range 8).map (fun k => (List.range 8).map (8 * k + ·)) =
      [(List.range 8).map (8 * 0 + ·), (List.range 8).map (8 * 1 + ·), (List.range 8).map (8 * 2 + ·),
       (List.range 8).map (8 * 3 + ·), (List.range 8).map (8 * 4 + ·), (List.range 8).map (8 * 5 + ·),
       (List.range 8).map (8 * 6 + ·), (List.range 8).map (8 * 7 + ·)] := rfl
  rw [e]
  simp only [List.flatten_cons, List.flatten_nil, List.append_nil, List.foldl_append]
  rw [hk 0 (by omega), hk 1 (by omega), hk 2 (by omega), hk 3 (by omega), hk 4 (by omega),
    hk 5 (by omega), hk 6 (by omega), hk 7 (by omega)]
  obtain ⟨b0, b1, b2, b3, b4, b5, b6, b7, rfl⟩ := eight h
  rfl

/-! ## Matrices -/

/-- The matrix of a linear function. -/
def Rep (mat : List (BitVec 32)) (f : BitVec 32 → BitVec 32) : Prop :=
  mat.length = 32 ∧ ∀ n < 32, mat[n]? = some (f (1#32 <<< n))

theorem split1 (v : BitVec 32) (i : Nat) :
    v <<< i = (if v.getLsbD 0 then 1#32 <<< i else 0#32) ^^^ ((v >>> 1) <<< (i + 1)) := by
  apply BitVec.eq_of_getLsbD_eq
  intro j hj
  rw [BitVec.getLsbD_xor, BitVec.getLsbD_shiftLeft, BitVec.getLsbD_shiftLeft,
    BitVec.getLsbD_ushiftRight]
  by_cases h : j < i
  · have : j < i + 1 := by omega
    split <;> simp [h, this, BitVec.getLsbD_shiftLeft]
  · by_cases h2 : j = i
    · subst h2
      split <;> simp_all
    · have h3 : ¬ j < i + 1 := by omega
      have h4 : 1 + (j - (i + 1)) = j - i := by omega
      have h5 : j - i ≠ 0 := by omega
      split <;> simp [h, h3, h4, h5, hj]

theorem matTimes_eq {mat : List (BitVec 32)} {f : BitVec 32 → BitVec 32} (hf : Lin f)
    (h : Rep mat f) {fuel : Nat} : ∀ {i : Nat} {vec sum : BitVec 32}, fuel + i = 32 →
      vec.toNat < 2 ^ fuel → matTimes mat fuel i vec sum = .ok (sum ^^^ f (vec <<< i)) := by
  induction fuel with
  | zero =>
    intro i vec sum _ hv
    have : vec = 0#32 := BitVec.eq_of_toNat_eq (by simp at hv ⊢; exact hv)
    subst this
    rw [matTimes, BitVec.zero_shiftLeft, hf.zero, BitVec.xor_zero]
  | succ fuel ih =>
    intro i vec sum hi hv
    rw [matTimes]
    split
    · next h0 => subst h0; rw [BitVec.zero_shiftLeft, hf.zero, BitVec.xor_zero]
    · have hv' : (vec >>> 1).toNat < 2 ^ fuel := by
        rw [BitVec.toNat_ushiftRight, Nat.shiftRight_eq_div_pow]
        rw [Nat.pow_succ] at hv
        omega
      simp only [and_one]
      rw [split1 vec i, hf]
      split
      · next hb =>
        rw [tab, rd_eq_ok.2 (h.2 i (by omega)), Res.ok_bind, ih (by omega) hv', BitVec.xor_assoc]
      · next hb => rw [ih (by omega) hv', hf.zero, BitVec.zero_xor]

theorem times_eq {mat : List (BitVec 32)} {f : BitVec 32 → BitVec 32} (hf : Lin f) (h : Rep mat f)
    (vec : BitVec 32) : times mat vec = .ok (f vec) := by
  rw [times, matTimes_eq hf h rfl vec.isLt, BitVec.zero_xor, BitVec.shiftLeft_zero]

theorem square_eq {mat : List (BitVec 32)} {f : BitVec 32 → BitVec 32} (hf : Lin f) (h : Rep mat f) :
    ∃ mat', square mat = .ok mat' ∧ Rep mat' fun v => f (f v) := by
  refine ⟨(List.range 32).map fun n => f (f (1#32 <<< n)), ?_, ?_, ?_⟩
  · unfold square
    apply mapM_ok
    intro n hn
    rw [tab, rd_eq_ok.2 (h.2 n (by simpa using hn)), Res.ok_bind, times_eq hf h]
  · simp
  · intro n hn
    simp [hn]

theorem oneZeroBit_rep : Rep oneZeroBit bitStep := by
  refine ⟨by decide, ?_⟩
  decide +kernel

theorem square_iter {mat : List (BitVec 32)} {m : Nat} (h : Rep mat (iter bitStep m)) :
    ∃ mat', square mat = .ok mat' ∧ Rep mat' (iter bitStep (2 * m)) := by
  obtain ⟨mat', h1, h2⟩ := square_eq (bitStep_lin.iter m) h
  refine ⟨mat', h1, h2.1, ?_⟩
  intro n hn
  rw [h2.2 n hn, Nat.two_mul, iter_add]

theorem log2_shift {n : Nat} (h : n >>> 1 ≠ 0) : n.log2 = (n >>> 1).log2 + 1 := by
  rw [Nat.shiftRight_eq_div_pow, Nat.pow_one] at h ⊢
  rw [Nat.log2_def n, if_pos (by omega)]

theorem log2_small {n : Nat} (h : n >>> 1 = 0) : n.log2 = 0 := by
  rw [Nat.shiftRight_eq_div_pow, Nat.pow_one] at h
  rw [Nat.log2_def n, if_neg (by omega)]

theorem zerosLoop_eq {fuel : Nat} : ∀ {odd : List (BitVec 32)} {m len : Nat},
    Rep odd (iter bitStep m) → len < 2 ^ (2 * fuel) → 0 < fuel →
    ∃ op, zerosLoop fuel odd len = .ok op ∧ Rep op (iter bitStep (m * 2 ^ (len.log2 + 1))) := by
  induction fuel with
  | zero => intro _ _ _ _ _ h; exact absurd h (by omega)
  | succ fuel ih =>
    intro odd m len h hl _
    obtain ⟨even, h1, h2⟩ := square_iter h
    rw [zerosLoop, h1, Res.ok_bind]
    simp only
    split
    · next h0 =>
      refine ⟨even, rfl, ?_⟩
      rw [log2_small h0, Nat.zero_add, Nat.pow_one, Nat.mul_comm]
      exact h2
    · next h0 =>
      obtain ⟨odd', h3, h4⟩ := square_iter h2
      rw [h3, Res.ok_bind, log2_shift h0]
      split
      · next h5 =>
        refine ⟨odd', rfl, ?_⟩
        rw [log2_small h5]
        rw [show m * 2 ^ (0 + 1 + 1) = 2 * (2 * m) by omega]
        exact h4
      · next h5 =>
        have hlt : len >>> 1 >>> 1 < 2 ^ (2 * fuel) := by
          rw [← Nat.shiftRight_add, Nat.shiftRight_eq_div_pow]
          rw [Nat.mul_succ, Nat.pow_add] at hl
          omega
        have hf : 0 < fuel := by
          rcases Nat.eq_zero_or_pos fuel with rfl | hf
          · simp at hlt; simp [hlt] at h5
          · exact hf
        obtain ⟨op, h6, h7⟩ := ih h4 hlt hf
        refine ⟨op, h6, ?_⟩
        rw [log2_shift h5]
        have : m * 2 ^ ((len >>> 1 >>> 1).log2 + 1 + 1 + 1) =
            2 * (2 * m) * 2 ^ ((len >>> 1 >>> 1).log2 + 1) := by
          rw [Nat.pow_succ 2 ((len >>> 1 >>> 1).log2 + 1 + 1), Nat.pow_succ 2 ((len >>> 1 >>> 1).log2 + 1)]
          generalize 2 ^ ((len >>> 1 >>> 1).log2 + 1) = p
          rw [show 2 * (2 * m) = m * 4 by omega, show p * 2 * 2 = 4 * p by omega, Nat.mul_assoc]
        rw [this]
        exact h7

/-- What the comment of `crc32_zeros_op` says: the operator for the largest power of two up to
`len`, in bytes. -/
theorem zerosOp_eq {len : Nat} (h : len < 2 ^ 64) :
    ∃ op, zerosOp len = .ok op ∧ Rep op (iter byteStep (2 ^ len.log2)) := by
  unfold zerosOp
  obtain ⟨e, h1, h2⟩ := square_iter (m := 1) oneZeroBit_rep
  obtain ⟨o, h3, h4⟩ := square_iter h2
  rw [h1, Res.ok_bind, h3, Res.ok_bind]
  obtain ⟨op, h5, h6⟩ := zerosLoop_eq (fuel := 64) h4 (len := len)
    (Nat.lt_of_lt_of_le h (Nat.pow_le_pow_right (by omega) (by omega))) (by omega)
  refine ⟨op, h5, h6.1, ?_⟩
  intro n hn
  rw [h6.2 n hn]
  have : 2 * (2 * 1) * 2 ^ (len.log2 + 1) = 8 * 2 ^ len.log2 := by rw [Nat.pow_succ]; omega
  rw [this, iter_mul]
  rfl

theorem cb_sum (c : BitVec 32) : c = BitVec.ofNat 32 (cb c 0).toNat ^^^
    BitVec.ofNat 32 (cb c 1).toNat <<< 8 ^^^ BitVec.ofNat 32 (cb c 2).toNat <<< 16 ^^^
    BitVec.ofNat 32 (cb c 3).toNat <<< 24 := by
  simp only [ofNat_toNat32]
  apply BitVec.eq_of_getLsbD_eq
  intro i hi
  have hb : ∀ k j, (cb c k).getLsbD j = (c.getLsbD (8 * k + j) && decide (j < 8)) := by
    intro k j
    rw [cb, BitVec.getLsbD_and, getLsbD_ff j (by omega), BitVec.getLsbD_ushiftRight]
  rw [BitVec.getLsbD_xor, BitVec.getLsbD_xor, BitVec.getLsbD_xor, BitVec.getLsbD_shiftLeft,
    BitVec.getLsbD_shiftLeft, BitVec.getLsbD_shiftLeft, hb, hb, hb, hb]
  have h4 : i < 8 ∨ (8 ≤ i ∧ i < 16) ∨ (16 ≤ i ∧ i < 24) ∨ 24 ≤ i := by omega
  rcases h4 with h | h | h | h
  · simp [h, show i < 16 by omega, show i < 24 by omega]
  · simp [hi, show ¬ i < 8 by omega, show i < 16 by omega, show i < 24 by omega,
      show 8 + (i - 8) = i by omega, show i - 8 < 8 by omega]
  · simp [hi, show ¬ i < 8 by omega, show ¬ i < 16 by omega, show i < 24 by omega,
      show 16 + (i - 16) = i by omega, show i - 16 < 8 by omega, show ¬ i - 8 < 8 by omega]
  · simp [hi, show ¬ i < 8 by omega, show ¬ i < 16 by omega, show ¬ i < 24 by omega,
      show 24 + (i - 24) = i by omega, show i - 24 < 8 by omega, show ¬ i - 8 < 8 by omega,
      show ¬ i - 16 < 8 by omega]

theorem zeros_eq {len : Nat} (h : len < 2 ^ 64) :
    ∃ z, zeros len = .ok z ∧ ∀ c, shift z c = .ok (iter byteStep (2 ^ len.log2) c) := by
  obtain ⟨op, h1, h2⟩ := zerosOp_eq h
  have hl := byteStep_lin.iter (2 ^ len.log2)
  generalize iter byteStep (2 ^ len.log2) = f at h2 hl ⊢
  have ht := times_eq hl h2
  refine ⟨[entries fun n => f (BitVec.ofNat 32 n), entries fun n => f (BitVec.ofNat 32 n <<< 8),
    entries fun n => f (BitVec.ofNat 32 n <<< 16), entries fun n => f (BitVec.ofNat 32 n <<< 24)],
    ?_, ?_⟩
  · unfold zeros
    rw [h1, Res.ok_bind, mapM_ok (fun n _ => ht _), Res.ok_bind, mapM_ok (fun n _ => ht _),
      Res.ok_bind, mapM_ok (fun n _ => ht _), Res.ok_bind, mapM_ok (fun n _ => ht _), Res.ok_bind]
    rfl
  · intro c
    unfold shift tab2
    have hg : ∀ (z : List (List (BitVec 32))) (k : Nat) (r : List (BitVec 32)), z[k]? = some r →
        rd z k = .ok r := fun z k r h => rd_eq_ok.2 h
    rw [hg _ 0 _ rfl, hg _ 1 _ rfl, hg _ 2 _ rfl, hg _ 3 _ rfl]
    simp only [Res.ok_bind]
    rw [tab_entries _ (and_ff_lt _), tab_entries _ (and_ff_lt _), tab_entries _ (and_ff_lt _),
      tab_entries _ (and_ff_lt _)]
    simp only [Res.ok_bind]
    conv => rhs; rw [cb_sum c, hl, hl, hl]
    rfl

/-! ## The function -/

theorem hwTail_eq {buf : List UInt8} {len : Nat} : ∀ {pos : Nat} {c : BitVec 32},
    pos + len ≤ buf.length → hwTail buf len pos c = .ok (run c (slice buf pos len)) := by
  induction len with
  | zero => intro pos c h; simp [hwTail, slice, run]
  | succ len ih =>
    intro pos c h
    rw [hwTail, rd_lt (by omega), Res.ok_bind, mmU8_eq, ih (by omega), slice_succ (by omega)]
    rfl

theorem hwHead_eq {buf : List UInt8} {addr : Nat} {len : Nat} : ∀ {pos : Nat} {c : BitVec 32},
    pos + len ≤ buf.length → ∃ n ≤ len,
      hwHead buf addr len pos c = .ok (pos + n, len - n, run c (slice buf pos n)) := by
  induction len with
  | zero => intro pos c h; exact ⟨0, Nat.le_refl _, by simp [hwHead, slice, run]⟩
  | succ len ih =>
    intro pos c h
    rw [hwHead]
    split
    · rw [rd_lt (by omega), Res.ok_bind, mmU8_eq]
      obtain ⟨n, h1, h3⟩ := ih (pos := pos + 1) (c := feed c buf[pos]) (by omega)
      refine ⟨n + 1, by omega, ?_⟩
      rw [h3, slice_succ (by omega)]
      rw [show pos + 1 + n = pos + (n + 1) by omega, show len - n = len + 1 - (n + 1) by omega]
      rfl
    · exact ⟨0, by omega, by simp [slice, run]⟩

theorem ldCopy_eq {buf : List UInt8} {pos : Nat} (h : pos + 8 ≤ buf.length) :
    ldCopy buf pos = .ok (word (slice buf pos 8)) := by
  rw [ldCopy, ld8_eq h, Res.ok_bind]

theorem hw3_eq {buf : List UInt8} {blk last n : Nat} : ∀ {fuel pos : Nat} {c0 c1 c2 : BitVec 32},
    n < fuel → last = pos + 8 * (n + 1) → 8 * (n + 1) ≤ blk → pos + blk * 2 + 8 * (n + 1) ≤ buf.length →
    hw3 buf blk last fuel pos c0 c1 c2 = .ok (last, run c0 (slice buf pos (8 * (n + 1))),
      run c1 (slice buf (pos + blk) (8 * (n + 1))), run c2 (slice buf (pos + blk * 2) (8 * (n + 1)))) := by
  have hl : ∀ p, p + 8 ≤ buf.length → (slice buf p 8).length = 8 := fun p hp => length_slice hp
  induction n with
  | zero =>
    intro fuel pos c0 c1 c2 hf hlast hb h
    obtain ⟨fuel, rfl⟩ : ∃ g, fuel = g + 1 := ⟨fuel - 1, by omega⟩
    rw [hw3, ldCopy_eq (by omega), Res.ok_bind, ldCopy_eq (by omega), Res.ok_bind,
      ldCopy_eq (by omega), Res.ok_bind, mmU64_eq _ (hl _ (by omega)), mmU64_eq _ (hl _ (by omega)),
      mmU64_eq _ (hl _ (by omega))]
    simp only
    rw [if_neg (by omega), hlast]
  | succ n ih =>
    intro fuel pos c0 c1 c2 hf hlast hb h
    obtain ⟨fuel, rfl⟩ : ∃ g, fuel = g + 1 := ⟨fuel - 1, by omega⟩
    rw [hw3, ldCopy_eq (by omega), Res.ok_bind, ldCopy_eq (by omega), Res.ok_bind,
      ldCopy_eq (by omega), Res.ok_bind, mmU64_eq _ (hl _ (by omega)), mmU64_eq _ (hl _ (by omega)),
      mmU64_eq _ (hl _ (by omega))]
    simp only
    rw [if_pos (by omega), ih (by omega) (by omega) (by omega) (by omega)]
    rw [← run_append, ← run_append, ← run_append, Nat.add_right_comm pos 8 blk,
      Nat.add_right_comm pos 8 (blk * 2), ← slice_add, ← slice_add, ← slice_add]
    rw [show 8 + 8 * (n + 1) = 8 * (n + 1 + 1) by omega]

theorem hwBlocks_eq {z : List (List (BitVec 32))} {blk : Nat} {buf : List UInt8}
    (hz : ∀ c, shift z c = .ok (iter byteStep blk c)) (h8 : 8 * (blk / 8) = blk) (h0 : 0 < blk)
    {fuel : Nat} : ∀ {pos len : Nat} {c : BitVec 32}, len < fuel → pos + len ≤ buf.length →
      ∃ n ≤ len, hwBlocks z blk buf fuel pos len c =
        .ok (pos + n, len - n, run c (slice buf pos n)) := by
  induction fuel with
  | zero => intro _ _ _ h; omega
  | succ fuel ih =>
    intro pos len c hf h
    rw [hwBlocks]
    split
    · have h8' : 8 * (blk / 8 - 1 + 1) = blk := by omega
      rw [hw3_eq (n := blk / 8 - 1) (by omega) (by omega) (by omega) (by omega), Res.ok_bind]
      simp only
      rw [hz, Res.ok_bind, hz, Res.ok_bind, h8']
      obtain ⟨n, h1, h2⟩ := ih (pos := pos + blk + blk * 2) (len := len - blk * 3)
        (c := iter byteStep blk (iter byteStep blk (run c (slice buf pos blk)) ^^^
          run 0#32 (slice buf (pos + blk) blk)) ^^^ run 0#32 (slice buf (pos + blk * 2) blk))
        (by omega) (by omega)
      refine ⟨blk * 3 + n, by omega, ?_⟩
      rw [h2]
      have hl : ∀ p, p + blk ≤ buf.length → (slice buf p blk).length = blk := fun p hp =>
        length_slice hp
      have r1 := run_eq (run c (slice buf pos blk)) (slice buf (pos + blk) blk)
      rw [hl _ (by omega)] at r1
      rw [← r1]
      have r2 := run_eq (run (run c (slice buf pos blk)) (slice buf (pos + blk) blk))
        (slice buf (pos + blk * 2) blk)
      rw [hl _ (by omega)] at r2
      rw [← r2, ← run_append, ← run_append, ← run_append]
      have e1 := slice_add buf pos blk (blk + (blk + n))
      have e2 := slice_add buf (pos + blk) blk (blk + n)
      have e3 := slice_add buf (pos + blk + blk) blk n
      rw [e3] at e2
      rw [e2] at e1
      rw [show pos + blk * 2 = pos + blk + blk by omega,
        show pos + blk + blk * 2 = pos + blk + blk + blk by omega, ← e1,
        show pos + blk + blk + blk + n = pos + (blk * 3 + n) by omega,
        show len - blk * 3 - n = len - (blk * 3 + n) by omega,
        show blk + (blk + (blk + n)) = blk * 3 + n by omega]
    · exact ⟨0, by omega, by simp [slice, run]⟩

theorem hwUnits_eq {buf : List UInt8} {last n : Nat} : ∀ {fuel pos : Nat} {c : BitVec 32},
    n < fuel → last = pos + 8 * n → pos + 8 * n ≤ buf.length →
    hwUnits buf last fuel pos c = .ok (last, run c (slice buf pos (8 * n))) := by
  induction n with
  | zero =>
    intro fuel pos c hf hlast _
    obtain ⟨fuel, rfl⟩ : ∃ g, fuel = g + 1 := ⟨fuel - 1, by omega⟩
    rw [hwUnits, if_neg (by omega), hlast]
    simp [slice, run]
  | succ n ih =>
    intro fuel pos c hf hlast h
    obtain ⟨fuel, rfl⟩ : ∃ g, fuel = g + 1 := ⟨fuel - 1, by omega⟩
    rw [hwUnits, if_pos (by omega), ldCopy_eq (by omega), Res.ok_bind, mmU64_eq _ (length_slice (by omega)),
      ih (by omega) (by omega) (by omega), ← run_append, ← slice_add]
    rw [show 8 + 8 * n = 8 * (n + 1) by omega]

theorem initHw_eq : ∃ l s, initHw = .ok (l, s) ∧ (∀ c, shift l c = .ok (iter byteStep LONG c)) ∧
    (∀ c, shift s c = .ok (iter byteStep SHORT c)) := by
  obtain ⟨l, h1, h2⟩ := zeros_eq (len := LONG) (by decide)
  obtain ⟨s, h3, h4⟩ := zeros_eq (len := SHORT) (by decide)
  have e1 : 2 ^ LONG.log2 = LONG := by decide +kernel
  have e2 : 2 ^ SHORT.log2 = SHORT := by decide +kernel
  rw [e1] at h2
  rw [e2] at h4
  exact ⟨l, s, by rw [initHw, h1, Res.ok_bind, h3, Res.ok_bind], h2, h4⟩

theorem hw_eq {buf : List UInt8} {l s : List (List (BitVec 32))}
    (hl : ∀ c, shift l c = .ok (iter byteStep LONG c))
    (hs : ∀ c, shift s c = .ok (iter byteStep SHORT c)) (c : BitVec 32) (addr : Nat) {len : Nat}
    (h : len ≤ buf.length) : hw (l, s) c addr buf len = .ok (~~~ run (~~~ c) (buf.take len)) := by
  have hx : ∀ c : BitVec 32, c ^^^ 0xffffffff#32 = ~~~ c := fun c => BitVec.xor_allOnes
  unfold hw
  rw [hx]
  obtain ⟨n1, h1, e1⟩ := hwHead_eq (buf := buf) (addr := addr) (len := len) (pos := 0)
    (c := ~~~ c) (by omega)
  rw [e1, Res.ok_bind]
  simp only [Nat.zero_add]
  obtain ⟨n2, h2, e2⟩ := hwBlocks_eq (buf := buf) hl (by decide) (by decide)
    (fuel := len - n1 + 1) (pos := n1) (len := len - n1) (c := run (~~~ c) (slice buf 0 n1))
    (by omega) (by omega)
  rw [e2, Res.ok_bind]
  simp only
  obtain ⟨n3, h3, e3⟩ := hwBlocks_eq (buf := buf) hs (by decide) (by decide)
    (fuel := len - n1 - n2 + 1) (pos := n1 + n2) (len := len - n1 - n2)
    (c := run (run (~~~ c) (slice buf 0 n1)) (slice buf n1 n2)) (by omega) (by omega)
  rw [e3, Res.ok_bind]
  simp only
  obtain ⟨r, hr⟩ : ∃ r, r = len - n1 - n2 - n3 := ⟨_, rfl⟩
  rw [← hr, hwUnits_eq (n := (r - r % 8) / 8) (by omega) (by omega) (by omega), Res.ok_bind]
  simp only
  have hm : n1 + n2 + n3 + (r - r % 8) = n1 + n2 + n3 + 8 * ((r - r % 8) / 8) := by omega
  rw [hm, hwTail_eq (by omega), Res.ok_bind, hx, ← run_append, ← run_append, ← run_append, ← run_append]
  have f1 := slice_add buf 0 n1 (n2 + (n3 + (8 * ((r - r % 8) / 8) + r % 8)))
  have f2 := slice_add buf n1 n2 (n3 + (8 * ((r - r % 8) / 8) + r % 8))
  have f3 := slice_add buf (n1 + n2) n3 (8 * ((r - r % 8) / 8) + r % 8)
  have f4 := slice_add buf (n1 + n2 + n3) (8 * ((r - r % 8) / 8)) (r % 8)
  rw [f4] at f3
  rw [f3] at f2
  rw [Nat.zero_add, f2] at f1
  rw [← f1]
  have hs : buf.take len = slice buf 0 len := by simp [slice]
  rw [hs]
  congr 4
  omega

/-- All three implementations compute the same function. -/
theorem crc32_eq (b : Build) {buf : List UInt8} (c : BitVec 32) (addr : Nat) {len : Nat}
    (h : len ≤ buf.length) : crc32 b c addr buf len = .ok (~~~ run (~~~ c) (buf.take len)) := by
  cases b with
  | hw =>
    obtain ⟨l, s, h1, h2, h3⟩ := initHw_eq
    rw [crc32, h1, Res.ok_bind, hw_eq h2 h3 c addr h]
  | le => rw [crc32, initSwLe_eq, Res.ok_bind, swLe_eq c addr h]
  | be => rw [crc32, initSwBe_eq, Res.ok_bind, swBe_eq c addr h]

end Verif.Crc
