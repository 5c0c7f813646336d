import Verif.Crc.Field
import Verif.Crc.Logs
import Mathlib.Algebra.Polynomial.Roots
import Mathlib.Algebra.Polynomial.FieldDivision

/-!
# Messages with their CRC

A message is sent with its CRC after it; bits of either may be flipped on the way.
-/

namespace Verif.Crc

open Polynomial

/-! ## The generator and its factor -/

theorem np_odd {b : Nat} (h : b < 2 ^ 63) : np (2 * b + 1) = 1 + X * np b := by
  rw [np_shr (b := 2 * b + 1) (by omega), show (2 * b + 1) >>> 1 = b by rw [Nat.shiftRight_eq_div_pow]; omega]
  simp [coef]

theorem np_even {b : Nat} (h : b < 2 ^ 63) : np (2 * b) = X * np b := by
  rw [np_shr (b := 2 * b) (by omega), show (2 * b) >>> 1 = b by rw [Nat.shiftRight_eq_div_pow]; omega]
  simp [coef]

theorem Q_eq : Q = X ^ 31 + X ^ 30 + X ^ 29 + X ^ 28 + X ^ 26 + X ^ 24 + X ^ 23 + X ^ 21 + X ^ 20 + X ^ 18 + X ^ 13 + X ^ 10 + X ^ 8 + X ^ 5 + X ^ 4 + X ^ 3 + X ^ 2 + X + 1 := by
  have h0 : np 4122223935 = 1 + X * np 2061111967 := np_odd (b := 2061111967) (by decide)
  have h1 : np 2061111967 = 1 + X * np 1030555983 := np_odd (b := 1030555983) (by decide)
  have h2 : np 1030555983 = 1 + X * np 515277991 := np_odd (b := 515277991) (by decide)
  have h3 : np 515277991 = 1 + X * np 257638995 := np_odd (b := 257638995) (by decide)
  have h4 : np 257638995 = 1 + X * np 128819497 := np_odd (b := 128819497) (by decide)
  have h5 : np 128819497 = 1 + X * np 64409748 := np_odd (b := 64409748) (by decide)
  have h6 : np 64409748 = X * np 32204874 := np_even (b := 32204874) (by decide)
  have h7 : np 32204874 = X * np 16102437 := np_even (b := 16102437) (by decide)
  have h8 : np 16102437 = 1 + X * np 8051218 := np_odd (b := 8051218) (by decide)
  have h9 : np 8051218 = X * np 4025609 := np_even (b := 4025609) (by decide)
  have h10 : np 4025609 = 1 + X * np 2012804 := np_odd (b := 2012804) (by decide)
  have h11 : np 2012804 = X * np 1006402 := np_even (b := 1006402) (by decide)
  have h12 : np 1006402 = X * np 503201 := np_even (b := 503201) (by decide)
  have h13 : np 503201 = 1 + X * np 251600 := np_odd (b := 251600) (by decide)
  have h14 : np 251600 = X * np 125800 := np_even (b := 125800) (by decide)
  have h15 : np 125800 = X * np 62900 := np_even (b := 62900) (by decide)
  have h16 : np 62900 = X * np 31450 := np_even (b := 31450) (by decide)
  have h17 : np 31450 = X * np 15725 := np_even (b := 15725) (by decide)
  have h18 : np 15725 = 1 + X * np 7862 := np_odd (b := 7862) (by decide)
  have h19 : np 7862 = X * np 3931 := np_even (b := 3931) (by decide)
  have h20 : np 3931 = 1 + X * np 1965 := np_odd (b := 1965) (by decide)
  have h21 : np 1965 = 1 + X * np 982 := np_odd (b := 982) (by decide)
  have h22 : np 982 = X * np 491 := np_even (b := 491) (by decide)
  have h23 : np 491 = 1 + X * np 245 := np_odd (b := 245) (by decide)
  have h24 : np 245 = 1 + X * np 122 := np_odd (b := 122) (by decide)
  have h25 : np 122 = X * np 61 := np_even (b := 61) (by decide)
  have h26 : np 61 = 1 + X * np 30 := np_odd (b := 30) (by decide)
  have h27 : np 30 = X * np 15 := np_even (b := 15) (by decide)
  have h28 : np 15 = 1 + X * np 7 := np_odd (b := 7) (by decide)
  have h29 : np 7 = 1 + X * np 3 := np_odd (b := 3) (by decide)
  have h30 : np 3 = 1 + X * np 1 := np_odd (b := 1) (by decide)
  have h31 : np 1 = 1 + X * np 0 := np_odd (b := 0) (by decide)
  show np 4122223935 = _
  rw [h0, h1, h2, h3, h4, h5, h6, h7, h8, h9, h10, h11, h12, h13, h14, h15, h16, h17, h18, h19, h20, h21, h22, h23, h24, h25, h26, h27, h28, h29, h30, h31, np_zero]
  ring

/-- The generator is `X + 1` times the factor. -/
theorem G_eq : G = (X + 1) * Q := by
  rw [Q_eq, G]
  linear_combination (-(X ^ 31 + X ^ 30 + X ^ 29 + X ^ 24 + X ^ 21 + X ^ 5 + X ^ 4 + X ^ 3 + X ^ 2 + X ^ 1)) * two_eq

theorem Q_coprime : IsCoprime (X + 1 : (ZMod 2)[X]) Q := by
  have e : (X + 1 : (ZMod 2)[X]) = X - C 1 := by
    rw [map_one]
    linear_combination two_eq
  rw [e, (irreducible_X_sub_C (1 : ZMod 2)).coprime_iff_not_dvd, dvd_iff_isRoot, IsRoot, Q_eq]
  simp
  decide

theorem Q_two {i j : Nat} (h : i ≠ j) (h1 : i < j + (2 ^ 31 - 1)) (h2 : j < i + (2 ^ 31 - 1)) :
    ¬ Q ∣ (X ^ i + X ^ j : (ZMod 2)[X]) := by
  intro hd
  have hx : (X + 1 : (ZMod 2)[X]) ∣ X ^ i + X ^ j := by
    have e : (X + 1 : (ZMod 2)[X]) = X - C 1 := by
      rw [map_one]
      linear_combination two_eq
    rw [e, dvd_iff_isRoot, IsRoot]
    simp
    decide
  have hG : G ∣ (X ^ i + X ^ j : (ZMod 2)[X]) := by
    rw [G_eq]
    exact Q_coprime.mul_dvd hx hd
  rcases Nat.lt_or_gt_of_ne h with h | h
  · exact not_dvd_two h (by omega) hG
  · rw [add_comm] at hG
    exact not_dvd_two h (by omega) hG

/-! ## The certificate -/

theorem maskOf_spec : ∀ (l : List (Nat × Nat)) (m a : Nat), (maskOf l m).testBit a = true →
    m.testBit a = true ∨ ∃ z, (z, a) ∈ l
  | [], m, a, h => Or.inl h
  | (z, x) :: l, m, a, h => by
    rcases maskOf_spec l _ a h with h | ⟨z', h⟩
    · have h : (m ||| 1 <<< x).testBit a = true := h
      rw [Nat.testBit_or, Bool.or_eq_true] at h
      rcases h with h | h
      · exact Or.inl h
      · right
        rw [Nat.one_shiftLeft, Nat.testBit_two_pow] at h
        simp only [decide_eq_true_eq] at h
        exact ⟨z, by rw [h]; exact List.mem_cons_self⟩
    · exact Or.inr ⟨z', List.mem_cons_of_mem _ h⟩

theorem logs_all {a : Nat} (h0 : 0 < a) (h : a < 5275) : ∃ z, (z, a) ∈ logs := by
  have hm := Nat.eq_of_beq_eq_true logs_mask
  have ht : (maskOf logs 0).testBit a = true := by
    rw [hm, show 2 ^ 5275 - 2 = 2 * (2 ^ 5274 - 1) by rw [Nat.pow_succ 2 5274]; omega]
    obtain ⟨a, rfl⟩ : ∃ b, a = b + 1 := ⟨a - 1, by omega⟩
    rw [Nat.testBit_succ, Nat.mul_div_cancel_left _ (by decide), Nat.testBit_two_pow_sub_one]
    simpa using (by omega : a < 5274)
  rcases maskOf_spec _ _ _ ht with h | h
  · simp at h
  · exact h

theorem sortedOk_ge {N : Nat} : ∀ {lo : Nat} {l : List (Nat × Nat)}, sortedOk N lo l = true → ∀ e ∈ l, lo ≤ e.1
  | lo, (z, a) :: l, h, e, he => by
    simp only [sortedOk, Bool.and_eq_true] at h
    have h1 := Nat.le_of_ble_eq_true h.1.1
    rcases List.mem_cons.1 he with rfl | he
    · exact h1
    · have := sortedOk_ge h.2 e he
      omega

theorem nearOk_spec {N z a : Nat} : ∀ {lo : Nat} {l : List (Nat × Nat)}, nearOk N z a l = true → sortedOk N lo l = true →
    ∀ e ∈ l, e.1 < z + N → e.1 - z ≤ e.2 ∨ N ≤ e.1 - z + a
  | lo, (z', a') :: l, h, hs, e, he, hlt => by
    simp only [nearOk, Bool.or_eq_true, Bool.and_eq_true] at h
    have hs' := hs
    simp only [sortedOk, Bool.and_eq_true] at hs
    rcases h with h | ⟨h, h2⟩
    · have h := Nat.le_of_ble_eq_true h
      rcases List.mem_cons.1 he with rfl | he
      · simp only at hlt; omega
      · have := sortedOk_ge hs.2 e he
        omega
    · rcases List.mem_cons.1 he with rfl | he
      · rcases h with h | h
        · exact Or.inl (Nat.le_of_ble_eq_true h)
        · exact Or.inr (Nat.le_of_ble_eq_true h)
      · exact nearOk_spec h2 hs.2 e he hlt

theorem sortedOk_spec {N : Nat} : ∀ {lo : Nat} {l : List (Nat × Nat)}, sortedOk N lo l = true →
    ∀ e1 ∈ l, ∀ e2 ∈ l, e1.1 < e2.1 → e2.1 < e1.1 + N → e2.1 - e1.1 ≤ e2.2 ∨ N ≤ e2.1 - e1.1 + e1.2
  | lo, (z, a) :: l, h, e1, h1, e2, h2, hlt, hn => by
    have h' := h
    simp only [sortedOk, Bool.and_eq_true] at h
    rcases List.mem_cons.1 h1 with rfl | h1
    · rcases List.mem_cons.1 h2 with rfl | h2
      · omega
      · exact nearOk_spec h.1.2 h.2 e2 h2 hn
    · rcases List.mem_cons.1 h2 with rfl | h2
      · have := sortedOk_ge h.2 e1 h1
        simp only at hlt
        omega
      · exact sortedOk_spec h.2 e1 h1 e2 h2 hlt hn

/-- Four bits within 5275. -/
theorem Q_four {a b c : Nat} (h0 : 0 < a) (h1 : a < b) (h2 : b < c) (h3 : c < 5275) :
    ¬ Q ∣ (1 + X ^ a + X ^ b + X ^ c : (ZMod 2)[X]) := by
  intro hd
  obtain ⟨z2, m2⟩ := logs_all h0 (by omega)
  obtain ⟨z1, m1⟩ := logs_all (a := c - b) (by omega) (by omega)
  obtain ⟨q2, e2⟩ := log_spec (logs_lt _ m2).1 (logs_lt _ m2).2 (logs_ok _ m2)
  obtain ⟨q1, e1⟩ := log_spec (logs_lt _ m1).1 (logs_lt _ m1).2 (logs_ok _ m1)
  obtain ⟨q, e⟩ := hd
  have hc : (X ^ c : (ZMod 2)[X]) = X ^ b * X ^ (c - b) := by rw [← pow_add]; congr 1; omega
  have hq : Q ∣ (X ^ z2 + X ^ (z1 + b) : (ZMod 2)[X]) := by
    refine ⟨q - q2 - X ^ b * q1, ?_⟩
    rw [pow_add]
    linear_combination e - e2 - X ^ b * e1 - hc
  have hz1 := logs_max _ m1
  have hz2 := logs_max _ m2
  have hz3 := sortedOk_ge logs_sorted _ m2
  simp only at hz1 hz2 hz3
  refine Q_two ?_ (by omega) (by omega) hq
  intro heq
  have := sortedOk_spec logs_sorted _ m1 _ m2 (by simp only; omega) (by simp only; omega)
  simp only at this
  omega

/-! ## Flipped bits as polynomials -/

theorem poly_three : ∀ {l m : List Bool}, l.length = m.length → hamming l m = 3 →
    ∃ i j k, i < j ∧ j < k ∧ k < l.length ∧ poly (List.zipWith (· ^^ ·) l m) = X ^ i + X ^ j + X ^ k := by
  intro l
  induction l with
  | nil => intro m _ h; simp [hamming] at h
  | cons x l ih =>
    intro m h h0
    cases m with
    | nil => simp at h
    | cons y m =>
      simp only [List.length_cons, Nat.add_right_cancel_iff] at h
      rw [hamming] at h0
      rw [List.zipWith_cons_cons, poly]
      by_cases hab : x = y
      · subst hab
        obtain ⟨i, j, k, h1, h2, hj, e⟩ := ih h (by simpa using h0)
        refine ⟨i, j, k, h1, h2, by simp; omega, ?_⟩
        rw [e]; simp [coef]
      · rw [if_neg hab] at h0
        obtain ⟨i, j, h1, hj, e⟩ := poly_two h (by omega)
        refine ⟨i, j, l.length, h1, hj, by simp, ?_⟩
        rw [e, add_comm]
        cases x <;> cases y <;> simp [coef, h] at hab ⊢

theorem poly_four : ∀ {l m : List Bool}, l.length = m.length → hamming l m = 4 →
    ∃ i j k n, i < j ∧ j < k ∧ k < n ∧ n < l.length ∧ poly (List.zipWith (· ^^ ·) l m) = X ^ i + X ^ j + X ^ k + X ^ n := by
  intro l
  induction l with
  | nil => intro m _ h; simp [hamming] at h
  | cons x l ih =>
    intro m h h0
    cases m with
    | nil => simp at h
    | cons y m =>
      simp only [List.length_cons, Nat.add_right_cancel_iff] at h
      rw [hamming] at h0
      rw [List.zipWith_cons_cons, poly]
      by_cases hab : x = y
      · subst hab
        obtain ⟨i, j, k, n, h1, h2, h3, hj, e⟩ := ih h (by simpa using h0)
        refine ⟨i, j, k, n, h1, h2, h3, by simp; omega, ?_⟩
        rw [e]; simp [coef]
      · rw [if_neg hab] at h0
        obtain ⟨i, j, k, h1, h2, hj, e⟩ := poly_three h (by omega)
        refine ⟨i, j, k, l.length, h1, h2, hj, by simp, ?_⟩
        rw [e, add_comm]
        cases x <;> cases y <;> simp [coef, h] at hab ⊢

theorem not_dvd_four {i j k n : Nat} (h1 : i < j) (h2 : j < k) (h3 : k < n) (h4 : n < i + 5275) :
    ¬ G ∣ (X ^ i + X ^ j + X ^ k + X ^ n : (ZMod 2)[X]) := by
  intro hd
  have e : ∀ a, i ≤ a → (X ^ a : (ZMod 2)[X]) = X ^ (a - i) * X ^ i := by
    intro a ha
    rw [← pow_add, Nat.sub_add_cancel ha]
  have e' : (X ^ i + X ^ j + X ^ k + X ^ n : (ZMod 2)[X]) =
      (1 + X ^ (j - i) + X ^ (k - i) + X ^ (n - i)) * X ^ i := by
    rw [e j (by omega), e k (by omega), e n (by omega)]
    ring
  rw [e'] at hd
  have hd := (G_coprime_X.pow_right (n := i)).dvd_of_dvd_mul_right hd
  rw [G_eq] at hd
  exact Q_four (by omega) (by omega) (by omega) (by omega) (dvd_trans (dvd_mul_left Q (X + 1)) hd)

/-! ## C133: messages with their CRC -/

theorem length_sent (d : List UInt8) (r : BitVec 32) : (sent d r).length = 8 * d.length + 32 := by
  rw [sent, List.length_append, length_bits, length_bitsOf]

theorem word_dvd {b b' : Build} {c : BitVec 32} {addr addr' : Nat} {d1 d2 : List UInt8} {r1 r2 : BitVec 32}
    (hl : d1.length = d2.length) (h1 : crc32 b c addr d1 d1.length = .ok r1)
    (h2 : crc32 b' c addr' d2 d2.length = .ok r2) :
    G ∣ poly (List.zipWith (· ^^ ·) (sent d1 r1) (sent d2 r2)) := by
  rw [crc32_eq _ _ _ (Nat.le_refl _), List.take_length] at h1 h2
  have h1 := Res.ok.inj h1
  have h2 := Res.ok.inj h2
  obtain ⟨q1, e1⟩ := val_foldl (bits d1) (~~~ c)
  obtain ⟨q2, e2⟩ := val_foldl (bits d2) (~~~ c)
  rw [bits_foldl, length_bits] at e1 e2
  have hn : ∀ x : BitVec 32, val (~~~ x) = val (~~~ 0#32) + val x := by
    intro x
    rw [← val_xor]
    congr 1
  rw [poly_xor (by rw [length_sent, length_sent, hl]), sent, sent, poly_append, poly_append, length_bitsOf, length_bitsOf]
  show G ∣ poly (bits d1) * X ^ 32 + val r1 + (poly (bits d2) * X ^ 32 + val r2)
  rw [← h1, ← h2, hn, hn (run _ d2)]
  rw [hl] at e1
  refine ⟨q1 - q2 + 0, ?_⟩
  linear_combination e1 - e2 + (val (run (~~~ c) d2) + val (~~~ 0#32) + poly (bits d1) * X ^ 32) * two_eq

/-- **C133.** A message of at most 655 bytes is sent with its CRC. If one to five bits of the
whole are flipped on the way, wherever they are, the CRC of what arrives is not the one that
arrives with it. -/
theorem crc_word_five (b b' : Build) (c : BitVec 32) (addr addr' : Nat) {d1 d2 : List UInt8}
    {r1 r2 : BitVec 32} (hl : d1.length = d2.length) (hlen : d1.length ≤ 655)
    (hr : crc32 b c addr d1 d1.length = .ok r1)
    (h1 : 1 ≤ hamming (sent d1 r1) (sent d2 r2)) (h5 : hamming (sent d1 r1) (sent d2 r2) ≤ 5) :
    crc32 b' c addr' d2 d2.length ≠ .ok r2 := by
  intro h
  have hw : (sent d1 r1).length = (sent d2 r2).length := by rw [length_sent, length_sent, hl]
  have hd := word_dvd hl hr h
  by_cases ho : hamming (sent d1 r1) (sent d2 r2) % 2 = 1
  · obtain ⟨q, hq⟩ := hd
    have := congrArg (eval 1) hq
    rw [eval_poly hw, eval_mul, G_eval, zero_mul, ZMod.natCast_eq_zero_iff] at this
    omega
  · by_cases h2 : hamming (sent d1 r1) (sent d2 r2) = 2
    · obtain ⟨i, j, hij, hj, e⟩ := poly_two hw h2
      rw [e] at hd
      rw [length_sent] at hj
      exact not_dvd_two hij (by omega) hd
    · obtain ⟨i, j, k, n, hij, hjk, hkn, hn, e⟩ := poly_four hw (by omega)
      rw [e] at hd
      rw [length_sent] at hn
      exact not_dvd_four hij hjk hkn (by omega) hd

/-- An odd number of flipped bits is noticed whatever the length, -/
theorem crc_word_odd (b b' : Build) (c : BitVec 32) (addr addr' : Nat) {d1 d2 : List UInt8}
    {r1 r2 : BitVec 32} (hl : d1.length = d2.length) (hr : crc32 b c addr d1 d1.length = .ok r1)
    (ho : hamming (sent d1 r1) (sent d2 r2) % 2 = 1) : crc32 b' c addr' d2 d2.length ≠ .ok r2 := by
  intro h
  have hw : (sent d1 r1).length = (sent d2 r2).length := by rw [length_sent, length_sent, hl]
  obtain ⟨q, hq⟩ := word_dvd hl hr h
  have := congrArg (eval 1) hq
  rw [eval_poly hw, eval_mul, G_eval, zero_mul, ZMod.natCast_eq_zero_iff] at this
  omega

/-- one to three up to 2^28 - 5 bytes, -/
theorem crc_word_three (b b' : Build) (c : BitVec 32) (addr addr' : Nat) {d1 d2 : List UInt8}
    {r1 r2 : BitVec 32} (hl : d1.length = d2.length) (hlen : d1.length < 2 ^ 28 - 4)
    (hr : crc32 b c addr d1 d1.length = .ok r1)
    (h1 : 1 ≤ hamming (sent d1 r1) (sent d2 r2)) (h3 : hamming (sent d1 r1) (sent d2 r2) ≤ 3) :
    crc32 b' c addr' d2 d2.length ≠ .ok r2 := by
  by_cases ho : hamming (sent d1 r1) (sent d2 r2) % 2 = 1
  · exact crc_word_odd b b' c addr addr' hl hr ho
  · intro h
    have hw : (sent d1 r1).length = (sent d2 r2).length := by rw [length_sent, length_sent, hl]
    have hd := word_dvd hl hr h
    obtain ⟨i, j, hij, hj, e⟩ := poly_two hw (by omega)
    rw [e] at hd
    rw [length_sent] at hj
    exact not_dvd_two hij (by omega) hd

/-- and a burst of up to 32 bits anywhere, be it across the border of message and CRC. -/
theorem crc_word_burst (b b' : Build) (c : BitVec 32) (addr addr' : Nat) {d1 d2 : List UInt8}
    {r1 r2 : BitVec 32} {u w1 w2 v : List Bool} (h1 : sent d1 r1 = u ++ w1 ++ v) (h2 : sent d2 r2 = u ++ w2 ++ v)
    (hl : w1.length = w2.length) (h32 : w1.length ≤ 32) (hne : w1 ≠ w2)
    (hr : crc32 b c addr d1 d1.length = .ok r1) : crc32 b' c addr' d2 d2.length ≠ .ok r2 := by
  intro h
  have hlen : d1.length = d2.length := by
    have e1 := congrArg List.length h1
    have e2 := congrArg List.length h2
    simp only [length_sent, List.length_append] at e1 e2
    omega
  have hd := word_dvd hlen hr h
  rw [poly_xor (by rw [length_sent, length_sent, hlen]), h1, h2, poly_append, poly_append,
    poly_append, poly_append, hl] at hd
  have e : (poly u * X ^ w2.length + poly w1) * X ^ v.length + poly v +
      ((poly u * X ^ w2.length + poly w2) * X ^ v.length + poly v) =
      (poly w1 + poly w2) * X ^ v.length := by
    linear_combination (poly u * X ^ w2.length * X ^ v.length + poly v) * two_eq
  rw [e] at hd
  have hd := (G_coprime_X.pow_right (n := v.length)).dvd_of_dvd_mul_right hd
  have hz : poly w1 + poly w2 = 0 := by
    by_contra hn
    refine G_monic.not_dvd_of_degree_lt hn ?_ hd
    have h4 := poly_deg (List.zipWith (· ^^ ·) w1 w2)
    rw [List.length_zipWith, ← hl, Nat.min_self, poly_xor hl] at h4
    have h5 : ((w1.length : ℕ) : WithBot ℕ) ≤ 32 := by exact_mod_cast h32
    rw [G_degree]
    exact lt_of_lt_of_le h4 h5
  apply hne
  apply poly_inj hl
  linear_combination hz - poly w2 * two_eq

/-- Two messages of the same length, up to 659 bytes, that differ in one to five bits have
different CRCs. -/
theorem crc_five_bits (b b' : Build) (c : BitVec 32) (addr addr' : Nat) {d1 d2 : List UInt8}
    (hl : d1.length = d2.length) (hlen : d1.length ≤ 659)
    (h1 : 1 ≤ hamming (bits d1) (bits d2)) (h5 : hamming (bits d1) (bits d2) ≤ 5) :
    crc32 b c addr d1 d1.length ≠ crc32 b' c addr' d2 d2.length := by
  by_cases ho : hamming (bits d1) (bits d2) % 2 = 1
  · exact crc_odd b b' c addr addr' hl ho
  by_cases h3 : hamming (bits d1) (bits d2) ≤ 3
  · exact crc_three_bits b b' c addr addr' hl (by omega) h1 h3
  intro h
  have hd := crc_eq_dvd hl h
  obtain ⟨i, j, k, n, hij, hjk, hkn, hn, e⟩ := poly_four (l := bits d1) (m := bits d2)
    (by rw [length_bits, length_bits, hl]) (by omega)
  rw [e] at hd
  rw [length_bits] at hn
  exact not_dvd_four hij hjk hkn (by omega) hd

/-! ## The bound on the length cannot be raised -/

/-- Four bits: one at the end of the CRC, three in the message. -/
def fourBits : List UInt8 :=
  ([0x10] ++ List.replicate 45 0) ++
  (List.replicate 50 0) ++
  ([0x8] ++ List.replicate 49 0) ++
  (List.replicate 50 0) ++
  (List.replicate 50 0) ++
  (List.replicate 50 0) ++
  (List.replicate 20 0) ++
  ([0x1] ++ List.replicate 39 0) ++
  (List.replicate 50 0) ++
  (List.replicate 50 0) ++
  (List.replicate 50 0) ++
  (List.replicate 50 0) ++
  (List.replicate 50 0) ++
  (List.replicate 50 0)

theorem fourBits_run : run 0#32 fourBits = 0x80000000#32 := by
  have h0 : run 0x0#32 ([0x10] ++ List.replicate 45 0) = 0x16b7c524#32 := by decide +kernel
  have h1 : run 0x16b7c524#32 (List.replicate 50 0) = 0x71269a3c#32 := by decide +kernel
  have h2 : run 0x71269a3c#32 ([0x8] ++ List.replicate 49 0) = 0x2a3c7671#32 := by decide +kernel
  have h3 : run 0x2a3c7671#32 (List.replicate 50 0) = 0x802b05b9#32 := by decide +kernel
  have h4 : run 0x802b05b9#32 (List.replicate 50 0) = 0x58976dc4#32 := by decide +kernel
  have h5 : run 0x58976dc4#32 (List.replicate 50 0) = 0x9ae3617e#32 := by decide +kernel
  have h6 : run 0x9ae3617e#32 (List.replicate 20 0) = 0x28c51f57#32 := by decide +kernel
  have h7 : run 0x28c51f57#32 ([0x1] ++ List.replicate 39 0) = 0xa4910913#32 := by decide +kernel
  have h8 : run 0xa4910913#32 (List.replicate 50 0) = 0xc26d38b4#32 := by decide +kernel
  have h9 : run 0xc26d38b4#32 (List.replicate 50 0) = 0x4726c6ca#32 := by decide +kernel
  have h10 : run 0x4726c6ca#32 (List.replicate 50 0) = 0x2ab537c5#32 := by decide +kernel
  have h11 : run 0x2ab537c5#32 (List.replicate 50 0) = 0x5083804#32 := by decide +kernel
  have h12 : run 0x5083804#32 (List.replicate 50 0) = 0xffdd9448#32 := by decide +kernel
  have h13 : run 0xffdd9448#32 (List.replicate 50 0) = 0x80000000#32 := by decide +kernel
  rw [run_append] at h0 h2 h7
  simp only [fourBits, run_append]
  rw [show (0#32 : BitVec 32) = 0x0#32 from rfl, h0, h1, h2, h3, h4, h5, h6, h7, h8, h9, h10, h11, h12, h13]

theorem run_zeros (n : Nat) : run 0#32 (List.replicate n 0) = 0#32 := by
  induction n with
  | zero => rfl
  | succ n ih =>
    rw [List.replicate_succ, run, List.foldl_cons, show feed 0#32 0 = 0#32 by decide +kernel]
    exact ih

theorem feed_xor (c c' : BitVec 32) (x y : UInt8) : feed (c ^^^ c') (x ^^^ y) = feed c x ^^^ feed c' y := by
  rw [feed, feed, feed, ← byteStep_lin]
  congr 1
  rw [UInt8.toBitVec_xor, BitVec.setWidth_xor, BitVec.xor_assoc, BitVec.xor_assoc, ← BitVec.xor_assoc c',
    BitVec.xor_comm c', BitVec.xor_assoc]

theorem run_zip : ∀ (d e : List UInt8) (c c' : BitVec 32), d.length = e.length →
    run (c ^^^ c') (List.zipWith (· ^^^ ·) d e) = run c d ^^^ run c' e
  | [], [], c, c', _ => rfl
  | [], _ :: _, _, _, h => by cases h
  | _ :: _, [], _, _, h => by cases h
  | x :: d, y :: e, c, c', h => by
    rw [List.zipWith_cons_cons]
    show run (feed (c ^^^ c') (x ^^^ y)) _ = run (feed c x) d ^^^ run (feed c' y) e
    rw [feed_xor, run_zip d e _ _ (Nat.succ.inj h)]

theorem bits_zip : ∀ (d e : List UInt8),
    bits (List.zipWith (· ^^^ ·) d e) = List.zipWith (· ^^ ·) (bits d) (bits e)
  | [], e => by simp [bits]
  | x :: d, [] => by simp [bits]
  | x :: d, y :: e => by
    have ih := bits_zip d e
    unfold bits at ih ⊢
    rw [List.zipWith_cons_cons, List.flatMap_cons, List.flatMap_cons, List.flatMap_cons, ih, UInt8.toBitVec_xor,
      bitsOf_xor, List.zipWith_append (by rw [length_bitsOf, length_bitsOf])]

theorem hamming_xor : ∀ (l m : List Bool), l.length = m.length →
    hamming l (List.zipWith (· ^^ ·) l m) = m.count true
  | [], [], _ => rfl
  | [], _ :: _, h => by cases h
  | _ :: _, [], h => by cases h
  | x :: l, y :: m, h => by
    rw [List.zipWith_cons_cons, hamming, hamming_xor l m (Nat.succ.inj h)]
    cases x <;> cases y <;> simp [Nat.add_comm]

/-- The bound on the length is the best one: whatever the message, if it has more than 655
bytes, there are four bits of message and CRC that can be flipped without anyone noticing. -/
theorem crc_word_limit (b b' : Build) (c : BitVec 32) (addr addr' : Nat) {d1 : List UInt8} {r1 : BitVec 32}
    (hlen : 655 < d1.length) (hr : crc32 b c addr d1 d1.length = .ok r1) :
    ∃ d2 r2, d2.length = d1.length ∧ hamming (sent d1 r1) (sent d2 r2) = 4 ∧
      crc32 b' c addr' d2 d2.length = .ok r2 := by
  obtain ⟨k, hk⟩ : ∃ k, d1.length = k + 656 := ⟨d1.length - 656, by omega⟩
  have he : (List.replicate k 0 ++ fourBits).length = d1.length := by
    rw [List.length_append, List.length_replicate, hk, show fourBits.length = 656 by decide +kernel]
  rw [crc32_eq _ _ _ (Nat.le_refl _), List.take_length] at hr
  have hr := Res.ok.inj hr
  refine ⟨List.zipWith (· ^^^ ·) d1 (List.replicate k 0 ++ fourBits), r1 ^^^ 0x80000000#32, ?_, ?_, ?_⟩
  · rw [List.length_zipWith, he, Nat.min_self]
  · rw [sent, sent, bits_zip, bitsOf_xor, ← List.zipWith_append (by rw [length_bits, length_bits, he]),
      hamming_xor _ _ (by simp only [List.length_append, length_bits, length_bitsOf, he]), List.count_append]
    have hb : bits (List.replicate k 0 ++ fourBits) = (List.replicate k 0).flatMap (fun b : UInt8 => bitsOf b.toBitVec) ++ bits fourBits := by
      unfold bits
      rw [List.flatMap_append]
    have hz : ∀ k, ((List.replicate k 0).flatMap (fun b : UInt8 => bitsOf b.toBitVec)).count true = 0 := by
      intro k
      induction k with
      | zero => rfl
      | succ k ih =>
        rw [List.replicate_succ, List.flatMap_cons, List.count_append, ih]
        decide +kernel
    rw [hb, List.count_append, hz]
    decide +kernel
  · rw [crc32_eq _ _ _ (Nat.le_refl _), List.take_length]
    have h := run_zip d1 (List.replicate k 0 ++ fourBits) (~~~ c) 0#32 he.symm
    rw [BitVec.xor_zero, run_append, run_zeros, fourBits_run] at h
    rw [h, ← hr]
    congr 1
    ext i
    simp

/-! ## The hypotheses are met -/

/-- "123456789" with its CRC, two bits of the message and three of the CRC flipped. -/
example (b : Build) : crc32 b 0#32 0 [0x31, 0x32, 0x33, 0x34, 0x35, 0x36, 0x37, 0x38, 0x39] 9 = .ok 0xE3069283#32 ∧
    hamming (sent [0x31, 0x32, 0x33, 0x34, 0x35, 0x36, 0x37, 0x38, 0x39] 0xE3069283#32)
      (sent [0x30, 0x32, 0x33, 0x34, 0x35, 0x36, 0x37, 0x38, 0x29] 0xE3069284#32) = 5 := by
  constructor
  · rw [crc32_eq b _ _ (by decide)]
    decide +kernel
  · decide +kernel

end Verif.Crc
