import Verif.Crc.Poly
import Mathlib.NumberTheory.LucasLehmer

namespace Verif.Crc

open Polynomial

/-! ## C44, C45 -/

/-- **C44.** `sc_crc32` returns the CRC-32C of the data: on each of the three builds, for every
length, alignment and starting value. It reads the `len` bytes of the data only. -/
theorem crc_correct (b : Build) (c : BitVec 32) (addr : Nat) {buf : List UInt8} {len : Nat}
    (h : len ≤ buf.length) :
    ∃ r, crc32 b c addr buf len = .ok r ∧ IsCrc c (buf.take len) r :=
  ⟨_, crc32_eq b c addr h, (isCrc_iff _ _ _).2 rfl⟩

/-- There is exactly one CRC. -/
theorem crc_unique {c : BitVec 32} {data : List UInt8} {r r' : BitVec 32} (h : IsCrc c data r)
    (h' : IsCrc c data r') : r = r' := by
  rw [isCrc_iff] at h h'
  rw [h, h']

/-- **C45.** The CRC of a message is the CRC of its second part, continued from the CRC of the
first; the parts may lie anywhere, and may even be processed by different builds. -/
theorem crc_incremental (b b1 b2 : Build) (c : BitVec 32) (addr addr1 addr2 : Nat)
    (m1 m2 : List UInt8) :
    (do
      let r ← crc32 b1 c addr1 m1 m1.length
      crc32 b2 r addr2 m2 m2.length) = crc32 b c addr (m1 ++ m2) (m1 ++ m2).length := by
  rw [crc32_eq _ _ _ (Nat.le_refl _), Res.ok_bind, crc32_eq _ _ _ (Nat.le_refl _),
    crc32_eq _ _ _ (Nat.le_refl _), BitVec.not_not, List.take_length, List.take_length,
    List.take_length, run_append]

/-- The CRC of nothing is the starting value. -/
theorem crc_empty (b : Build) (c : BitVec 32) (addr : Nat) (buf : List UInt8) :
    crc32 b c addr buf 0 = .ok c := by
  rw [crc32_eq _ _ _ (Nat.zero_le _)]
  simp [run]

/-! ## C46, C77, C78: errors that are detected -/

theorem G_coprime_X : IsCoprime G (X : (ZMod 2)[X]) := by
  refine ⟨1, -(X ^ 31 + X ^ 27 + X ^ 26 + X ^ 25 + X ^ 24 + X ^ 22 + X ^ 21 + X ^ 19 + X ^ 18 +
    X ^ 17 + X ^ 13 + X ^ 12 + X ^ 10 + X ^ 9 + X ^ 8 + X ^ 7 + X ^ 5), ?_⟩
  unfold G
  ring

theorem crc_eq_dvd {b b' : Build} {c : BitVec 32} {addr addr' : Nat} {d1 d2 : List UInt8}
    (hl : d1.length = d2.length)
    (h : crc32 b c addr d1 d1.length = crc32 b' c addr' d2 d2.length) :
    G ∣ poly (List.zipWith (· ^^ ·) (bits d1) (bits d2)) := by
  rw [crc32_eq _ _ _ (Nat.le_refl _), crc32_eq _ _ _ (Nat.le_refl _), List.take_length,
    List.take_length] at h
  have h : run (~~~ c) d1 = run (~~~ c) d2 := by
    have := congrArg (~~~ ·) (Res.ok.inj h)
    simpa using this
  have e1 := val_foldl (bits d1) (~~~ c)
  have e2 := val_foldl (bits d2) (~~~ c)
  rw [bits_foldl, length_bits] at e1 e2
  rw [h, hl] at e1
  have e3 := dvd_sub e2 e1
  have e4 : G ∣ (poly (bits d1) - poly (bits d2)) * X ^ 32 := by
    convert e3 using 1
    ring
  have e5 := (G_coprime_X.pow_right (n := 32)).dvd_of_dvd_mul_right e4
  rw [poly_xor (by rw [length_bits, length_bits, hl])]
  convert e5 using 1
  linear_combination poly (bits d2) * two_eq

theorem zip_self (l : List Bool) : poly (List.zipWith (· ^^ ·) l l) = 0 := by
  rw [poly_xor rfl]
  exact CharTwo.add_self_eq_zero _

/-- **C46.** Two messages that differ within 32 consecutive bits only have different CRCs. -/
theorem crc_burst (b b' : Build) (c : BitVec 32) (addr addr' : Nat) {d1 d2 : List UInt8}
    {u w1 w2 v : List Bool} (h1 : bits d1 = u ++ w1 ++ v) (h2 : bits d2 = u ++ w2 ++ v)
    (hl : w1.length = w2.length) (h32 : w1.length ≤ 32) (hne : w1 ≠ w2) :
    crc32 b c addr d1 d1.length ≠ crc32 b' c addr' d2 d2.length := by
  intro h
  have hlen : d1.length = d2.length := by
    have e1 := congrArg List.length h1
    have e2 := congrArg List.length h2
    simp only [length_bits, List.length_append] at e1 e2
    omega
  have hd := crc_eq_dvd hlen h
  rw [poly_xor (by rw [length_bits, length_bits, hlen]), h1, h2, poly_append, poly_append,
    poly_append, poly_append, hl] at hd
  have e : (poly u * X ^ w2.length + poly w1) * X ^ v.length + poly v +
      ((poly u * X ^ w2.length + poly w2) * X ^ v.length + poly v) =
      (poly w1 + poly w2) * X ^ v.length := by
    linear_combination (poly u * X ^ w2.length * X ^ v.length + poly v) * two_eq
  rw [e] at hd
  have hd := (G_coprime_X.pow_right (n := v.length)).dvd_of_dvd_mul_right hd
  have hz : poly w1 + poly w2 = 0 := by
    by_contra hn
    refine G_monic.not_dvd_of_degree_lt hn ?_ hd
    have h4 := poly_deg (List.zipWith (· ^^ ·) w1 w2)
    rw [List.length_zipWith, ← hl, Nat.min_self, poly_xor hl] at h4
    have h5 : ((w1.length : ℕ) : WithBot ℕ) ≤ 32 := by exact_mod_cast h32
    rw [G_degree]
    exact lt_of_lt_of_le h4 h5
  apply hne
  apply poly_inj hl
  linear_combination hz - poly w2 * two_eq

theorem eval_poly : ∀ {l m : List Bool}, l.length = m.length →
    (poly (List.zipWith (· ^^ ·) l m)).eval 1 = (hamming l m : ZMod 2) := by
  intro l
  induction l with
  | nil => intro m _; simp [poly, hamming]
  | cons a l ih =>
    intro m h
    cases m with
    | nil => simp at h
    | cons b m =>
      simp only [List.length_cons, Nat.add_right_cancel_iff] at h
      rw [List.zipWith_cons_cons, poly, hamming, eval_add, ih h]
      cases a <;> cases b <;> simp [coef]

theorem G_eval : G.eval 1 = 0 := by
  simp [G]
  decide

/-- **C77.** Two messages of the same length that differ in an odd number of bits have
different CRCs. -/
theorem crc_odd (b b' : Build) (c : BitVec 32) (addr addr' : Nat) {d1 d2 : List UInt8}
    (hl : d1.length = d2.length) (ho : hamming (bits d1) (bits d2) % 2 = 1) :
    crc32 b c addr d1 d1.length ≠ crc32 b' c addr' d2 d2.length := by
  intro h
  obtain ⟨q, hq⟩ := crc_eq_dvd hl h
  have := congrArg (eval 1) hq
  rw [eval_poly (by rw [length_bits, length_bits, hl]), eval_mul, G_eval, zero_mul] at this
  rw [ZMod.natCast_eq_zero_iff] at this
  omega

theorem bitStep_inj {a b : BitVec 32} (h : bitStep a = bitStep b) : a = b := by
  have hz : ∀ x : BitVec 32, bitStep x = 0#32 → x = 0#32 := by
    intro x hx
    rw [bitStep_eq] at hx
    rcases h0 : x.getLsbD 0 with _ | _
    · rw [h0] at hx
      simp only [Bool.false_eq_true, if_false, BitVec.xor_zero] at hx
      apply BitVec.eq_of_getLsbD_eq
      intro i hi
      rcases i with _ | i
      · rw [h0]; simp
      · have := congrArg (fun v => v.getLsbD i) hx
        simp only [BitVec.getLsbD_ushiftRight, BitVec.getLsbD_zero] at this
        rw [Nat.add_comm 1 i] at this
        simpa using this
    · exfalso
      rw [h0] at hx
      have := congrArg (fun v => v.getLsbD 31) hx
      simp only [if_true, BitVec.getLsbD_xor, BitVec.getLsbD_ushiftRight, BitVec.getLsbD_zero] at this
      rw [BitVec.getLsbD_of_ge x _ (by omega)] at this
      exact absurd this (by decide +kernel)
  have e : bitStep (a ^^^ b) = 0#32 := by rw [bitStep_lin, h, BitVec.xor_self]
  have := hz _ e
  rwa [BitVec.xor_eq_zero_iff] at this

theorem iter_inj (n : Nat) {a b : BitVec 32} (h : iter bitStep n a = iter bitStep n b) : a = b := by
  induction n with
  | zero => exact h
  | succ n ih => exact ih (bitStep_inj h)

theorem period_gcd (c : BitVec 32) (m n : Nat) (hm : iter bitStep m c = c)
    (hn : iter bitStep n c = c) : iter bitStep (Nat.gcd m n) c = c := by
  induction m, n using Nat.gcd.induction with
  | H0 n => simpa using hn
  | H1 m n hpos ih =>
    rw [Nat.gcd_rec]
    refine ih ?_ hm
    have hk : ∀ k, iter bitStep (m * k) c = c := by
      intro k
      rw [iter_mul]
      induction k with
      | zero => rfl
      | succ k ih => rw [iter, ih, hm]
    have : iter bitStep (n % m + m * (n / m)) c = c := by rw [Nat.mod_add_div]; exact hn
    rwa [iter_add, hk] at this

/-- The matrix for `2 ^ k` zero bits. -/
def powMat : Nat → Res (List (BitVec 32))
  | 0 => .ok oneZeroBit
  | k + 1 => do
    let m ← powMat k
    square m

theorem powMat_rep (k : Nat) : ∃ m, powMat k = .ok m ∧ Rep m (iter bitStep (2 ^ k)) := by
  induction k with
  | zero => exact ⟨_, rfl, oneZeroBit_rep⟩
  | succ k ih =>
    obtain ⟨m, h1, h2⟩ := ih
    obtain ⟨m', h3, h4⟩ := square_iter h2
    refine ⟨m', by rw [powMat, h1, Res.ok_bind, h3], ?_⟩
    rw [Nat.pow_succ, Nat.mul_comm]
    exact h4

theorem powMat_31 : (do
    let m ← powMat 31
    times m 0x80000000#32) = .ok (bitStep 0x80000000#32) := by decide +kernel

/-- `X ^ (2 ^ 31 - 1)` is 1 modulo `G`. -/
theorem period {p : Nat} (hp : 2 ^ 31 = 1 + p) : iter bitStep p 0x80000000#32 = 0x80000000#32 := by
  obtain ⟨m, h1, h2⟩ := powMat_rep 31
  have h := powMat_31
  rw [h1, Res.ok_bind, times_eq (bitStep_lin.iter _) h2, hp, iter_add] at h
  exact bitStep_inj (Res.ok.inj h)

theorem prime_period : Nat.Prime (2 ^ 31 - 1) :=
  lucas_lehmer_sufficiency 31 (by simp) (by norm_num)

/-- ... and no smaller power is. -/
theorem no_short_period {n : Nat} (h0 : 0 < n) (h1 : n < 2 ^ 31 - 1) :
    iter bitStep n 0x80000000#32 ≠ 0x80000000#32 := by
  intro h
  obtain ⟨p, hp⟩ : ∃ p, p = 2 ^ 31 - 1 := ⟨_, rfl⟩
  have hpr := prime_period
  rw [← hp] at hpr h1
  have hg := period_gcd _ p n (period (by omega)) h
  have : Nat.gcd p n = 1 := Nat.coprime_of_lt_prime (by omega) h1 hpr
  rw [this] at hg
  exact absurd hg (by decide +kernel)

theorem val_one : val 0x80000000#32 = 1 := by
  have : bitsOf 0x80000000#32 = List.replicate 31 false ++ [true] := by decide +kernel
  have hz : ∀ n, poly (List.replicate n false) = 0 := by
    intro n
    induction n with
    | zero => rfl
    | succ n ih => rw [List.replicate_succ, poly, ih]; simp [coef]
  rw [val, this, poly_append, hz]
  simp [poly, coef]

theorem val_iter (n : Nat) (c : BitVec 32) : G ∣ val (iter bitStep n c) - X ^ n * val c := by
  induction n with
  | zero => simp [iter]
  | succ n ih =>
    obtain ⟨q1, h1⟩ := ih
    obtain ⟨q2, h2⟩ := val_hwBit (iter bitStep n c) false
    rw [hwBit_eq] at h2
    simp only [Bool.false_eq_true, if_false, BitVec.xor_zero, coef] at h2
    refine ⟨q2 + X * q1, ?_⟩
    rw [iter]
    linear_combination h2 + X * h1

/-- Two bits at a distance below the period. -/
theorem not_dvd_two {i j : Nat} (h : i < j) (h' : j - i < 2 ^ 31 - 1) :
    ¬ G ∣ (X ^ i + X ^ j : (ZMod 2)[X]) := by
  intro hd
  have e : (X ^ i + X ^ j : (ZMod 2)[X]) = (1 + X ^ (j - i)) * X ^ i := by
    rw [add_mul, ← pow_add, Nat.sub_add_cancel (by omega)]
    ring
  rw [e] at hd
  have hd := (G_coprime_X.pow_right (n := i)).dvd_of_dvd_mul_right hd
  apply no_short_period (n := j - i) (by omega) h'
  apply val_inj
  obtain ⟨q1, h1⟩ := val_iter (j - i) 0x80000000#32
  obtain ⟨q2, h2⟩ := hd
  rw [val_one] at h1
  have h3 : G ∣ val (iter bitStep (j - i) 0x80000000#32) - val 0x80000000#32 := by
    refine ⟨q1 + q2, ?_⟩
    rw [val_one]
    linear_combination h1 + h2 - two_eq
  have := modByMonic_eq_of_dvd_sub G_monic h3
  rwa [(modByMonic_eq_self_iff G_monic).2 (val_deg _),
    (modByMonic_eq_self_iff G_monic).2 (val_deg _)] at this

theorem poly_zero : ∀ {l m : List Bool}, l.length = m.length → hamming l m = 0 →
    poly (List.zipWith (· ^^ ·) l m) = 0 := by
  intro l
  induction l with
  | nil => intro m _ _; simp [poly]
  | cons a l ih =>
    intro m h h0
    cases m with
    | nil => simp at h
    | cons b m =>
      simp only [List.length_cons, Nat.add_right_cancel_iff] at h
      rw [hamming] at h0
      have hab : a = b := by
        by_contra hn
        rw [if_neg hn] at h0
        omega
      subst hab
      rw [List.zipWith_cons_cons, poly, ih h (by omega)]
      simp [coef]

theorem poly_one : ∀ {l m : List Bool}, l.length = m.length → hamming l m = 1 →
    ∃ i < l.length, poly (List.zipWith (· ^^ ·) l m) = X ^ i := by
  intro l
  induction l with
  | nil => intro m _ h; simp [hamming] at h
  | cons a l ih =>
    intro m h h0
    cases m with
    | nil => simp at h
    | cons b m =>
      simp only [List.length_cons, Nat.add_right_cancel_iff] at h
      rw [hamming] at h0
      rw [List.zipWith_cons_cons, poly]
      by_cases hab : a = b
      · subst hab
        obtain ⟨i, h1, h2⟩ := ih h (by simpa using h0)
        refine ⟨i, by simp; omega, ?_⟩
        rw [h2]; simp [coef]
      · rw [if_neg hab] at h0
        refine ⟨l.length, by simp, ?_⟩
        rw [poly_zero h (by omega)]
        cases a <;> cases b <;> simp [coef, h] at hab ⊢

theorem poly_two : ∀ {l m : List Bool}, l.length = m.length → hamming l m = 2 →
    ∃ i j, i < j ∧ j < l.length ∧ poly (List.zipWith (· ^^ ·) l m) = X ^ i + X ^ j := by
  intro l
  induction l with
  | nil => intro m _ h; simp [hamming] at h
  | cons a l ih =>
    intro m h h0
    cases m with
    | nil => simp at h
    | cons b m =>
      simp only [List.length_cons, Nat.add_right_cancel_iff] at h
      rw [hamming] at h0
      rw [List.zipWith_cons_cons, poly]
      by_cases hab : a = b
      · subst hab
        obtain ⟨i, j, h1, h2, h3⟩ := ih h (by simpa using h0)
        refine ⟨i, j, h1, by simp; omega, ?_⟩
        rw [h3]; simp [coef]
      · rw [if_neg hab] at h0
        obtain ⟨i, h1, h2⟩ := poly_one h (by omega)
        refine ⟨i, l.length, h1, by simp, ?_⟩
        rw [h2, add_comm]
        cases a <;> cases b <;> simp [coef, h] at hab ⊢

/-- **C78.** Two messages of the same length, below 2^28 bytes (256 MiB), that differ in one,
two or three bits have different CRCs. -/
theorem crc_three_bits (b b' : Build) (c : BitVec 32) (addr addr' : Nat) {d1 d2 : List UInt8}
    (hl : d1.length = d2.length) (hlen : d1.length < 2 ^ 28)
    (h1 : 1 ≤ hamming (bits d1) (bits d2)) (h3 : hamming (bits d1) (bits d2) ≤ 3) :
    crc32 b c addr d1 d1.length ≠ crc32 b' c addr' d2 d2.length := by
  by_cases ho : hamming (bits d1) (bits d2) % 2 = 1
  · exact crc_odd b b' c addr addr' hl ho
  · intro h
    have hd := crc_eq_dvd hl h
    obtain ⟨i, j, hij, hj, e⟩ := poly_two (l := bits d1) (m := bits d2)
      (by rw [length_bits, length_bits, hl]) (by omega)
    rw [e] at hd
    rw [length_bits] at hj
    exact not_dvd_two hij (by omega) hd

/-! ## The hypotheses are met -/

/-- The check value of CRC-32C: "123456789" has the CRC 0xE3069283, on every build. -/
example (b : Build) (addr : Nat) :
    crc32 b 0#32 addr [0x31, 0x32, 0x33, 0x34, 0x35, 0x36, 0x37, 0x38, 0x39] 9 =
      .ok 0xE3069283#32 := by
  rw [crc32_eq b _ addr (by decide)]
  decide +kernel

/-- A burst of two bits across a byte boundary (C46), an odd error (C77), a two-bit error
(C78). -/
example : bits [0x80, 0x01] = (bits [0x80, 0x01]).take 7 ++ [true, true] ++ List.replicate 7 false ∧
    bits [0, 0] = (bits [0x80, 0x01]).take 7 ++ [false, false] ++ List.replicate 7 false ∧
    hamming (bits [7]) (bits [0]) = 3 ∧ hamming (bits [3]) (bits [0]) = 2 := by decide +kernel

end Verif.Crc
