import Verif.Basic

/-! # Arithmetic of `double`

Numbers of type `double` are the binary64 numbers of ISO/IEC 60559. The result of a conversion or
an operation is the number that is nearest to the exact result. Which one is taken when two are
equally near is left open, so what is proved holds for rounding to even too. Infinities and NaN
do not occur in the code: all results here are far below the largest number. -/

namespace Verif.Flt

/-- The finite numbers of type `double`: `m * 2 ^ e` with `|m| < 2 ^ 53` and
`-1074 ≤ e ≤ 971`; `a` is `e + 1074`. -/
def IsDouble (x : Rat) : Prop :=
  ∃ (m : Int) (a : Nat), m.natAbs < 2 ^ 53 ∧ a ≤ 2045 ∧ x * (2 : Rat) ^ 1074 = (m : Rat) * 2 ^ a

/-- The distance of two numbers. -/
def dist (x y : Rat) : Rat := if x ≤ y then y - x else x - y

/-- `y` is the number of type `double` that is nearest to `x`, or one of the two. -/
def Nearest (x y : Rat) : Prop := IsDouble y ∧ ∀ z, IsDouble z → dist x y ≤ dist x z

theorem dist_self (x : Rat) : dist x x = 0 := by unfold dist; grind
theorem dist_eq_zero {x y : Rat} (h : dist x y ≤ 0) : y = x := by
  unfold dist at h; split at h <;> grind
theorem dist_le {x y d : Rat} : dist x y ≤ d ↔ y ≤ x + d ∧ x ≤ y + d := by
  unfold dist; split <;> constructor <;> intro h <;> grind

/-- A number of type `double` is not changed. -/
theorem Nearest.exact {x y : Rat} (h : Nearest x y) (hx : IsDouble x) : y = x := by
  have := h.2 x hx
  rw [dist_self] at this
  exact dist_eq_zero this

theorem two_pow_pos (n : Nat) : (0 : Rat) < 2 ^ n := Rat.pow_pos (by decide)

theorem two_pow_add (n k : Nat) : (2 : Rat) ^ (n + k) = 2 ^ n * 2 ^ k :=
  Lean.Grind.Semiring.pow_add 2 n k

/-- Natural numbers below 2^53, divided by a power of two, are numbers of type `double`. -/
theorem isDouble_nat {n k : Nat} (hn : n < 2 ^ 53) (hk : k ≤ 1074) :
    IsDouble ((n : Rat) / 2 ^ k) := by
  refine ⟨n, 1074 - k, by simpa using hn, by omega, ?_⟩
  have h : (2 : Rat) ^ 1074 = 2 ^ k * 2 ^ (1074 - k) := by
    rw [← two_pow_add]; congr 1; omega
  have := two_pow_pos k
  rw [h, ← Rat.mul_assoc, Rat.div_mul_cancel (by grind)]
  rfl

/-- Numbers between two powers of two. -/
theorem exists_binade {w : Rat} (h1 : 1 ≤ w) : ∀ {n : Nat}, w < 2 ^ n →
    ∃ i, i < n ∧ 2 ^ i ≤ w ∧ w < 2 ^ (i + 1) := by
  intro n
  induction n with
  | zero => intro h; simp at h; grind
  | succ n ih =>
    intro h
    by_cases hn : w < 2 ^ n
    · obtain ⟨i, hi, h2⟩ := ih hn
      exact ⟨i, by omega, h2⟩
    · exact ⟨n, by omega, by grind, h⟩

theorem dist_mul {x y d : Rat} (hd : 0 < d) : dist (x * d) (y * d) = dist x y * d := by
  unfold dist
  by_cases h : x ≤ y
  · have := Rat.mul_le_mul_of_nonneg_right h (Rat.le_of_lt hd)
    rw [if_pos h, if_pos this]; grind
  · have := Rat.mul_lt_mul_of_pos_right (Rat.not_le.1 h) hd
    rw [if_neg h, if_neg (Rat.not_le.2 this)]; grind

theorem dist_mono {x y z : Rat} (h1 : z ≤ y) (h2 : y ≤ x) : dist x y ≤ dist x z := by
  unfold dist; grind

/-- Every number that is neither tiny nor huge has a nearest number, and that is near. -/
theorem exists_nearest {x : Rat} (h1 : 1 ≤ x * 2 ^ 1022) (h2 : x * 2 ^ 1022 < 2 ^ 2045) :
    ∃ z, Nearest x z ∧ dist x z ≤ x / 9007199254740992 := by
  obtain ⟨i, hi, hlo, hhi⟩ := exists_binade h1 h2
  have hU := two_pow_pos i
  have hD : (2 : Rat) ^ 1074 = 2 ^ 1022 * 4503599627370496 := two_pow_add 1022 52
  have hU1 : (2 : Rat) ^ (i + 1) = 2 ^ i * 2 := two_pow_add i 1
  have hDpos := two_pow_pos 1074
  -- the number of units in the last place
  have hf1 := Rat.floor_le (x * 2 ^ 1022 * 4503599627370496 / 2 ^ i + 1 / 2)
  have hf2 := Rat.lt_floor_add_one (x * 2 ^ 1022 * 4503599627370496 / 2 ^ i + 1 / 2)
  generalize (x * 2 ^ 1022 * 4503599627370496 / 2 ^ i + 1 / 2).floor = m at hf1 hf2
  have ht : x * 2 ^ 1022 * 4503599627370496 / 2 ^ i * 2 ^ i = x * 2 ^ 1022 * 4503599627370496 :=
    Rat.div_mul_cancel (by grind)
  generalize x * 2 ^ 1022 * 4503599627370496 / 2 ^ i = t at hf1 hf2 ht
  have hxD : x * 2 ^ 1074 = x * 2 ^ 1022 * 4503599627370496 := by rw [hD, Rat.mul_assoc]
  have hpow : ∀ a, i ≤ a → (2 : Rat) ^ a = ((2 ^ (a - i) : Int) : Rat) * 2 ^ i := by
    intro a ha
    have h : (2 : Rat) ^ ((a - i) + i) = 2 ^ (a - i) * 2 ^ i := two_pow_add _ _
    rw [Nat.sub_add_cancel ha] at h
    rw [h, Rat.intCast_pow, Rat.intCast_ofNat]
  have hpow2 : ∀ a, a < i → (2 : Rat) ^ a * 2 ≤ 2 ^ i := by
    intro a ha
    have h : (2 : Rat) ^ i = 2 ^ (a + 1) * ((2 ^ (i - (a + 1)) : Int) : Rat) := by
      have h : (2 : Rat) ^ ((a + 1) + (i - (a + 1))) = 2 ^ (a + 1) * 2 ^ (i - (a + 1)) := two_pow_add _ _
      rw [Nat.add_sub_cancel' (show a + 1 ≤ i from ha)] at h
      rw [h, Rat.intCast_pow, Rat.intCast_ofNat]
    have h1 : (1 : Rat) ≤ ((2 ^ (i - (a + 1)) : Int) : Rat) := by
      have : (1 : Int) ≤ 2 ^ (i - (a + 1)) := Int.pow_pos (by decide)
      rw [← Rat.intCast_le_intCast] at this
      exact this
    have := Rat.mul_le_mul_of_nonneg_left h1 (Rat.le_of_lt (two_pow_pos (a + 1)))
    have e : (2 : Rat) ^ (a + 1) = 2 ^ a * 2 := two_pow_add a 1
    grind
  rw [hU1] at hhi
  generalize hw : x * (2 : Rat) ^ 1022 = w at *
  generalize hUe : (2 : Rat) ^ i = U at *
  rw [Rat.intCast_add] at hf2
  have hm1 := Rat.mul_le_mul_of_nonneg_right hf1 (Rat.le_of_lt hU)
  have hm2 := Rat.mul_lt_mul_of_pos_right hf2 hU
  have hmlo : (4503599627370496 : Rat) < m + 1 := by
    have : 4503599627370496 * U ≤ t * U := by grind
    have := Rat.le_of_mul_le_mul_right this hU
    grind
  have hmhi : (m : Rat) < 9007199254740992 + 1 := by
    have : t * U < 9007199254740992 * U := by grind
    have := Rat.lt_of_mul_lt_mul_right this (Rat.le_of_lt hU)
    grind
  have hmlo' : 4503599627370496 < m + 1 := by
    rw [← Rat.intCast_lt_intCast, Rat.intCast_add, Rat.intCast_ofNat]; exact hmlo
  have hmhi' : m < 9007199254740992 + 1 := by
    rw [← Rat.intCast_lt_intCast, Rat.intCast_add, Rat.intCast_ofNat]; exact hmhi
  have hzD : (m : Rat) * U / 2 ^ 1074 * 2 ^ 1074 = (m : Rat) * U := Rat.div_mul_cancel (by grind)
  have hz : IsDouble ((m : Rat) * U / 2 ^ 1074) := by
    by_cases he : m = 9007199254740992
    · refine ⟨4503599627370496, i + 1, by decide, by omega, ?_⟩
      rw [Rat.div_mul_cancel (by grind), hU1, he, Rat.intCast_ofNat, Rat.intCast_ofNat]
      grind
    · refine ⟨m, i, by omega, by omega, ?_⟩
      rw [Rat.div_mul_cancel (by grind), hUe]
  generalize (m : Rat) * U / 2 ^ 1074 = z at hzD hz
  refine ⟨z, ⟨hz, ?_⟩, ?_⟩
  · rintro z' ⟨m', a, hm', ha, hz'⟩
    apply Rat.le_of_mul_le_mul_right _ hDpos
    rw [← dist_mul hDpos, ← dist_mul hDpos, hxD, hzD, hz']
    -- both sides in units
    have hn : ∀ n : Int, n ≠ m → dist (w * 4503599627370496) (m * U) ≤ dist (w * 4503599627370496) (n * U) := by
      intro n hne
      have hle : dist (w * 4503599627370496) (m * U) ≤ U / 2 := by
        rw [dist_le]; grind
      rcases Int.lt_or_gt_of_ne hne with h | h
      · have h : n + 1 ≤ m := h
        rw [← Rat.intCast_le_intCast, Rat.intCast_add] at h
        have := Rat.mul_le_mul_of_nonneg_right h (Rat.le_of_lt hU)
        unfold dist at hle ⊢
        grind
      · have h : m + 1 ≤ n := h
        rw [← Rat.intCast_le_intCast, Rat.intCast_add] at h
        have := Rat.mul_le_mul_of_nonneg_right h (Rat.le_of_lt hU)
        unfold dist at hle ⊢
        grind
    by_cases hai : i ≤ a
    · rw [hpow a hai, ← Rat.mul_assoc, ← Rat.intCast_mul]
      by_cases he : m' * 2 ^ (a - i) = m
      · rw [he]; grind
      · exact hn _ he
    · have hp := hpow2 a (by omega)
      have hsm : (m' : Rat) * 2 ^ a ≤ 4503599627370496 * U := by
        have h3 : (m' : Rat) ≤ 9007199254740992 := by
          rw [← Rat.intCast_ofNat, Rat.intCast_le_intCast]; omega
        have := Rat.mul_le_mul_of_nonneg_right h3 (Rat.le_of_lt (two_pow_pos a))
        grind
      have hT : 4503599627370496 * U ≤ w * 4503599627370496 := by grind
      have h5 : dist (w * 4503599627370496) (((4503599627370496 : Int) : Rat) * U) ≤
          dist (w * 4503599627370496) ((m' : Rat) * 2 ^ a) := by
        rw [Rat.intCast_ofNat]
        exact dist_mono hsm hT
      by_cases he : (4503599627370496 : Int) = m
      · rw [← he]; exact h5
      · exact Rat.le_trans (hn _ he) h5
  · have hhalf : x / 9007199254740992 * 2 ^ 1074 = w / 2 := by grind
    rw [dist_le]
    constructor
    · apply Rat.le_of_mul_le_mul_right _ hDpos
      rw [Rat.add_mul, hzD, hxD, hhalf]
      grind
    · apply Rat.le_of_mul_le_mul_right _ hDpos
      rw [Rat.add_mul, hzD, hxD, hhalf]
      grind

/-- The relative error is at most 2^-53, for numbers that are neither tiny nor huge. -/
theorem Nearest.error {x y : Rat} (h : Nearest x y) (h1 : 1 ≤ x * 2 ^ 1022)
    (h2 : x * 2 ^ 1022 < 2 ^ 2045) : dist x y ≤ x / 9007199254740992 := by
  obtain ⟨z, hz1, hz2⟩ := exists_nearest h1 h2
  exact Rat.le_trans (h.2 z hz1.1) hz2

/-- The same for numbers from 2^-200 to 2^200, which is all that occurs here. -/
theorem Nearest.near {x y : Rat} (h : Nearest x y) (h1 : 1 ≤ x * 2 ^ 200) (h2 : x ≤ 2 ^ 200) :
    y ≤ x + x / 9007199254740992 ∧ x ≤ y + x / 9007199254740992 := by
  have e1 : (2 : Rat) ^ 1022 = 2 ^ 200 * 2 ^ 822 := two_pow_add 200 822
  have e2 : (2 : Rat) ^ 2045 = 2 ^ 823 * (2 ^ 200 * 2 ^ 1022) := by
    rw [← two_pow_add, ← two_pow_add]
  have one_le : ∀ n : Nat, (1 : Rat) ≤ 2 ^ n := by
    intro n
    induction n with
    | zero => simp
    | succ n ih => rw [show (2 : Rat) ^ (n + 1) = 2 ^ n * 2 from two_pow_add n 1]; grind
  have h3 := Rat.mul_le_mul_of_nonneg_right h1 (Rat.le_of_lt (two_pow_pos 822))
  have h4 := Rat.mul_le_mul_of_nonneg_right h2 (Rat.le_of_lt (two_pow_pos 1022))
  have o1 := one_le 822
  have o2 : (2 : Rat) * 1 ≤ 2 ^ 823 := by
    rw [show (2 : Rat) ^ 823 = 2 ^ 822 * 2 from two_pow_add 822 1]; grind
  have p0 : (0 : Rat) < 2 ^ 200 * 2 ^ 1022 := Rat.mul_pos (two_pow_pos 200) (two_pow_pos 1022)
  have h5 := Rat.mul_le_mul_of_nonneg_right o2 (Rat.le_of_lt p0)
  refine dist_le.1 (h.error ?_ ?_)
  · rw [e1, ← Rat.mul_assoc]
    rw [Rat.one_mul] at h3
    exact Rat.le_trans o1 h3
  · rw [e2]
    generalize (2 : Rat) ^ 200 * 2 ^ 1022 = P at *
    generalize (2 : Rat) ^ 823 * P = Q at *
    grind

/-- Natural numbers below 2^53 are converted exactly. -/
theorem Nearest.nat {n : Nat} {y : Rat} (h : Nearest n y) (hn : n < 2 ^ 53) : y = n := by
  refine h.exact ?_
  have := isDouble_nat (k := 0) hn (by omega)
  rwa [show (n : Rat) / 2 ^ 0 = n by rw [show (2 : Rat) ^ 0 = 1 by simp]; grind] at this

end Verif.Flt
