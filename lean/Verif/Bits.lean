import Verif.Basic

/-! # Bit smearing: rounding up to a power of two

`x |= x >> 1; x |= x >> 2; x |= x >> 4; ...` turns `x` into the number with all bits up
to the highest set bit of `x`. Used by map/sc_map.c and sc/sc.c. -/

namespace Verif

/-- Bit `j` of `a` is set iff one of the `n` bits of `v` from `j` on is set. -/
def Smeared (v a n : Nat) : Prop := ∀ j, a.testBit j = true ↔ ∃ d, d < n ∧ v.testBit (j + d) = true

theorem smeared_one (v : Nat) : Smeared v v 1 := by
  intro j
  constructor
  · intro h; exact ⟨0, by omega, by simpa using h⟩
  · rintro ⟨d, hd, h⟩
    have : d = 0 := by omega
    subst this; simpa using h

theorem Smeared.step {v a n : Nat} (h : Smeared v a n) : Smeared v (a ||| (a >>> n)) (2 * n) := by
  intro j
  rw [Nat.testBit_or, Nat.testBit_shiftRight, Bool.or_eq_true, h, h]
  constructor
  · rintro (⟨d, hd, hb⟩ | ⟨d, hd, hb⟩)
    · exact ⟨d, by omega, hb⟩
    · exact ⟨n + d, by omega, by rw [← hb]; congr 1; omega⟩
  · rintro ⟨d, hd, hb⟩
    by_cases hdn : d < n
    · exact Or.inl ⟨d, hdn, hb⟩
    · exact Or.inr ⟨d - n, by omega, by rw [← hb]; congr 1; omega⟩

/-- A fully smeared number is one less than the least power of two above `v`. -/
theorem Smeared.pow {v a n : Nat} (h : Smeared v a n) (hv : v < 2 ^ n) :
    ∃ e, a + 1 = 2 ^ e ∧ v < 2 ^ e ∧ e ≤ n ∧ ∀ e', v < 2 ^ e' → e ≤ e' := by
  by_cases h0 : v = 0
  · refine ⟨0, ?_, by simp [h0], by omega, by intro e' _; omega⟩
    have : a = 0 := by
      apply Nat.eq_of_testBit_eq
      intro i
      rw [Nat.zero_testBit]
      apply Bool.eq_false_iff.2
      intro hb
      obtain ⟨d, _, hd⟩ := (h i).1 hb
      simp [h0] at hd
    simp [this]
  · have hl : v.log2 < n := (Nat.log2_lt h0).2 hv
    refine ⟨v.log2 + 1, ?_, (Nat.log2_lt h0).1 (by omega), by omega, ?_⟩
    · have : a = 2 ^ (v.log2 + 1) - 1 := by
        apply Nat.eq_of_testBit_eq
        intro i
        rw [Nat.testBit_two_pow_sub_one]
        apply Bool.eq_iff_iff.2
        rw [h, decide_eq_true_eq]
        constructor
        · rintro ⟨d, _, hb⟩
          have : i + d ≤ v.log2 := by
            rcases Nat.lt_or_ge v.log2 (i + d) with hlt | hge
            · have h1 : v < 2 ^ (i + d) := (Nat.log2_lt h0).1 hlt
              rw [Nat.testBit_lt_two_pow h1] at hb; cases hb
            · exact hge
          omega
        · intro hi
          refine ⟨v.log2 - i, by omega, ?_⟩
          rw [show i + (v.log2 - i) = v.log2 by omega]
          exact Nat.testBit_log2 h0
      have := Nat.two_pow_pos (v.log2 + 1)
      omega
    · intro e' he'
      have := (Nat.log2_lt h0).2 he'
      omega

end Verif
