import Verif.Crc.Props
import Verif.Crc.Gf

/-! # The arithmetic of Gf.lean is that of polynomials modulo the factor of degree 31 -/

namespace Verif.Crc

open Polynomial

/-- The polynomial of a number below `2 ^ 64`. -/
noncomputable def np (n : Nat) : (ZMod 2)[X] := ∑ i ∈ Finset.range 64, coef (n.testBit i) * X ^ i

/-- The factor of degree 31. -/
noncomputable def Q : (ZMod 2)[X] := np P31

theorem np_xor (a b : Nat) : np (a ^^^ b) = np a + np b := by
  unfold np
  rw [← Finset.sum_add_distrib]
  refine Finset.sum_congr rfl fun i _ => ?_
  rw [Nat.testBit_xor, coef_xor, add_mul]

theorem np_zero : np 0 = 0 := by simp [np, coef]

theorem np_one : np 1 = 1 := by
  unfold np
  rw [Finset.sum_eq_single 0]
  · simp [coef]
  · intro i _ hi
    rw [show (1 : Nat) = 2 ^ 0 from rfl, Nat.testBit_two_pow]
    simp [coef, Ne.symm hi]
  · simp

theorem coef_false : coef false = 0 := rfl

theorem np_shl {a : Nat} (h : a < 2 ^ 63) : np (a <<< 1) = X * np a := by
  unfold np
  rw [Finset.sum_range_succ', Finset.mul_sum, Finset.sum_range_succ (n := 63)]
  have h0 : (a <<< 1).testBit 0 = false := by simp
  have h63 : a.testBit 63 = false := Nat.testBit_lt_two_pow h
  rw [h0, h63, coef_false, zero_mul, zero_mul, mul_zero, add_zero, add_zero]
  refine Finset.sum_congr rfl fun i _ => ?_
  rw [Nat.testBit_shiftLeft]
  simp only [ge_iff_le, Nat.le_add_left, decide_true, Nat.add_sub_cancel, Bool.true_and]
  ring

theorem np_shr {b : Nat} (h : b < 2 ^ 64) : np b = coef (b.testBit 0) + X * np (b >>> 1) := by
  unfold np
  rw [Finset.sum_range_succ', Finset.mul_sum, Finset.sum_range_succ (n := 63)]
  have h63 : (b >>> 1).testBit 63 = false := by
    rw [Nat.testBit_shiftRight]
    exact Nat.testBit_lt_two_pow h
  have e : ∀ i ∈ Finset.range 63, (coef (b.testBit (i + 1)) * X ^ (i + 1) : (ZMod 2)[X]) =
      X * (coef ((b >>> 1).testBit i) * X ^ i) := by
    intro i _
    rw [Nat.testBit_shiftRight, Nat.add_comm 1 i]
    ring
  rw [Finset.sum_congr rfl e, h63, coef_false, zero_mul, mul_zero, add_zero, pow_zero, mul_one]
  generalize ∑ x ∈ Finset.range 63, (X * (coef ((b >>> 1).testBit x) * X ^ x) : (ZMod 2)[X]) = y
  ring

theorem mulX_eq (a : Nat) : mulX a = (a <<< 1) ^^^ (P31 * (a >>> 30)) := rfl

theorem top_cases {a : Nat} (h : a < 2 ^ 31) : (a >>> 30 = 0 ∧ a < 2 ^ 30) ∨ a >>> 30 = 1 ∧ 2 ^ 30 ≤ a := by
  rw [Nat.shiftRight_eq_div_pow]
  omega

theorem mulX_lt {a : Nat} (h : a < 2 ^ 31) : mulX a < 2 ^ 31 := by
  rw [mulX_eq]
  rcases top_cases h with ⟨e, hl⟩ | ⟨e, hl⟩
  · rw [e, Nat.mul_zero, Nat.xor_zero, Nat.shiftLeft_eq]
    omega
  · rw [e, Nat.mul_one]
    apply Nat.lt_pow_two_of_testBit
    intro i hi
    rw [Nat.testBit_xor]
    by_cases h31 : i = 31
    · subst h31
      have h1 : (a <<< 1).testBit 31 = true := by
        rw [Nat.testBit_shiftLeft]
        simp only [show (31 : Nat) ≥ 1 by decide, decide_true, Bool.true_and, Nat.reduceSub]
        rw [Nat.testBit_eq_decide_div_mod_eq]
        simp only [decide_eq_true_eq]
        omega
      have h2 : P31.testBit 31 = true := by decide +kernel
      rw [h1, h2]
      rfl
    · have h1 : (a <<< 1).testBit i = false := by
        apply Nat.testBit_lt_two_pow
        rw [Nat.shiftLeft_eq]
        have : 2 ^ 32 ≤ 2 ^ i := Nat.pow_le_pow_right (by decide) (by omega)
        omega
      have h2 : P31.testBit i = false := by
        apply Nat.testBit_lt_two_pow
        have : 2 ^ 32 ≤ 2 ^ i := Nat.pow_le_pow_right (by decide) (by omega)
        have : P31 < 2 ^ 32 := by decide +kernel
        omega
      rw [h1, h2]
      rfl

theorem mulX_np {a : Nat} (h : a < 2 ^ 31) : Q ∣ np (mulX a) - X * np a := by
  rw [mulX_eq, np_xor, np_shl (by omega)]
  rcases top_cases h with ⟨e, -⟩ | ⟨e, -⟩
  · rw [e, Nat.mul_zero, np_zero]
    simp
  · rw [e, Nat.mul_one]
    exact ⟨1, by unfold Q; ring⟩

theorem mulGo_zero (a b acc : Nat) : mulGo 0 a b acc = acc := rfl

theorem mulGo_succ (n a b acc : Nat) :
    mulGo (n + 1) a b acc = mulGo n (mulX a) (b >>> 1) (acc ^^^ a * (b &&& 1)) := rfl

theorem mulGo_np : ∀ (n : Nat) {a b acc : Nat}, n ≤ 64 → a < 2 ^ 31 → b < 2 ^ n →
    Q ∣ np (mulGo n a b acc) - (np acc + np a * np b) := by
  intro n
  induction n with
  | zero =>
    intro a b acc _ _ hb
    obtain rfl : b = 0 := by simpa using hb
    rw [mulGo_zero, np_zero, mul_zero, add_zero, sub_self]
    exact dvd_zero _
  | succ n ih =>
    intro a b acc hn ha hb
    rw [mulGo_succ]
    have hb1 : b >>> 1 < 2 ^ n := by
      rw [Nat.shiftRight_eq_div_pow]
      rw [Nat.pow_succ] at hb
      omega
    have hb64 : b < 2 ^ 64 := lt_of_lt_of_le hb (Nat.pow_le_pow_right (by decide) hn)
    obtain ⟨q1, h1⟩ := ih (acc := acc ^^^ a * (b &&& 1)) (by omega) (mulX_lt ha) hb1
    obtain ⟨q2, h2⟩ := mulX_np ha
    have hacc : np (acc ^^^ a * (b &&& 1)) = np acc + np a * coef (b.testBit 0) := by
      rw [np_xor, Nat.and_one_is_mod, Nat.testBit_zero]
      rcases Nat.mod_two_eq_zero_or_one b with e | e
      · rw [e]; simp [np_zero, coef]
      · rw [e]; simp [coef]
    rw [hacc] at h1
    refine ⟨q1 + q2 * np (b >>> 1), ?_⟩
    rw [np_shr hb64]
    linear_combination h1 + np (b >>> 1) * h2

theorem mulGo_lt : ∀ (n : Nat) {a b acc : Nat}, a < 2 ^ 31 → acc < 2 ^ 31 → mulGo n a b acc < 2 ^ 31 := by
  intro n
  induction n with
  | zero => intro a b acc _ h; exact h
  | succ n ih =>
    intro a b acc ha hacc
    rw [mulGo_succ]
    refine ih (mulX_lt ha) (Nat.xor_lt_two_pow hacc ?_)
    rw [Nat.and_one_is_mod]
    rcases Nat.mod_two_eq_zero_or_one b with e | e
    · rw [e]; simp
    · rw [e]; simpa using ha

theorem gmul_np {a b : Nat} (ha : a < 2 ^ 31) (hb : b < 2 ^ 31) : Q ∣ np (gmul a b) - np a * np b := by
  have h := mulGo_np 31 (acc := 0) (by decide) ha hb
  unfold gmul
  rw [np_zero, zero_add] at h
  exact h

theorem gmul_lt {a b : Nat} (ha : a < 2 ^ 31) : gmul a b < 2 ^ 31 := mulGo_lt 31 ha (by decide)

/-- `v` is `X ^ n` modulo the factor. -/
structure IsPow (v n : Nat) : Prop where
  lt : v < 2 ^ 31
  dvd : Q ∣ np v - X ^ n

theorem IsPow.mul {u v m n : Nat} (hu : IsPow u m) (hv : IsPow v n) : IsPow (gmul u v) (m + n) := by
  refine ⟨gmul_lt hu.lt, ?_⟩
  obtain ⟨q1, h1⟩ := gmul_np hu.lt hv.lt
  obtain ⟨q2, h2⟩ := hu.dvd
  obtain ⟨q3, h3⟩ := hv.dvd
  refine ⟨q1 + q2 * np v + q3 * X ^ m, ?_⟩
  rw [pow_add]
  linear_combination h1 + np v * h2 + X ^ m * h3

theorem tabOk_spec (k : Nat) {e : Nat} (h1 : IsPow (look k 1) e) : ∀ (n j : Nat), tabOk k n j = true →
    IsPow (look k j) (j * e) → ∀ i, i ≤ n → IsPow (look k (j + i)) ((j + i) * e) := by
  intro n
  induction n with
  | zero => intro j _ h i hi; obtain rfl : i = 0 := by omega
            exact h
  | succ n ih =>
    intro j ht h i hi
    simp only [tabOk, Bool.and_eq_true] at ht
    have hbeq := Nat.eq_of_beq_eq_true ht.1.1
    cases i with
    | zero => exact h
    | succ i =>
      have h' : IsPow (look k (j + 1)) ((j + 1) * e) := by
        rw [hbeq, Nat.add_mul, Nat.one_mul]
        exact h.mul h1
      have := ih (j + 1) ht.2 h' i (by omega)
      rwa [show j + 1 + i = j + (i + 1) by omega] at this

theorem look_one : IsPow 1 0 := ⟨by decide, by rw [np_one]; simp⟩

theorem look_two : IsPow 2 1 := by
  refine ⟨by decide, ?_⟩
  have : np 2 = X := by
    have := np_shl (a := 1) (by decide)
    rwa [np_one, mul_one] at this
  rw [this]
  simp

theorem powTab0 {j : Nat} (h : j < 256) : IsPow (look 0 j) j := by
  have h1 : IsPow (look 0 1) 1 := by
    have : look 0 1 = 2 := by decide +kernel
    rw [this]; exact look_two
  have h0 : IsPow (look 0 0) (0 * 1) := by
    have : look 0 0 = 1 := by decide +kernel
    rw [this]; exact look_one
  have := tabOk_spec 0 h1 255 0 (by decide +kernel) h0 j (by omega)
  simpa using this

theorem tab_next {k k' e : Nat} (hk : ∀ j, j < 256 → IsPow (look k j) (j * e)) (h0 : look k' 0 = 1)
    (h1 : look k' 1 = gmul (look k 255) (look k 1)) (ht : tabOk k' 255 0 = true) {j : Nat} (h : j < 256) :
    IsPow (look k' j) (j * (256 * e)) := by
  have hp1 : IsPow (look k' 1) (256 * e) := by
    rw [h1, show 256 * e = 255 * e + 1 * e by omega]
    exact (hk 255 (by decide)).mul (hk 1 (by decide))
  have hp0 : IsPow (look k' 0) (0 * (256 * e)) := by
    rw [h0, Nat.zero_mul]; exact look_one
  have := tabOk_spec k' hp1 255 0 ht hp0 j (by omega)
  simpa using this

theorem powTab1 {j : Nat} (h : j < 256) : IsPow (look 1 j) (j * 256) :=
  tab_next (k := 0) (e := 1) (fun j h => by simpa using powTab0 h) (by decide +kernel) (by decide +kernel) (by decide +kernel) h

theorem powTab2 {j : Nat} (h : j < 256) : IsPow (look 2 j) (j * 65536) :=
  tab_next (k := 1) (e := 256) (fun j h => powTab1 h) (by decide +kernel) (by decide +kernel) (by decide +kernel) h

theorem powTab3 {j : Nat} (h : j < 256) : IsPow (look 3 j) (j * 16777216) :=
  tab_next (k := 2) (e := 65536) (fun j h => powTab2 h) (by decide +kernel) (by decide +kernel) (by decide +kernel) h

theorem land_255 (z : Nat) : z.land 255 = z % 256 := Nat.and_two_pow_sub_one_eq_mod z 8

theorem gpow_spec {z : Nat} (h : z < 2 ^ 32) : IsPow (gpow z) z := by
  have s8 : z.shiftRight 8 = z / 256 := Nat.shiftRight_eq_div_pow z 8
  have s16 : z.shiftRight 16 = z / 65536 := Nat.shiftRight_eq_div_pow z 16
  have s24 : z.shiftRight 24 = z / 16777216 := Nat.shiftRight_eq_div_pow z 24
  unfold gpow
  rw [s8, s16, s24, land_255, land_255, land_255]
  have := ((powTab0 (j := z % 256) (by omega)).mul (powTab1 (j := z / 256 % 256) (by omega))).mul
    ((powTab2 (j := z / 65536 % 256) (by omega)).mul (powTab3 (j := z / 16777216) (by omega)))
  have e : z % 256 + z / 256 % 256 * 256 + (z / 65536 % 256 * 65536 + z / 16777216 * 16777216) = z := by omega
  rwa [e] at this

theorem gpow2_spec {a : Nat} (h : a < 2 ^ 16) : IsPow (gpow2 a) a := by
  have s8 : a.shiftRight 8 = a / 256 := Nat.shiftRight_eq_div_pow a 8
  unfold gpow2
  rw [s8, land_255]
  have := (powTab0 (j := a % 256) (by omega)).mul (powTab1 (j := a / 256) (by omega))
  have e : a % 256 + a / 256 * 256 = a := by omega
  rwa [e] at this

/-- What an entry of the certificate says. -/
theorem log_spec {z a : Nat} (hz : z < 2 ^ 32) (ha : a < 2 ^ 16) (h : logsOk [(z, a)] = true) :
    Q ∣ (1 + X ^ a - X ^ z : (ZMod 2)[X]) := by
  simp only [logsOk, Bool.and_true] at h
  have h := Nat.eq_of_beq_eq_true h
  obtain ⟨q1, h1⟩ := (gpow_spec hz).dvd
  obtain ⟨q2, h2⟩ := (gpow2_spec ha).dvd
  have h3 : np (gpow z) = np (gpow2 a) + 1 := by
    rw [h, ← np_one]
    exact np_xor _ _
  refine ⟨q1 - q2, ?_⟩
  linear_combination h1 - h2 - h3

end Verif.Crc
