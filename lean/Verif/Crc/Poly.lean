import Verif.Crc.Hw
import Verif.Crc.Spec
import Mathlib.Algebra.CharP.Two
import Mathlib.Algebra.CharP.Lemmas
import Mathlib.RingTheory.Coprime.Lemmas
import Mathlib.Tactic.Ring
import Mathlib.Tactic.LinearCombination
import Mathlib.Tactic.ComputeDegree

namespace Verif.Crc

open Polynomial

theorem two_eq : (2 : (ZMod 2)[X]) = 0 := CharTwo.two_eq_zero

theorem coef_xor (a b : Bool) : coef (a ^^ b) = coef a + coef b := by
  cases a <;> cases b <;> simp [coef]
  exact (CharTwo.add_self_eq_zero 1).symm

theorem poly_append (l m : List Bool) : poly (l ++ m) = poly l * X ^ m.length + poly m := by
  induction l with
  | nil => simp [poly]
  | cons b l ih =>
    rw [List.cons_append, poly, poly, ih, List.length_append]
    ring

theorem poly_xor : ∀ {l m : List Bool}, l.length = m.length →
    poly (List.zipWith (· ^^ ·) l m) = poly l + poly m := by
  intro l
  induction l with
  | nil => intro m h; cases m with
    | nil => simp [poly]
    | cons => simp at h
  | cons a l ih =>
    intro m h
    cases m with
    | nil => simp at h
    | cons b m =>
      simp only [List.length_cons, Nat.add_right_cancel_iff] at h
      rw [List.zipWith_cons_cons, poly, poly, poly, ih h, coef_xor, List.length_zipWith, h, Nat.min_self]
      ring

theorem poly_deg (l : List Bool) : (poly l).degree < l.length := by
  induction l with
  | nil => simp [poly]
  | cons b l ih =>
    rw [poly]
    refine lt_of_le_of_lt (degree_add_le _ _) (max_lt ?_ ?_)
    · have : (coef b * X ^ l.length : (ZMod 2)[X]).degree ≤ l.length := by
        cases b <;> simp [coef]
      refine lt_of_le_of_lt this ?_
      simp only [List.length_cons, Nat.cast_lt]
      omega
    · refine lt_of_lt_of_le ih ?_
      simp only [List.length_cons, Nat.cast_le]
      omega

theorem poly_inj : ∀ {l m : List Bool}, l.length = m.length → poly l = poly m → l = m := by
  intro l
  induction l with
  | nil => intro m h _; cases m with
    | nil => rfl
    | cons => simp at h
  | cons a l ih =>
    intro m h e
    cases m with
    | nil => simp at h
    | cons b m =>
      simp only [List.length_cons, Nat.add_right_cancel_iff] at h
      rw [poly, poly, h] at e
      have hc := congrArg (fun p => p.coeff m.length) e
      have h1 : (poly l).coeff m.length = 0 := by
        apply coeff_eq_zero_of_degree_lt; rw [← h]; exact poly_deg l
      have h2 : (poly m).coeff m.length = 0 := coeff_eq_zero_of_degree_lt (poly_deg m)
      have hab : a = b := by
        simp only [coeff_add, h1, h2, add_zero] at hc
        cases a <;> cases b <;> simp [coef] at hc ⊢
      subst hab
      rw [ih h (add_left_cancel e)]

theorem length_bitsOf {w : Nat} (v : BitVec w) : (bitsOf v).length = w := by simp [bitsOf]

theorem bitsOf_inj {w : Nat} {u v : BitVec w} (h : bitsOf u = bitsOf v) : u = v := by
  apply BitVec.eq_of_getLsbD_eq
  intro i hi
  have := congrArg (fun l => l[i]?) h
  simpa [bitsOf, hi] using this

theorem bitsOf_xor {w : Nat} (u v : BitVec w) :
    bitsOf (u ^^^ v) = List.zipWith (· ^^ ·) (bitsOf u) (bitsOf v) := by
  apply List.ext_getElem?
  intro i
  by_cases h : i < w
  · simp [bitsOf, h]
  · simp [bitsOf, h]

theorem bitsOf_shift (c : BitVec 32) : bitsOf (c >>> 1) = (bitsOf c).tail ++ [false] := by
  apply List.ext_getElem?
  intro i
  by_cases h : i < 31
  · rw [List.getElem?_append_left (by simp [bitsOf]; omega)]
    simp [bitsOf, show i < 32 by omega, Nat.add_comm 1 i, h]
  · by_cases h2 : i = 31
    · subst h2
      simp [bitsOf]
    · simp [bitsOf]; grind

theorem bitsOf_cons (c : BitVec 32) : bitsOf c = c.getLsbD 0 :: (bitsOf c).tail := by
  unfold bitsOf
  rw [show List.range 32 = 0 :: (List.range 31).map (· + 1) by decide]
  simp

/-- The polynomial of the register. -/
noncomputable def val (c : BitVec 32) : (ZMod 2)[X] := poly (bitsOf c)

theorem val_xor (a b : BitVec 32) : val (a ^^^ b) = val a + val b := by
  rw [val, bitsOf_xor, poly_xor (by simp [length_bitsOf])]
  rfl

theorem val_inj {a b : BitVec 32} (h : val a = val b) : a = b :=
  bitsOf_inj (poly_inj (by simp [length_bitsOf]) h)

theorem val_POLY : val POLY = G - X ^ 32 := by
  have : bitsOf POLY = [false, false, false, true, true, true, true, false, true, true, false, true, true, true, false, false, false, true, true, false, true, true, true, true, false, true, false, false, false, false, false, true] := by decide +kernel
  rw [val, this]
  simp [poly, coef, G]
  ring

theorem val_shift (c : BitVec 32) : val (c >>> 1) = X * val c - coef (c.getLsbD 0) * X ^ 32 := by
  have hl : (bitsOf c).tail.length = 31 := by simp [length_bitsOf]
  rw [val, val, bitsOf_shift, poly_append]
  conv => rhs; rw [bitsOf_cons c, poly, hl]
  have e : poly [false] = 0 := by simp [poly, coef]
  rw [e, List.length_singleton]
  ring

theorem G_monic : G.Monic := by
  unfold G
  monicity!

theorem G_natDegree : G.natDegree = 32 := by
  unfold G
  compute_degree!

theorem G_degree : G.degree = 32 := by
  rw [degree_eq_natDegree G_monic.ne_zero, G_natDegree]; rfl

theorem val_deg (c : BitVec 32) : (val c).degree < G.degree := by
  have := poly_deg (bitsOf c)
  rw [length_bitsOf] at this
  rw [G_degree]
  exact this

/-- One bit: the register is multiplied by `X`, the bit is added at `X ^ 32`. -/
theorem val_hwBit (c : BitVec 32) (b : Bool) :
    G ∣ val (hwBit c b) - (X * val c + coef b * X ^ 32) := by
  rw [hwBit]
  generalize hc : c.getLsbD 0 = a
  cases a <;> cases b
  · simp only [Bool.xor_self, Bool.false_eq_true, if_false, val_shift, hc]
    simp [coef]
  · simp only [Bool.false_xor, if_true, val_xor, val_shift, hc, val_POLY]
    simp only [coef, Bool.false_eq_true, if_false, if_true]
    refine ⟨1, ?_⟩
    linear_combination (-X ^ 32) * two_eq
  · simp only [Bool.xor_false, if_true, val_xor, val_shift, hc, val_POLY]
    simp only [coef, Bool.false_eq_true, if_false, if_true]
    refine ⟨1, ?_⟩
    linear_combination (-X ^ 32) * two_eq
  · simp only [Bool.xor_self, Bool.false_eq_true, if_false, val_shift, hc]
    simp only [coef, if_true]
    refine ⟨0, ?_⟩
    linear_combination (-X ^ 32) * two_eq

theorem val_foldl (l : List Bool) : ∀ c : BitVec 32,
    G ∣ val (l.foldl hwBit c) - (val c * X ^ l.length + poly l * X ^ 32) := by
  induction l with
  | nil => intro c; simp [poly]
  | cons b l ih =>
    intro c
    obtain ⟨q1, h1⟩ := ih (hwBit c b)
    obtain ⟨q2, h2⟩ := val_hwBit c b
    rw [List.foldl_cons, poly, List.length_cons]
    refine ⟨q1 + q2 * X ^ l.length, ?_⟩
    linear_combination h1 + X ^ l.length * h2

theorem bits_foldl (data : List UInt8) : ∀ c : BitVec 32, (bits data).foldl hwBit c = run c data := by
  induction data with
  | nil => intro c; rfl
  | cons b data ih =>
    intro c
    rw [bits, List.flatMap_cons, List.foldl_append]
    show (bits data).foldl hwBit _ = run (feed c b) data
    rw [ih, ← mmU8_eq]
    rw [mmU8, bitsOf, List.foldl_map]

theorem length_bits (data : List UInt8) : (bits data).length = 8 * data.length := by
  induction data with
  | nil => rfl
  | cons b data ih =>
    rw [bits, List.flatMap_cons, List.length_append, length_bitsOf]
    show 8 + (bits data).length = _
    rw [ih, List.length_cons]; omega

theorem run_mod (c : BitVec 32) (data : List UInt8) :
    val (run c data) = (poly (bits data) * X ^ 32 + val c * X ^ (8 * data.length)) %ₘ G := by
  rw [← (modByMonic_eq_self_iff G_monic).2 (val_deg (run c data))]
  apply modByMonic_eq_of_dvd_sub G_monic
  have := val_foldl (bits data) c
  rw [bits_foldl, length_bits] at this
  rwa [add_comm]

theorem isCrc_iff (c : BitVec 32) (data : List UInt8) (r : BitVec 32) :
    IsCrc c data r ↔ r = ~~~ run (~~~ c) data := by
  unfold IsCrc
  rw [show poly (bitsOf (~~~ c)) = val (~~~ c) from rfl, ← run_mod]
  constructor
  · intro h
    rw [← val_inj h, BitVec.not_not]
  · rintro rfl
    rw [BitVec.not_not]
    rfl

end Verif.Crc
