import Verif.Basic

/-!
# Model and properties of socket/sc_sock.c: the table of the Windows poller

Entries are kept in chunks that never move. The first has 16 entries, and each further one as many as
all before it.
-/

namespace Verif.Poll.Table

/-- `__builtin_clz` of a 32-bit unsigned number that is not 0: how many bits are zero before the first
that is not. -/
def clz (i : Nat) : Nat := go 32
where
  go : Nat → Nat
    | 0 => 32
    | k + 1 => if i.testBit k then 31 - k else go k

/-- `sc_sock_number_of_meaningful_bits`, socket/sc_sock.c:1769-1772 -/
def meaningful (i : Nat) : Nat := 32 - clz i

/-- `sc_sock_poll_data_inner`, socket/sc_sock.c:1774-1790: chunk and place of entry `i`. Clearing a bit is
subtracting it where it is set. -/
def dataInner (i : Nat) : Nat × Nat :=
  if i < 16 then (0, i)
  else
    let n := meaningful i
    let x := n - 4
    let y := i &&& (0xffffffff ^^^ (1 <<< (n - 1)))
    (x, y)

/-- How many entries chunk `x` has: 16, 16, 32, 64, ... -/
def size : Nat → Nat
  | 0 => 16
  | x + 1 => 16 * 2 ^ x

/-- How many entries `k + 1` chunks have -/
def capacity (k : Nat) : Nat := 16 * 2 ^ k

theorem capacity_sum (k : Nat) : capacity k = ((List.range (k + 1)).map size).sum := by
  induction k with
  | zero => rfl
  | succ k ih =>
    rw [List.range_succ, List.map_append, List.sum_append_nat, ← ih]
    simp only [capacity, size, List.map_cons, List.map_nil, List.sum_cons, List.sum_nil]
    rw [Nat.pow_succ]
    omega

theorem clz_go {i n : Nat} (h1 : 2 ^ n ≤ i) (h2 : i < 2 ^ (n + 1)) : ∀ k, n < k → k ≤ 32 → clz.go i k = 31 - n := by
  intro k
  induction k with
  | zero => intro h; omega
  | succ k ih =>
    intro h3 h4
    unfold clz.go
    by_cases hk : k = n
    · subst hk
      have : i.testBit k = true := by
        rw [Nat.testBit_eq_decide_div_mod_eq]
        have : i / 2 ^ k = 1 := by
          have a : 1 ≤ i / 2 ^ k := (Nat.le_div_iff_mul_le (Nat.two_pow_pos k)).2 (by omega)
          have b : i / 2 ^ k < 2 := (Nat.div_lt_iff_lt_mul (Nat.two_pow_pos k)).2 (by rw [Nat.pow_succ] at h2; omega)
          omega
        simp [this]
      rw [if_pos this]
    · have : i.testBit k = false := Nat.testBit_lt_two_pow (Nat.lt_of_lt_of_le h2 (Nat.pow_le_pow_right (by decide) (by omega)))
      rw [this, if_neg (by decide)]
      exact ih (by omega) (by omega)

/-- How many bits a number takes -/
theorem meaningful_eq {i n : Nat} (h1 : 2 ^ n ≤ i) (h2 : i < 2 ^ (n + 1)) (hn : n < 32) : meaningful i = n + 1 := by
  unfold meaningful clz
  rw [clz_go h1 h2 32 (by omega) (by omega)]
  omega

/-- Clearing the first bit that is set -/
theorem clear_top {i n : Nat} (h1 : 2 ^ n ≤ i) (h2 : i < 2 ^ (n + 1)) (hn : n < 32) :
    i &&& (0xffffffff ^^^ (1 <<< n)) = i - 2 ^ n := by
  have hr : i - 2 ^ n < 2 ^ n := by rw [Nat.pow_succ] at h2; omega
  have hi : i = 2 ^ n + (i - 2 ^ n) := by omega
  generalize i - 2 ^ n = r at hr hi
  subst hi
  apply Nat.eq_of_testBit_eq
  intro j
  rw [Nat.testBit_and, Nat.testBit_xor, show (0xffffffff : Nat) = 2 ^ 32 - 1 by decide, Nat.testBit_two_pow_sub_one,
    Nat.shiftLeft_eq, Nat.one_mul]
  by_cases hj : j = n
  · subst hj
    rw [Nat.testBit_two_pow_self, Nat.testBit_lt_two_pow hr]
    simp [hn]
  · rw [Nat.testBit_two_pow_of_ne (Ne.symm hj)]
    by_cases hlt : j < n
    · rw [Nat.testBit_two_pow_add_gt hlt]
      simp [show j < 32 by omega]
    · have : n < j := by omega
      rw [Nat.testBit_lt_two_pow (Nat.lt_of_lt_of_le hr (Nat.pow_le_pow_right (by decide) (by omega)))]
      rw [Nat.testBit_lt_two_pow (x := 2 ^ n + r) (i := j) (Nat.lt_of_lt_of_le h2 (Nat.pow_le_pow_right (by decide) (by omega)))]
      simp

/-- Where entry `i` is: in the first chunk, or in the chunk `x` with `size x ≤ i < 2 * size x`, at the
distance from its beginning. -/
theorem dataInner_eq {i : Nat} (h : 16 ≤ i) (hi : i < 2 ^ 32) :
    ∃ x, dataInner i = (x + 1, i - size (x + 1)) ∧ size (x + 1) ≤ i ∧ i < 2 * size (x + 1) := by
  have h0 : i ≠ 0 := by omega
  have h1 := Nat.log2_self_le h0
  have h2 := Nat.lt_log2_self (n := i)
  generalize i.log2 = n at h1 h2
  have hn4 : 4 ≤ n := by
    apply Decidable.byContradiction
    intro hc
    have : 2 ^ (n + 1) ≤ 2 ^ 4 := Nat.pow_le_pow_right (by decide) (by omega)
    omega
  have hn : n < 32 := by
    apply Decidable.byContradiction
    intro hc
    have : 2 ^ 32 ≤ 2 ^ n := Nat.pow_le_pow_right (by decide) (by omega)
    omega
  have hs : size (n - 4 + 1) = 2 ^ n := by
    simp only [size]
    rw [show (16 : Nat) = 2 ^ 4 by decide, ← Nat.pow_add]
    congr 1
    omega
  refine ⟨n - 4, ?_, by rw [hs]; exact h1, by rw [hs, Nat.mul_comm, ← Nat.pow_succ]; exact h2⟩
  unfold dataInner
  rw [if_neg (by omega)]
  simp only
  rw [meaningful_eq h1 h2 hn, show n + 1 - 1 = n by omega, clear_top h1 h2 hn, hs, show n + 1 - 4 = n - 4 + 1 by omega]

/-- **C73**: every entry below the capacity of `k + 1` chunks is in one of them, within its bounds. -/
theorem in_bounds {i k : Nat} (hk : k < 16) (hi : i < capacity k) : (dataInner i).1 ≤ k ∧ (dataInner i).2 < size (dataInner i).1 := by
  by_cases h : i < 16
  · unfold dataInner; rw [if_pos h]; exact ⟨by simp, h⟩
  · have hc : capacity k ≤ 16 * 2 ^ 15 := Nat.mul_le_mul_left 16 (Nat.pow_le_pow_right (by decide) (by omega))
    obtain ⟨x, h1, h2, h3⟩ := dataInner_eq (Nat.le_of_not_lt h) (by omega)
    rw [h1]
    refine ⟨?_, by simp only; omega⟩
    apply Decidable.byContradiction
    intro hx
    simp only at hx
    have : capacity k ≤ size (x + 1) := Nat.mul_le_mul_left 16 (Nat.pow_le_pow_right (by decide) (by omega))
    omega

/-- **C73**: different entries are at different places. -/
theorem injective {i j : Nat} (hi : i < 2 ^ 32) (hj : j < 2 ^ 32) (h : dataInner i = dataInner j) : i = j := by
  by_cases h1 : i < 16 <;> by_cases h2 : j < 16
  · unfold dataInner at h
    rw [if_pos h1, if_pos h2] at h
    exact congrArg Prod.snd h
  · obtain ⟨x, h3, -, -⟩ := dataInner_eq (Nat.le_of_not_lt h2) hj
    rw [h3] at h
    unfold dataInner at h
    rw [if_pos h1] at h
    have := congrArg Prod.fst h
    simp only at this
    omega
  · obtain ⟨x, h3, -, -⟩ := dataInner_eq (Nat.le_of_not_lt h1) hi
    rw [h3] at h
    unfold dataInner at h
    rw [if_pos h2] at h
    have := congrArg Prod.fst h
    simp only at this
    omega
  · obtain ⟨x, h3, h4, -⟩ := dataInner_eq (Nat.le_of_not_lt h1) hi
    obtain ⟨y, h5, h6, -⟩ := dataInner_eq (Nat.le_of_not_lt h2) hj
    rw [h3, h5] at h
    have e1 := congrArg Prod.fst h
    have e2 := congrArg Prod.snd h
    simp only at e1 e2
    have : x = y := by omega
    subst this
    omega

/-- Every place is that of an entry below the capacity: no memory is wasted. -/
theorem surjective {k x y : Nat} (hk : k < 16) (hx : x ≤ k) (hy : y < size x) : ∃ i, i < capacity k ∧ dataInner i = (x, y) := by
  cases x with
  | zero =>
    refine ⟨y, ?_, ?_⟩
    · have : 1 ≤ 2 ^ k := Nat.one_le_two_pow
      simp only [size] at hy
      unfold capacity
      omega
    · unfold dataInner
      rw [if_pos (show y < 16 from hy)]
  | succ x =>
    have hs : size (x + 1) * 2 ≤ capacity k := by
      simp only [size, capacity]
      rw [Nat.mul_assoc, ← Nat.pow_succ]
      exact Nat.mul_le_mul_left 16 (Nat.pow_le_pow_right (by decide) (by omega))
    have h16 : 16 ≤ size (x + 1) := by
      have : 1 ≤ 2 ^ x := Nat.one_le_two_pow
      simp only [size]
      omega
    have hc : capacity k ≤ 16 * 2 ^ 15 := Nat.mul_le_mul_left 16 (Nat.pow_le_pow_right (by decide) (by omega))
    refine ⟨size (x + 1) + y, by omega, ?_⟩
    obtain ⟨x', h1, h2, h3⟩ := dataInner_eq (i := size (x + 1) + y) (by omega) (by omega)
    have : x' = x := by
      rcases Nat.lt_trichotomy x' x with hlt | heq | hgt
      · have : 2 * size (x' + 1) ≤ size (x + 1) := by
          simp only [size]
          rw [Nat.mul_left_comm, Nat.mul_comm 2, ← Nat.pow_succ]
          exact Nat.mul_le_mul_left 16 (Nat.pow_le_pow_right (by decide) (by omega))
        omega
      · exact heq
      · have : size (x + 1) * 2 ≤ size (x' + 1) := by
          simp only [size]
          rw [Nat.mul_assoc, ← Nat.pow_succ]
          exact Nat.mul_le_mul_left 16 (Nat.pow_le_pow_right (by decide) (by omega))
        omega
    subst this
    rw [h1]
    simp

example : (List.range 70).map dataInner = (List.range 16).map (fun y => (0, y)) ++ (List.range 16).map (fun y => (1, y)) ++
    (List.range 32).map (fun y => (2, y)) ++ (List.range 6).map (fun y => (3, y)) := by decide +kernel
example : dataInner 524287 = (15, 262143) := by decide +kernel

end Verif.Poll.Table
