import Verif.Array.Props

/-!
# What growing costs

When an object gets a larger block, what the old block has is copied. The sizes of the block during a history tell how much that is.
-/

namespace Verif.Cost

/-- The elements copied while a block had these sizes one after the other: each time the size changes, all of the old block. -/
def copied : List Nat → Nat
  | a :: b :: l => (if a = b then 0 else a) + copied (b :: l)
  | _ => 0

theorem copied_cons {a b : Nat} {l : List Nat} (h : l.head? = some b) : copied (a :: l) = (if a = b then 0 else a) + copied l := by
  cases l with
  | nil => cases h
  | cons c l => cases h; rfl

end Verif.Cost

namespace Verif.Array

/-- The sizes of the block of an array before and after each call of a history -/
def blocks (sz : Nat) (a : Arr α) : List (Op α) → Res (List Nat)
  | [] => .ok [a.elems.length]
  | op :: ops => do
    let b ← step sz a op
    let l ← blocks sz b ops
    .ok (a.elems.length :: l)

/-- How often something is added, whether it succeeds or not -/
def adds : List (Op α) → Nat
  | [] => 0
  | .add _ _ :: ops => adds ops + 1
  | _ :: ops => adds ops

theorem blocks_head {sz : Nat} {a : Arr α} {ops : List (Op α)} {l : List Nat} (h : blocks sz a ops = .ok l) :
    l.head? = some a.elems.length := by
  cases ops with
  | nil => cases h; rfl
  | cons op ops =>
    simp only [blocks] at h
    obtain ⟨b, -, h⟩ := Res.bind_eq_ok.1 h
    obtain ⟨l', -, h⟩ := Res.bind_eq_ok.1 h
    cases h; rfl

/-- A call that is not an addition leaves the block; an addition leaves it too, or finds it full and doubles it. -/
theorem step_block {sz : Nat} (hsz : 0 < sz) (h8 : 8 * sz ≤ SIZE_MAX) {a b : Arr α} (w : WF sz a) {op : Op α} (h : step sz a op = .ok b) :
    WF sz b ∧ (b.elems.length = a.elems.length ∧ b.size ≤ a.size + adds [op] ∨
      adds [op] = 1 ∧ a.size = a.elems.length ∧ b.size = a.size + 1 ∧
      b.elems.length = if a.elems.length = 0 then 8 else 2 * a.elems.length) := by
  have hl := w.len
  have hs := w.size_le
  cases op with
  | add k al =>
    simp only [step] at h
    rcases add_cases hsz h8 w al k with ⟨h', -⟩ | ⟨a', h', w', -, -, hz⟩
    · rw [h'] at h; cases h
      exact ⟨⟨w.len, w.size_le, w.bytes⟩, .inl ⟨rfl, by simp [adds]⟩⟩
    · rw [h'] at h; cases h
      refine ⟨w', ?_⟩
      have hl' := w'.len
      by_cases hc : a.cap = a.size
      · right
        refine ⟨rfl, by omega, hz, ?_⟩
        unfold add at h'
        simp only [hc, if_true] at h'
        split at h'
        · cases h'; simp at hz
        · split at h'
          · cases h'; simp at hz
          · obtain ⟨e, he, h'⟩ := Res.bind_eq_ok.1 h'
            cases h'
            simp only at hl'
            rw [hl', hl, hc]
            split
            · rfl
            · have hm : a.size * sz ≤ SIZE_MAX := by rw [← hc]; exact w.bytes
              rename_i hle _ _ _
              have : a.size ≤ SIZE_MAX / sz / 2 := by omega
              have h2 : SIZE_MAX / sz ≤ SIZE_MAX := Nat.div_le_self _ _
              have h3 : a.size * 2 < 2 ^ 64 := by omega
              unfold mul64
              rw [Nat.mod_eq_of_lt h3, Nat.mul_comm]
      · left
        unfold add at h'
        simp only [if_neg hc] at h'
        obtain ⟨e, he, h'⟩ := Res.bind_eq_ok.1 h'
        cases h'
        simp only at hl'
        exact ⟨by simp only [hl', hl], by simp [adds]⟩
  | del i =>
    simp only [step] at h
    have hi : i < a.size := by
      unfold del at h
      obtain ⟨u, hc, -⟩ := Res.bind_eq_ok.1 h
      false_or_by_contra
      rename_i hi
      simp [hi] at hc
    obtain ⟨a', h', w', -⟩ := del_spec w hi
    rw [h'] at h; cases h
    refine ⟨w', .inl ?_⟩
    unfold del at h'
    simp only [hi, decide_true, cassert_true, Res.ok_bind] at h'
    have hb : b.cap = a.cap ∧ b.size = a.size - 1 := by
      split at h' <;> obtain ⟨e, he, h'⟩ := Res.bind_eq_ok.1 h' <;> cases h' <;> exact ⟨rfl, rfl⟩
    exact ⟨by rw [w'.len, hl, hb.1], by omega⟩
  | delUnordered i =>
    simp only [step] at h
    unfold delUnordered at h
    obtain ⟨-, hc, h⟩ := Res.bind_eq_ok.1 h
    obtain ⟨x, hx, h⟩ := Res.bind_eq_ok.1 h
    obtain ⟨e, he, h⟩ := Res.bind_eq_ok.1 h
    obtain ⟨-, rfl⟩ := wr_eq_ok.1 he
    cases h
    exact ⟨⟨by simpa using hl, by simp only; omega, w.bytes⟩, .inl ⟨by simp, by simp only; omega⟩⟩
  | delLast =>
    simp only [step] at h
    unfold delLast at h
    obtain ⟨-, hc, h⟩ := Res.bind_eq_ok.1 h
    cases h
    exact ⟨⟨hl, by simp only; omega, w.bytes⟩, .inl ⟨rfl, by simp only; omega⟩⟩
  | clear =>
    cases h
    exact ⟨⟨w.len, Nat.zero_le _, w.bytes⟩, .inl ⟨rfl, Nat.zero_le _⟩⟩

theorem adds_cons (op : Op α) (ops : List (Op α)) : adds (op :: ops) = adds [op] + adds ops := by
  cases op <;> simp [adds, Nat.add_comm]

/-- What has been paid for: `n` elements were added and `k` copied before. -/
theorem blocks_copied {sz : Nat} (hsz : 0 < sz) (h8 : 8 * sz ≤ SIZE_MAX) (ops : List (Op α)) : ∀ {a : Arr α} {l : List Nat} {n k : Nat},
    WF sz a → a.size ≤ n →
    (a.elems.length = 0 ∧ k = 0 ∨ a.elems.length = 8 ∧ k = 0 ∨ 8 < a.elems.length ∧ a.elems.length ≤ 2 * n ∧ k + 8 ≤ a.elems.length) →
    blocks sz a ops = .ok l → k + Cost.copied l ≤ 2 * (n + adds ops) := by
  induction ops with
  | nil =>
    intro a l n k w hn h0 h
    cases h
    simp [Cost.copied, adds]
    omega
  | cons op ops ih =>
    intro a l n k w hn h0 h
    simp only [blocks] at h
    obtain ⟨b, hb, h⟩ := Res.bind_eq_ok.1 h
    obtain ⟨l', hl', h⟩ := Res.bind_eq_ok.1 h
    cases h
    rw [Cost.copied_cons (blocks_head hl'), adds_cons]
    obtain ⟨w', ⟨he, hs⟩ | ⟨ha, hf, hs, he⟩⟩ := step_block hsz h8 w hb
    · rw [if_pos he.symm]
      have := ih (n := n + adds [op]) (k := k) w' (by omega) (by omega) hl'
      omega
    · by_cases hz : a.elems.length = 0
      · rw [if_pos hz] at he
        have := ih (n := n + adds [op]) (k := k) w' (by omega) (by omega) hl'
        rw [if_neg (by omega)]
        omega
      · rw [if_neg hz] at he
        rw [if_neg (by omega)]
        have := ih (n := n + adds [op]) (k := k + a.elems.length) w' (by omega) (by omega) hl'
        omega

/-- **Growing an array costs a constant per addition**: in every history that starts with an empty array, at most twice as many
elements are copied to larger blocks as were added, whether the allocations succeed or not.
Missing: buffers, for which it fails
(`buf_copies_violated`). -/
theorem array_copies_partial {sz : Nat} (hsz : 0 < sz) (h8 : 8 * sz ≤ SIZE_MAX) {ops : List (Op α)} {l : List Nat}
    (h : blocks sz init ops = .ok l) : Cost.copied l ≤ 2 * adds ops := by
  have := blocks_copied hsz h8 ops (n := 0) (k := 0) (a := init) ⟨rfl, Nat.le_refl _, by simp [init]⟩ (Nat.le_refl _) (.inl ⟨rfl, rfl⟩) h
  omega

/-- Twenty additions: blocks of 8, 16 and 32, and 24 elements are copied. -/
example : blocks 4 (init : Arr Nat) (List.replicate 20 (.add 7 (some fun _ => 0))) =
    .ok (0 :: (List.replicate 8 8 ++ List.replicate 8 16 ++ List.replicate 4 32)) ∧
    Cost.copied (0 :: (List.replicate 8 8 ++ List.replicate 8 16 ++ List.replicate 4 32)) = 24 := by
  constructor <;> decide +kernel

end Verif.Array
