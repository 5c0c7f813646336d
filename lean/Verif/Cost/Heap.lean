import Verif.Heap.Props
import Verif.Cost.Array

/-! # What a heap costs: growing, and the number of levels an element moves -/

namespace Verif.Heap

/-- The sizes of the block of a heap before and after each call of a history -/
def blocks (h : Heap δ) : List (Op δ) → Res (List Nat)
  | [] => .ok [h.elems.length]
  | op :: ops => do
    let (h', _) ← step h op
    let l ← blocks h' ops
    .ok (h.elems.length :: l)

/-- How often something is added, whether it succeeds or not -/
def adds : List (Op δ) → Nat
  | [] => 0
  | .add _ _ _ :: ops => adds ops + 1
  | _ :: ops => adds ops

theorem blocks_head {h : Heap δ} {ops : List (Op δ)} {l : List Nat} (hb : blocks h ops = .ok l) : l.head? = some h.elems.length := by
  cases ops with
  | nil => cases hb; rfl
  | cons op ops =>
    simp only [blocks] at hb
    obtain ⟨b, -, hb⟩ := Res.bind_eq_ok.1 hb
    obtain ⟨l', -, hb⟩ := Res.bind_eq_ok.1 hb
    cases hb; rfl

theorem adds_cons (op : Op δ) (ops : List (Op δ)) : adds (op :: ops) = adds [op] + adds ops := by
  cases op <;> simp [adds, Nat.add_comm]

theorem wr_length {m m' : List α} {i : Nat} {x : α} (h : wr m i x = .ok m') : m'.length = m.length := by
  obtain ⟨-, rfl⟩ := wr_eq_ok.1 h
  simp

theorem siftUp_length {key : Int} : ∀ {fuel : Nat} {m m' : List (Data δ)} {i j : Nat}, siftUp key fuel m i = .ok (m', j) → m'.length = m.length
  | 0, _, _, _, _, h => by cases h
  | fuel + 1, m, m', i, j, h => by
    unfold siftUp at h
    split at h
    · obtain ⟨p, -, h⟩ := Res.bind_eq_ok.1 h
      split at h
      · obtain ⟨m₁, hw, h⟩ := Res.bind_eq_ok.1 h
        rw [siftUp_length h, wr_length hw]
      · cases h; rfl
    · cases h; rfl

theorem siftDown_length {n : Nat} {lk : Int} : ∀ {fuel : Nat} {m m' : List (Data δ)} {i c j : Nat},
    siftDown n lk fuel m i c = .ok (m', j) → m'.length = m.length
  | 0, _, _, _, _, _, h => by cases h
  | fuel + 1, m, m', i, c, j, h => by
    unfold siftDown at h
    split at h
    · obtain ⟨c', -, h⟩ := Res.bind_eq_ok.1 h
      obtain ⟨x, -, h⟩ := Res.bind_eq_ok.1 h
      split at h
      · cases h; rfl
      · obtain ⟨m₁, hw, h⟩ := Res.bind_eq_ok.1 h
        rw [siftDown_length h, wr_length hw]
    · cases h; rfl

/-- An addition leaves the block, or finds that there is no room and doubles the capacity; the other calls leave it. -/
theorem step_block {h h' : Heap δ} {op : Op δ} {out : Out δ} (hs : step h op = .ok (h', out)) (hn : h.size + adds [op] < 2 ^ 64) :
    h'.size ≤ h.size + adds [op] ∧ (h'.elems.length = h.elems.length ∧ h'.cap = h.cap ∨
      adds [op] = 1 ∧ h.cap ≤ h.size + 1 ∧ h'.elems.length ≤ 2 * h'.cap ∧ h'.cap = if h.cap = 0 then 4 else 2 * h.cap) := by
  cases op with
  | add k d al =>
    simp only [step, Res.bind_eq_ok] at hs
    obtain ⟨⟨h₁, b⟩, ha, hs⟩ := hs
    cases hs
    have h1 : add64 h.size 1 = h.size + 1 := Nat.mod_eq_of_lt (by simpa [adds] using hn)
    unfold add at ha
    simp only [h1] at ha
    split at ha
    · split at ha
      · cases ha; exact ⟨Nat.le_refl _, .inl ⟨rfl, rfl⟩⟩
      · split at ha
        · cases ha; exact ⟨Nat.le_refl _, .inl ⟨rfl, rfl⟩⟩
        · obtain ⟨⟨m, i⟩, hu, ha⟩ := Res.bind_eq_ok.1 ha
          obtain ⟨m', hw, ha⟩ := Res.bind_eq_ok.1 ha
          cases ha
          refine ⟨Nat.le_refl _, .inr ⟨rfl, by omega, ?_, ?_⟩⟩
          · simp only
            rw [wr_length hw, siftUp_length hu, length_resized]
            generalize (if h.cap ≠ 0 then mul64 h.cap 2 else 4) = c
            unfold mul64
            simp only [esz]
            omega
          · simp only
            by_cases hz : h.cap = 0
            · simp [hz]
            · simp only [hz, ne_eq, not_false_eq_true, if_true, if_false]
              simp only [heapMax] at *
              unfold mul64
              omega
    · obtain ⟨⟨m, i⟩, hu, ha⟩ := Res.bind_eq_ok.1 ha
      obtain ⟨m', hw, ha⟩ := Res.bind_eq_ok.1 ha
      cases ha
      exact ⟨Nat.le_refl _, .inl ⟨by simp only; rw [wr_length hw, siftUp_length hu], rfl⟩⟩
  | pop =>
    simp only [step, Res.bind_eq_ok] at hs
    obtain ⟨⟨h₁, b⟩, ha, hs⟩ := hs
    cases hs
    unfold pop at ha
    split at ha
    · cases ha; exact ⟨Nat.le_add_right _ _, .inl ⟨rfl, rfl⟩⟩
    · simp only [Res.bind_eq_ok] at ha
      obtain ⟨x, -, m, hw, y, -, ⟨m', i⟩, hd, m'', hw', z, -, ha⟩ := ha
      cases ha
      refine ⟨by simp only; omega, .inl ⟨?_, rfl⟩⟩
      simp only
      rw [wr_length hw', siftDown_length hd, wr_length hw]
  | peek =>
    simp only [step, Res.bind_eq_ok] at hs
    obtain ⟨x, -, hs⟩ := hs
    cases hs
    exact ⟨Nat.le_add_right _ _, .inl ⟨rfl, rfl⟩⟩
  | clear =>
    cases hs
    exact ⟨Nat.zero_le _, .inl ⟨rfl, rfl⟩⟩

/-- What has been paid for: `n` elements were added and `k` copied before. -/
theorem blocks_copied (ops : List (Op δ)) : ∀ {h : Heap δ} {l : List Nat} {n k : Nat},
    n + adds ops < 2 ^ 64 → h.size ≤ n → h.elems.length ≤ 2 * h.cap → (k = 0 ∨ h.cap ≤ 2 * n ∧ k ≤ 2 * h.cap) →
    blocks h ops = .ok l → k + Cost.copied l ≤ 4 * (n + adds ops) := by
  induction ops with
  | nil =>
    intro h l n k hlt hn hc h0 hb
    cases hb
    simp [Cost.copied, adds]
    omega
  | cons op ops ih =>
    intro h l n k hlt hn hc h0 hb
    simp only [blocks] at hb
    obtain ⟨⟨h', o⟩, hs, hb⟩ := Res.bind_eq_ok.1 hb
    obtain ⟨l', hl', hb⟩ := Res.bind_eq_ok.1 hb
    cases hb
    rw [Cost.copied_cons (blocks_head hl'), adds_cons]
    rw [adds_cons] at hlt
    have hz : h.size + adds [op] < 2 ^ 64 := by omega
    simp only at hl' ⊢
    obtain ⟨hz', ⟨he, he'⟩ | ⟨ha, hf, he, he'⟩⟩ := step_block hs hz
    · rw [if_pos he.symm]
      have := ih (n := n + adds [op]) (k := k) (by omega) (by omega) (by omega) (by omega) hl'
      omega
    · by_cases hcz : h.cap = 0
      · rw [if_pos hcz] at he'
        have h00 : (if h.elems.length = h'.elems.length then 0 else h.elems.length) = 0 := by split <;> omega
        rw [h00]
        have := ih (n := n + adds [op]) (k := k) (by omega) (by omega) (by omega) (by omega) hl'
        omega
      · rw [if_neg hcz] at he'
        by_cases hel : h.elems.length = h'.elems.length
        · rw [if_pos hel]
          have := ih (n := n + adds [op]) (k := k) (by omega) (by omega) (by omega) (by omega) hl'
          omega
        · rw [if_neg hel]
          have := ih (n := n + adds [op]) (k := k + h.elems.length) (by omega) (by omega) (by omega) (by omega) hl'
          omega

/-- **Growing a heap costs a constant per addition**: in every history that starts with a new heap of any capacity, at most four times as
many elements are copied to larger blocks as were added, whether the allocations succeed or not.
Missing: buffers, for which it fails
(`buf_copies_violated`). -/
theorem heap_copies_partial {c : Nat} {al : Alloc (Data δ)} {ops : List (Op δ)} {l : List Nat} (hn : adds ops < 2 ^ 64)
    (h : blocks (init c al).1 ops = .ok l) : Cost.copied l ≤ 4 * adds ops := by
  have hi : (init c al).1.size = 0 ∧ (init c al).1.elems.length ≤ 2 * (init c al).1.cap := by
    unfold init
    simp only
    split
    · exact ⟨rfl, Nat.le_refl _⟩
    · split
      · exact ⟨rfl, Nat.le_refl _⟩
      · split
        · exact ⟨rfl, Nat.le_refl _⟩
        · refine ⟨rfl, ?_⟩
          simp only [length_resized]
          unfold mul64
          simp only [esz]
          omega
  have := blocks_copied ops (n := 0) (k := 0) (h := (init c al).1) (by omega) (by omega) hi.2 (.inl rfl) h
  omega

/-- Five additions to a heap of capacity 2: blocks of 2, 8 and 16. -/
example : blocks (init 2 (some fun _ => (⟨0, 0⟩ : Data Nat))).1 (List.replicate 5 (.add 3 7 (some fun _ => ⟨0, 0⟩))) =
    .ok [2, 2, 8, 8, 16, 16] := by decide +kernel

end Verif.Heap
