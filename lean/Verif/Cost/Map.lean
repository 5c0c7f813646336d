import Verif.Map.Props
import Verif.Cost.Array

/-! # What growing a map costs -/

set_option linter.unusedSectionVars false

namespace Verif.Map

variable {K C V : Type} [DecidableEq K] [DecidableEq C]

/-- The numbers of cells of a map before and after each call of a history -/
def blocks (k : Kind K C) (v0 : V) (m : Map K V) : List (Op K V) → Res (List Nat)
  | [] => .ok [m.cap]
  | op :: ops => do
    let (m', _) ← step k v0 m op
    let l ← blocks k v0 m' ops
    .ok (m.cap :: l)

/-- How often something is put into the map, whether it succeeds or not, and whether the key is new or not -/
def puts : List (Op K V) → Nat
  | [] => 0
  | .put _ _ _ :: ops => puts ops + 1
  | _ :: ops => puts ops

theorem blocks_head {k : Kind K C} {v0 : V} {m : Map K V} {ops : List (Op K V)} {l : List Nat} (hb : blocks k v0 m ops = .ok l) :
    l.head? = some m.cap := by
  cases ops with
  | nil => cases hb; rfl
  | cons op ops =>
    simp only [blocks] at hb
    obtain ⟨b, -, hb⟩ := Res.bind_eq_ok.1 hb
    obtain ⟨l', -, hb⟩ := Res.bind_eq_ok.1 hb
    cases hb; rfl

theorem puts_cons (op : Op K V) (ops : List (Op K V)) : puts (op :: ops) = puts [op] + puts ops := by
  cases op <;> simp [puts, Nat.add_comm]

theorem remap_cap {k : Kind K C} {v0 : V} {al b : Bool} {m m' : Map K V} {f : Spec.FMap C V} (r : Rep k m f)
    (h : remap k v0 al m = .ok (m', b)) :
    m'.size = m.size ∧ (m'.cap = m.cap ∨ m.cap = 1 ∧ m'.cap = 8 ∨ m.cap ≤ 4 * m.size ∧ m'.cap = 2 * m.cap) := by
  unfold remap at h
  split at h
  · cases h; exact ⟨rfl, .inl rfl⟩
  · rename_i hlt
    split at h
    · cases h; exact ⟨rfl, .inl rfl⟩
    · rename_i c t ha
      split at h
      · cases h
      · obtain ⟨n, -, h⟩ := Res.bind_eq_ok.1 h
        cases h
        refine ⟨rfl, .inr ?_⟩
        unfold alloc at ha
        split at ha
        · cases ha
        · rename_i c' hc'
          split at ha
          · cases ha
            unfold allocCap at hc'
            split at hc'
            · cases hc'
            · rename_i hm
              cases hc'
              rcases r.shape with ⟨-, h1, -⟩ | ⟨-, h8, hre⟩
              · left
                exact ⟨h1, by simp only [h1]; decide⟩
              · right
                constructor
                · have h25 : m.cap * 25 ≤ m.cap * m.loadFac := Nat.mul_le_mul_left _ r.lf.1
                  have hre' : m.remap = m.cap * m.loadFac / 100 := hre
                  obtain ⟨j, hj, hj'⟩ := r.cap
                  have h4 : m.cap % 4 = 0 := by
                    match j, hj with
                    | 0, hj => omega
                    | 1, hj => omega
                    | j + 2, hj => rw [hj, Nat.pow_add]; omega
                  omega
                · obtain ⟨j, hj, hj'⟩ := r.cap
                  have hj30 : j + 1 ≤ 31 := by
                    have : ¬ j = 31 := fun h31 => by rw [h31] at hj; omega
                    omega
                  have h2 : m.cap * 2 = 2 ^ (j + 1) := by rw [hj, Nat.pow_succ]
                  simp only
                  rw [if_neg (by omega), h2, Nat.mod_eq_of_lt (by
                    have : 2 ^ (j + 1) ≤ 2 ^ 31 := Nat.pow_le_pow_right (by omega) hj30
                    omega), nextPow2_pow hj30, ← h2, Nat.mul_comm]
          · cases ha

theorem put_cap {k : Kind K C} {v0 v r : V} {al : Bool} {m m' : Map K V} {f : Spec.FMap C V} (rp : Rep k m f) {key : K}
    (h : put k v0 al m key v = .ok (m', r)) :
    m'.size ≤ m.size + 1 ∧ (m'.cap = m.cap ∨ m.cap = 1 ∧ m'.cap = 8 ∨ m.cap ≤ 4 * m.size ∧ m'.cap = 2 * m.cap) := by
  have r0 : Rep k { m with oom := false } f :=
    ⟨rp.cap, rp.len, rp.good, rp.size, rp.mem1, rp.lf, rp.shape, rp.bound, rp.rep⟩
  unfold put at h
  simp only at h
  obtain ⟨⟨m₁, b⟩, hm, h⟩ := Res.bind_eq_ok.1 h
  obtain ⟨hs, hc⟩ := remap_cap r0 hm
  simp only at hs hc
  have hadd : ∀ a b : Nat, add32 a b ≤ a + b := fun a b => Nat.mod_le _ _
  cases b with
  | false => cases h; exact ⟨by simp only; omega, hc⟩
  | true =>
    simp only [Bool.not_true, Bool.false_eq_true, if_false] at h
    split at h
    · cases h
      refine ⟨?_, hc⟩
      simp only
      refine Nat.le_trans (hadd _ _) ?_
      split <;> omega
    · obtain ⟨p, -, h⟩ := Res.bind_eq_ok.1 h
      obtain ⟨c, -, h⟩ := Res.bind_eq_ok.1 h
      obtain ⟨mm, -, h⟩ := Res.bind_eq_ok.1 h
      cases h
      refine ⟨?_, hc⟩
      simp only
      have := hadd m₁.size 1
      split <;> omega

theorem del_cap {k : Kind K C} {v0 r : V} {m m' : Map K V} {f f' : Spec.FMap C V} (rp : Rep k m f) (rp' : Rep k m' f') {key : K}
    (h : del k v0 m key = .ok (m', r)) : m'.size ≤ m.size ∧ m'.cap = m.cap := by
  have h1 := rp.remap_lt
  have h2 := rp'.remap_lt
  have h3 := rp.bound
  have h4 := rp'.bound
  have hsub : ∀ a b : Nat, a < 2 ^ 31 → b ≤ 1 → sub32 a b < 2 ^ 31 → sub32 a b ≤ a := by
    intro a b ha hb hs
    unfold sub32 at *
    omega
  unfold del at h
  simp only at h
  split at h
  · cases h
    exact ⟨hsub _ _ (by omega) (by split <;> omega) (by simp only at h4 h2; omega), rfl⟩
  · obtain ⟨p, -, h⟩ := Res.bind_eq_ok.1 h
    obtain ⟨c, -, h⟩ := Res.bind_eq_ok.1 h
    split at h
    · cases h; exact ⟨Nat.le_refl _, rfl⟩
    · obtain ⟨m₁, -, h⟩ := Res.bind_eq_ok.1 h
      obtain ⟨m₂, -, h⟩ := Res.bind_eq_ok.1 h
      cases h
      exact ⟨hsub _ _ (by omega) (by omega) (by simp only at h4 h2; omega), rfl⟩

/-- A put leaves the table, or makes the first one, or finds a quarter of the cells in use at least and doubles the table; the other calls
leave it. -/
theorem step_block {k : Kind K C} {v0 : V} (hz : ZeroOk k) {m m' : Map K V} {f : Spec.FMap C V} (r : Rep k m f) {op : Op K V} {o : Out V}
    (h : step k v0 m op = .ok (m', o)) :
    (∃ f', Rep k m' f') ∧ m'.size ≤ m.size + puts [op] ∧
      (m'.cap = m.cap ∨ puts [op] = 1 ∧ (m.cap = 1 ∧ m'.cap = 8 ∨ m.cap ≤ 4 * m.size ∧ m'.cap = 2 * m.cap)) := by
  obtain ⟨m₁, o₁, f', h', -, r'⟩ := step_spec (v0 := v0) r hz op
  rw [h] at h'
  cases h'
  refine ⟨⟨f', r'⟩, ?_⟩
  cases op with
  | put key v al =>
    simp only [step] at h
    obtain ⟨⟨m₁, x⟩, hp, h⟩ := Res.bind_eq_ok.1 h
    cases h
    obtain ⟨hs, hc⟩ := put_cap r hp
    exact ⟨hs, hc.imp id fun h => ⟨rfl, h⟩⟩
  | get key =>
    simp only [step] at h
    obtain ⟨⟨m₁, x⟩, hp, h⟩ := Res.bind_eq_ok.1 h
    cases h
    rw [get_spec r hz key] at hp
    cases hp
    exact ⟨Nat.le_refl _, .inl rfl⟩
  | del key =>
    simp only [step] at h
    obtain ⟨⟨m₁, x⟩, hp, h⟩ := Res.bind_eq_ok.1 h
    cases h
    obtain ⟨hs, hc⟩ := del_cap r r' hp
    exact ⟨hs, .inl hc⟩
  | clear =>
    simp only [step] at h
    cases h
    unfold clear
    split
    · exact ⟨Nat.zero_le _, .inl rfl⟩
    · exact ⟨Nat.le_refl _, .inl rfl⟩

/-- What has been paid for: there were `n` puts and `j` cells visited before. -/
theorem blocks_copied {k : Kind K C} {v0 : V} (hz : ZeroOk k) (ops : List (Op K V)) : ∀ {m : Map K V} {f : Spec.FMap C V} {l : List Nat} {n j : Nat},
    Rep k m f → m.size ≤ n → (j = 0 ∨ m.cap ≤ 8 * n ∧ j ≤ m.cap) →
    blocks k v0 m ops = .ok l → j + Cost.copied l ≤ 8 * (n + puts ops) := by
  induction ops with
  | nil =>
    intro m f l n j r hn h0 hb
    cases hb
    simp [Cost.copied, puts]
    omega
  | cons op ops ih =>
    intro m f l n j r hn h0 hb
    simp only [blocks] at hb
    obtain ⟨⟨m', o⟩, hs, hb⟩ := Res.bind_eq_ok.1 hb
    obtain ⟨l', hl', hb⟩ := Res.bind_eq_ok.1 hb
    cases hb
    simp only at hl'
    rw [Cost.copied_cons (blocks_head hl'), puts_cons]
    obtain ⟨⟨f', r'⟩, hz', he | ⟨ha, ⟨h1, h8⟩ | ⟨h4, h2⟩⟩⟩ := step_block hz r hs
    · rw [if_pos he.symm]
      have := ih (n := n + puts [op]) (j := j) r' (by omega) (by omega) hl'
      omega
    · rw [if_neg (by omega)]
      have := ih (n := n + puts [op]) (j := j + m.cap) r' (by omega) (by omega) hl'
      omega
    · have := r.cap.bounds
      rw [if_neg (by omega)]
      have := ih (n := n + puts [op]) (j := j + m.cap) r' (by omega) (by omega) hl'
      omega

/-- **Growing a map costs a constant per put**: in every history that starts with a new map, of any kind, with any load factor and any
capacity, at most eight times as many cells are visited to make larger tables as there were puts, whether the allocations succeed or not.
Missing: buffers, for which it fails
(`buf_copies_violated`). -/
theorem map_copies_partial {k : Kind K C} {v0 : V} (hz : ZeroOk k) {m : Map K V} (hm : Started k v0 m) {ops : List (Op K V)} {l : List Nat}
    (h : blocks k v0 m ops = .ok l) : Cost.copied l ≤ 8 * puts ops := by
  obtain ⟨al, g, cap, lf, hcap, hinit⟩ := hm
  have r := init_rep hinit hcap
  have hs : m.size = 0 := by
    unfold init at hinit
    simp only at hinit
    generalize (if lf = 0 then 75 else lf) = F at hinit
    split at hinit
    · cases hinit
    · split at hinit
      · cases hinit; rfl
      · split at hinit
        · cases hinit
        · cases hinit; rfl
  have := blocks_copied hz ops (n := 0) (j := 0) r (by omega) (.inl rfl) h
  omega

/-- Ten puts into a map that was made without cells: tables of 8 and 16. -/
example : blocks u32Kind 0 { emptyMap u32Kind 0 with loadFac := 75 } ((List.range 10).map fun i => .put i (i * i) true) =
    .ok [1, 8, 8, 8, 8, 8, 8, 16, 16, 16, 16] := by decide +kernel

end Verif.Map
