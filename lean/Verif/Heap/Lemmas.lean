import Verif.Heap.Spec

/-! # Helper lemmas for the heap model -/

namespace Verif.Heap

variable {δ : Type}

/-- Key in cell `j` (0 outside the block). -/
def keyAt (m : List (Data δ)) (j : Nat) : Int := (m[j]?.map Data.key).getD 0

theorem keyAt_set {m : List (Data δ)} {i j : Nat} {x : Data δ} (h : i < m.length) :
    keyAt (m.set i x) j = if j = i then x.key else keyAt m j := by
  unfold keyAt
  by_cases hj : j = i
  · subst hj; simp [h]
  · rw [List.getElem?_set_ne (by omega)]; simp [hj]

theorem keyAt_of_getElem? {m : List (Data δ)} {j : Nat} {x : Data δ} (h : m[j]? = some x) :
    keyAt m j = x.key := by simp [keyAt, h]

/-- Heap order of the cells `1 .. n`. -/
def Ordered (n : Nat) (m : List (Data δ)) : Prop :=
  ∀ j, 2 ≤ j → j ≤ n → keyAt m (j / 2) ≤ keyAt m j

theorem set_swap_perm {m : List (Data δ)} {i p : Nat} {x y : Data δ} (hi : i < m.length)
    (hp : p < m.length) (hne : p ≠ i) (hy : m[p]? = some y) :
    ((m.set i y).set p x).Perm (m.set i x) := by
  have h := List.set_set_perm (as := m.set i x) (i := i) (j := p) (by simpa using hi)
    (by simpa using hp)
  have e1 : (m.set i x)[i]'(by simpa using hi) = x := by simp
  have e2 : (m.set i x)[p]'(by simpa using hp) = y := by
    rw [List.getElem_set_ne (by omega)]
    exact (List.getElem?_eq_some_iff.1 hy).2
  rw [e1, e2, List.set_set] at h
  exact h

theorem siftUp_spec (n : Nat) (x : Data δ) : ∀ (fuel i : Nat) (m : List (Data δ)),
    1 ≤ i → i ≤ n → n < m.length → i ≤ fuel →
    (∀ j, 2 ≤ j → j ≤ n → j ≠ i → keyAt (m.set i x) (j / 2) ≤ keyAt (m.set i x) j) →
    (i ≠ 1 → ∀ j, 2 ≤ j → j ≤ n → j / 2 = i → keyAt m (i / 2) ≤ keyAt m j) →
    ∃ m' i', siftUp x.key fuel m i = .ok (m', i') ∧ 1 ≤ i' ∧ i' ≤ n ∧
      m'.length = m.length ∧ (m'.set i' x).Perm (m.set i x) ∧
      (∀ j, j = 0 ∨ n < j → m'[j]? = m[j]?) ∧ Ordered n (m'.set i' x) := by
  intro fuel
  induction fuel with
  | zero => intro i m h1 _ _ h; omega
  | succ fuel ih =>
    intro i m h1 hin hlen hf hA hB
    unfold siftUp
    by_cases hi : i = 1
    · subst hi
      simp only [ne_eq, not_true_eq_false, if_false]
      exact ⟨m, 1, rfl, by omega, hin, rfl, List.Perm.refl _, fun _ _ => rfl,
        fun j hj hjn => hA j hj hjn (by omega)⟩
    · simp only [ne_eq, hi, not_false_eq_true, if_true]
      have hp : i / 2 < m.length := by omega
      have hget : m[i / 2]? = some m[i / 2] := by simp [hp]
      rw [rd_lt hp]
      simp only [Res.ok_bind]
      have hkp := keyAt_of_getElem? hget
      by_cases hk : x.key < m[i / 2].key
      · simp only [hk, if_true]
        rw [wr_lt (by omega)]
        simp only [Res.ok_bind]
        have hi2 : i / 2 ≠ i := by omega
        have ku : ∀ (y : Data δ) j, keyAt (m.set i y) j = if j = i then y.key else keyAt m j :=
          fun y j => keyAt_set (by omega)
        have kv : ∀ (y : Data δ) j, keyAt ((m.set i y).set (i / 2) x) j =
            if j = i / 2 then x.key else if j = i then y.key else keyAt m j :=
          fun y j => by rw [keyAt_set (by simpa using hp), ku]
        obtain ⟨m', i', hs, h1', hin', hl', hperm, hout, hord⟩ :=
          ih (i / 2) (m.set i m[i / 2]) (by omega) (by omega) (by simpa using hlen) (by omega)
          (by
            intro j hj hjn hne
            have hAj := hA j hj hjn
            have hBj := hB hi j hj hjn
            simp only [kv, ku] at hAj ⊢
            grind)
          (by
            intro hne j hj hjn hjp
            have hAj := hA (i / 2) (by omega) (by omega) hi2
            have hAj2 := hA j hj hjn
            simp only [ku] at hAj hAj2 ⊢
            grind)
        refine ⟨m', i', hs, h1', hin', by simpa using hl', ?_, ?_, hord⟩
        · exact hperm.trans (set_swap_perm (by omega) hp hi2 hget)
        · intro j hj
          rw [hout j hj, List.getElem?_set_ne (by omega)]
      · simp only [hk, if_false]
        refine ⟨m, i, rfl, h1, hin, rfl, List.Perm.refl _, fun _ _ => rfl, ?_⟩
        intro j hj hjn
        by_cases hji : j = i
        · subst hji
          rw [keyAt_set (by omega), keyAt_set (by omega)]
          have : j / 2 ≠ j := by omega
          simp [this]; omega
        · exact hA j hj hjn hji

theorem siftDown_spec (n : Nat) (x : Data δ) (hn : n < 9223372036854775808) :
    ∀ (fuel i : Nat) (m : List (Data δ)),
    1 ≤ i → n < m.length → i < m.length → n + 1 ≤ fuel + i → (n = 0 → i = 1) → (n ≠ 0 → i ≤ n) →
    (∀ j, 2 ≤ j → j ≤ n → j / 2 ≠ i → keyAt (m.set i x) (j / 2) ≤ keyAt (m.set i x) j) →
    (i ≠ 1 → ∀ j, 2 ≤ j → j ≤ n → j / 2 = i → keyAt m (i / 2) ≤ keyAt m j) →
    0 < fuel →
    ∃ m' i', siftDown n x.key fuel m i (2 * i) = .ok (m', i') ∧ 1 ≤ i' ∧
      (n = 0 → i' = 1) ∧ (n ≠ 0 → i' ≤ n) ∧
      m'.length = m.length ∧ (m'.set i' x).Perm (m.set i x) ∧
      (∀ j, j = 0 ∨ (n < j ∧ j ≠ 1) → m'[j]? = m[j]?) ∧ Ordered n (m'.set i' x) := by
  intro fuel
  induction fuel with
  | zero => intro i m _ _ _ _ _ _ _ _ h; omega
  | succ fuel ih =>
    intro i m h1 hlen hilen hf hn0 hnn hA hB _
    unfold siftDown
    by_cases hc : 2 * i ≤ n
    · simp only [hc, if_true]
      -- the selected child
      have hsel : ∃ c, (if 2 * i < n then (do
            let a ← rd m (2 * i)
            let b ← rd m (2 * i + 1)
            if a.key > b.key then Res.ok (2 * i + 1) else Res.ok (2 * i))
          else Res.ok (2 * i)) = Res.ok c ∧ c / 2 = i ∧ c ≤ n ∧
          (∀ j, j ≤ n → j / 2 = i → keyAt m c ≤ keyAt m j) := by
        by_cases hlt : 2 * i < n
        · simp only [hlt, if_true]
          rw [rd_lt (show 2 * i < m.length by omega), rd_lt (show 2 * i + 1 < m.length by omega)]
          simp only [Res.ok_bind]
          have ka : keyAt m (2 * i) = m[2 * i].key := keyAt_of_getElem? (by simp)
          have kb : keyAt m (2 * i + 1) = m[2 * i + 1].key := keyAt_of_getElem? (by simp)
          split
          · next hgt =>
            refine ⟨_, rfl, by omega, by omega, ?_⟩
            intro j hj hjp
            have : j = 2 * i ∨ j = 2 * i + 1 := by omega
            rcases this with rfl | rfl <;> omega
          · next hgt =>
            refine ⟨_, rfl, by omega, by omega, ?_⟩
            intro j hj hjp
            have : j = 2 * i ∨ j = 2 * i + 1 := by omega
            rcases this with rfl | rfl <;> omega
        · simp only [hlt, if_false]
          refine ⟨_, rfl, by omega, by omega, ?_⟩
          intro j hj hjp
          have : j = 2 * i := by omega
          subst this; omega
      obtain ⟨c, hc1, hcp, hcn, hmin⟩ := hsel
      rw [hc1]
      have hcl : c < m.length := by omega
      have hget : m[c]? = some m[c] := by simp [hcl]
      have hkc := keyAt_of_getElem? hget
      simp only [Res.ok_bind]
      rw [rd_lt hcl]
      simp only [Res.ok_bind]
      have hci : c ≠ i := by omega
      by_cases hk : x.key ≤ m[c].key
      · simp only [hk, if_true]
        refine ⟨m, i, rfl, h1, hn0, hnn, rfl, List.Perm.refl _, fun _ _ => rfl, ?_⟩
        intro j hj hjn
        by_cases hji : j / 2 = i
        · rw [keyAt_set hilen, keyAt_set hilen]
          have h5 : j ≠ i := by omega
          have := hmin j hjn hji
          simp only [hji, if_true, h5, if_false]
          omega
        · exact hA j hj hjn hji
      · simp only [hk, if_false]
        rw [wr_lt hilen]
        simp only [Res.ok_bind]
        have hmul : mul64 c 2 = 2 * c := by unfold mul64; omega
        rw [hmul]
        have ku : ∀ (y : Data δ) j, keyAt (m.set i y) j = if j = i then y.key else keyAt m j :=
          fun y j => keyAt_set hilen
        have kv : ∀ (y : Data δ) j, keyAt ((m.set i y).set c x) j =
            if j = c then x.key else if j = i then y.key else keyAt m j :=
          fun y j => by rw [keyAt_set (by simpa using hcl), ku]
        obtain ⟨m', i', hs, h1', hz', hin', hl', hperm, hout, hord⟩ :=
          ih c (m.set i m[c]) (by omega) (by simpa using hlen) (by simpa using hcl) (by omega)
          (by omega) (by omega)
          (by
            intro j hj hjn hne
            have hAj := hA j hj hjn
            have hBc := fun h => hB h c (by omega) hcn hcp
            have hm := hmin j hjn
            simp only [kv, ku] at hAj ⊢
            grind)
          (by
            intro _ j hj hjn hjp
            have hAj := hA j hj hjn (by omega)
            simp only [ku] at hAj ⊢
            grind)
          (by omega)
        refine ⟨m', i', hs, h1', hz', hin', by simpa using hl', ?_, ?_, hord⟩
        · exact hperm.trans (set_swap_perm hilen hcl hci hget)
        · intro j hj
          rw [hout j hj, List.getElem?_set_ne (by omega)]
    · simp only [hc, if_false]
      refine ⟨m, i, rfl, h1, hn0, hnn, rfl, List.Perm.refl _, fun _ _ => rfl, ?_⟩
      intro j hj hjn
      exact hA j hj hjn (by omega)

/-- The elements the heap holds. -/
def contents (h : Heap δ) : List (Data δ) := (h.elems.drop 1).take h.size

/-- Invariant of a heap: the block has room for `size` elements and cell 0, and is ordered. -/
structure WF (h : Heap δ) : Prop where
  room : h.size = 0 ∨ h.size < h.cap
  cap : h.cap ≤ h.elems.length
  order : Ordered h.size h.elems

theorem split_block {m : List (Data δ)} {n : Nat} {x : Data δ} (hx : m[0]? = some x) :
    m = x :: ((m.drop 1).take n ++ m.drop (n + 1)) := by
  cases m with
  | nil => simp at hx
  | cons y m => simp at hx; subst hx; simp

theorem perm_contents {m m' : List (Data δ)} {n : Nat} (h0 : m'[0]? = m[0]?)
    (hl : n < m.length) (hout : ∀ j, n < j → m'[j]? = m[j]?) (hp : m'.Perm m) :
    ((m'.drop 1).take n).Perm ((m.drop 1).take n) := by
  have hx : m[0]? = some (m[0]'(by omega)) := by simp
  have hd : m'.drop (n + 1) = m.drop (n + 1) := by
    apply List.ext_getElem?
    intro j
    rw [List.getElem?_drop, List.getElem?_drop]
    exact hout _ (by omega)
  rw [split_block (n := n) hx, split_block (n := n) (h0.trans hx), hd] at hp
  exact (List.perm_append_right_iff _).1 (List.perm_cons _ |>.1 hp)

theorem root_le {n : Nat} {m : List (Data δ)} (h : Ordered n m) :
    ∀ j, 1 ≤ j → j ≤ n → keyAt m 1 ≤ keyAt m j := by
  intro j
  induction j using Nat.strongRecOn with
  | ind j ih =>
    intro h1 hn
    by_cases hj : j = 1
    · subst hj; exact Int.le_refl _
    · have a := ih (j / 2) (by omega) (by omega) (by omega)
      have b := h j (by omega) hn
      omega

theorem mem_contents {h : Heap δ} {x : Data δ} (hx : x ∈ contents h) :
    ∃ j, 1 ≤ j ∧ j ≤ h.size ∧ h.elems[j]? = some x := by
  unfold contents at hx
  obtain ⟨k, hk⟩ := List.mem_iff_getElem?.1 hx
  rw [List.getElem?_take] at hk
  split at hk
  · next hlt =>
    rw [List.getElem?_drop] at hk
    exact ⟨1 + k, by omega, by omega, hk⟩
  · cases hk

theorem root_isMin {h : Heap δ} (w : WF h) (hs : h.size ≠ 0) :
    ∃ e, h.elems[1]? = some e ∧ Spec.IsMin e (contents h) := by
  have hl : h.size < h.elems.length := by
    have := w.cap
    rcases w.room with h | h <;> omega
  have h1 : 1 < h.elems.length := by omega
  refine ⟨h.elems[1], by simp, ?_, ?_⟩
  · unfold contents
    rw [List.mem_iff_getElem?]
    refine ⟨0, ?_⟩
    rw [List.getElem?_take, if_pos (by omega), List.getElem?_drop]
    simp
  · intro x hx
    obtain ⟨j, hj1, hjn, hj⟩ := mem_contents hx
    have := root_le w.order j hj1 hjn
    rw [keyAt_of_getElem? hj, keyAt_of_getElem? (x := h.elems[1]) (by simp)] at this
    exact this

theorem place_spec {m : List (Data δ)} {n : Nat} (key : Int) (data : δ) (hn : n + 1 < m.length)
    (ho : Ordered n m) :
    ∃ m', (do let (m, i) ← siftUp key (n + 1 + 1) m (n + 1)
              wr m i { key := key, data := data : Data δ }) = Res.ok m' ∧
      m'.length = m.length ∧ Ordered (n + 1) m' ∧
      ((m'.drop 1).take (n + 1)).Perm (⟨key, data⟩ :: (m.drop 1).take n) := by
  obtain ⟨m', i', hs, h1, hi, hl, hp, hout, hord⟩ :=
    siftUp_spec (n + 1) ⟨key, data⟩ (n + 1 + 1) (n + 1) m (by omega) (by omega) hn (by omega)
      (by
        intro j hj hjn hne
        rw [keyAt_set hn, keyAt_set hn, if_neg (by omega), if_neg (by omega)]
        exact ho j hj (by omega))
      (by intro _ j hj hjn hjp; omega)
  simp only [hs, Res.ok_bind]
  refine ⟨_, wr_lt (by omega), by simp [hl], hord, ?_⟩
  have h2 : ((m'.set i' ⟨key, data⟩).drop 1).take (n + 1) |>.Perm
      (((m.set (n + 1) ⟨key, data⟩).drop 1).take (n + 1)) := by
    apply perm_contents
    · rw [List.getElem?_set_ne (by omega), List.getElem?_set_ne (by omega)]
      exact hout 0 (Or.inl rfl)
    · simpa using hn
    · intro j hj
      rw [List.getElem?_set_ne (by omega), List.getElem?_set_ne (by omega)]
      exact hout j (Or.inr hj)
    · exact hp
  refine h2.trans ?_
  have h3 : ((m.set (n + 1) ⟨key, data⟩).drop 1).take (n + 1) =
      (m.drop 1).take n ++ [⟨key, data⟩] := by
    apply List.ext_getElem?
    intro j
    grind
  rw [h3]
  exact List.perm_append_comm

/-- `add` with a working allocator. -/
theorem add_spec {h : Heap δ} (w : WF h) (al : Alloc (Data δ)) (key : Int) (data : δ)
    (hal : h.cap ≤ h.size + 1 → al ≠ none) (hcap : h.cap ≤ h.size + 1 → h.cap < 288230376151711744)
    (hsz : h.size < 9223372036854775808) :
    ∃ h', add al h key data = .ok (h', true) ∧ WF h' ∧ h'.size = h.size + 1 ∧
      (h'.cap = h.cap ∨ (h.cap ≤ h.size + 1 ∧ h'.cap = 2 * h.cap) ∨ h'.cap = 4) ∧
      (contents h').Perm (⟨key, data⟩ :: contents h) := by
  have hadd : add64 h.size 1 = h.size + 1 := by unfold add64; omega
  unfold add
  simp only [hadd]
  by_cases hg : h.size + 1 ≥ h.cap
  · simp only [hg, if_true]
    have hcap := hcap hg
    cases al with
    | none => exact absurd rfl (hal hg)
    | some fill =>
      rw [if_neg (by simp only [heapMax]; omega)]
      have hcapeq : (if h.cap ≠ 0 then mul64 h.cap 2 else 4) = if h.cap ≠ 0 then 2 * h.cap else 4 := by
        split
        · unfold mul64; omega
        · rfl
      simp only [hcapeq]
      generalize hC : (if h.cap ≠ 0 then 2 * h.cap else 4) = C
      have hC1 : C < 576460752303423488 := by rw [← hC]; split <;> omega
      have hC2 : h.cap ≠ 0 → C = 2 * h.cap := by intro h0; rw [← hC, if_pos h0]
      have hC3 : h.cap = 0 → C = 4 := by intro h0; rw [← hC, if_neg (by omega)]
      have hm : mul64 (mul64 C 2) esz / esz = 2 * C := by
        simp only [mul64, esz]; omega
      rw [hm]
      have hroom := w.room
      have hcl := w.cap
      have hsize : h.size + 1 < C := by
        by_cases h0 : h.cap = 0
        · have := hC3 h0; omega
        · have := hC2 h0; omega
      have hin : h.size < h.elems.length ∨ h.size = 0 := by omega
      have hord : Ordered h.size (resized h.elems (2 * C) fill) := by
        intro j hj hjn
        have e : ∀ k, 1 ≤ k → k ≤ h.size → keyAt (resized h.elems (2 * C) fill) k = keyAt h.elems k := by
          intro k hk hks
          unfold keyAt
          rw [resized_getElem? (by omega)]
          simp [List.getElem?_eq_getElem (show k < h.elems.length by omega)]
        rw [e _ (by omega) (by omega), e _ (by omega) (by omega)]
        exact w.order j hj hjn
      obtain ⟨m', hm', hl', ho', hp'⟩ := place_spec (m := resized h.elems (2 * C) fill) key data
        (by simp; omega) hord
      simp only [Res.bind_eq_ok] at hm'
      obtain ⟨⟨m1, i1⟩, hs1, hs2⟩ := hm'
      simp only [hs1, hs2, Res.ok_bind, Res.pure_eq]
      refine ⟨_, rfl, ⟨Or.inr hsize, by simp [hl']; omega, ho'⟩, rfl, ?_, ?_⟩
      · by_cases h0 : h.cap = 0
        · exact Or.inr (Or.inr (hC3 h0))
        · exact Or.inr (Or.inl ⟨trivial, hC2 h0⟩)
      · have : ((resized h.elems (2 * C) fill).drop 1).take h.size = contents h := by
          unfold contents
          rcases hin with hlt | h0
          · rw [List.take_drop, List.take_drop, resized_take (by omega) (by omega)]
          · simp [h0]
        rw [this] at hp'
        exact hp'
  · simp only [hg, if_false]
    have hcl := w.cap
    obtain ⟨m', hm', hl', ho', hp'⟩ := place_spec (m := h.elems) key data (by omega) w.order
    simp only [Res.bind_eq_ok] at hm'
    obtain ⟨⟨m1, i1⟩, hs1, hs2⟩ := hm'
    simp only [hs1, hs2, Res.ok_bind, Res.pure_eq]
    exact ⟨_, rfl, ⟨Or.inr (by simp; omega), by simp [hl', hcl], ho'⟩, rfl, Or.inl rfl, hp'⟩

theorem pop_spec {h : Heap δ} (w : WF h) (hs : h.size ≠ 0) (hsz : h.size < 9223372036854775808) :
    ∃ h' e, pop h = .ok (h', some e) ∧ WF h' ∧ h'.size = h.size - 1 ∧ h'.cap = h.cap ∧
      Spec.IsMin e (contents h) ∧ (contents h).Perm (e :: contents h') := by
  obtain ⟨e, he, hmin⟩ := root_isMin w hs
  have hcl := w.cap
  have hroom := w.room
  have hl : h.size < h.elems.length := by omega
  unfold pop
  rw [if_neg hs, rd_eq_ok.2 he]
  simp only [Res.ok_bind]
  rw [wr_lt (by omega)]
  simp only [Res.ok_bind]
  rw [rd_lt (show h.size < (h.elems.set 0 e).length by simpa using hl)]
  simp only [Res.ok_bind]
  have hlast : (h.elems.set 0 e)[h.size]'(by simpa using hl) = h.elems[h.size] := by
    rw [List.getElem_set_ne (by omega)]
  rw [hlast]
  generalize hx : h.elems[h.size] = x
  have hk0 : ∀ j, 1 ≤ j → keyAt (h.elems.set 0 e) j = keyAt h.elems j := by
    intro j hj
    rw [keyAt_set (by omega), if_neg (by omega)]
  obtain ⟨m', i', hsd, h1', hz', hn', hl', hperm, hout, hord⟩ :=
    siftDown_spec (h.size - 1) x (by omega) (h.size - 1 + 1) 1 (h.elems.set 0 e) (by omega)
      (by simp; omega) (by simp; omega) (by omega) (by omega) (by omega)
      (by
        intro j hj hjn hne
        have hlen1 : 1 < (h.elems.set 0 e).length := by simp; omega
        rw [keyAt_set hlen1, keyAt_set hlen1, if_neg hne, if_neg (by omega),
          hk0 _ (by omega), hk0 _ (by omega)]
        exact w.order j hj (by omega))
      (by intro h; omega) (by omega)
  rw [show 2 = 2 * 1 from rfl, hsd]
  simp only [Res.ok_bind]
  have hi'l : i' < m'.length := by
    rw [hl']; simp
    by_cases h0 : h.size - 1 = 0
    · have := hz' h0; omega
    · have := hn' h0; omega
  rw [wr_lt hi'l]
  simp only [Res.ok_bind]
  have h0 : (m'.set i' x)[0]? = some e := by
    rw [List.getElem?_set_ne (by omega), hout 0 (Or.inl rfl), List.getElem?_set_self (by omega)]
  rw [rd_eq_ok.2 h0]
  refine ⟨_, e, rfl, ⟨?_, by simp [hl', hcl], hord⟩, rfl, rfl, hmin, ?_⟩
  · simp only; omega
  · unfold contents at hmin ⊢
    simp only
    -- the block after the loop is a permutation of the block with the last element at the root
    have hpc : (((m'.set i' x).drop 1).take (h.size - 1)).Perm
        (((((h.elems.set 0 e).set 1 x)).drop 1).take (h.size - 1)) := by
      by_cases hn0 : h.size - 1 = 0
      · simp [hn0]
      · apply perm_contents
        · rw [h0, List.getElem?_set_ne (by omega), List.getElem?_set_self (by omega)]
        · simp; omega
        · intro j hj
          have := hn' hn0
          rw [List.getElem?_set_ne (by omega), List.getElem?_set_ne (by omega)]
          exact hout j (Or.inr ⟨hj, by omega⟩)
        · exact hperm
    refine List.Perm.trans ?_ (List.Perm.cons e hpc.symm)
    -- write the old contents as first, middle, last
    by_cases hn1 : h.size = 1
    · have : (h.elems.drop 1).take h.size = [e] := by
        apply List.ext_getElem?
        intro j
        grind
      rw [this]
      simp [hn1]
    · have e1 : (h.elems.drop 1).take h.size = e :: ((h.elems.drop 2).take (h.size - 2) ++ [x]) := by
        apply List.ext_getElem?
        intro j
        grind
      have e2 : ((((h.elems.set 0 e).set 1 x)).drop 1).take (h.size - 1) =
          x :: (h.elems.drop 2).take (h.size - 2) := by
        apply List.ext_getElem?
        intro j
        grind
      rw [e1, e2]
      exact List.Perm.cons e List.perm_append_comm

theorem peek_spec {h : Heap δ} (w : WF h) (hs : h.size ≠ 0) :
    ∃ e, peek h = .ok (some e) ∧ Spec.IsMin e (contents h) := by
  obtain ⟨e, he, hmin⟩ := root_isMin w hs
  refine ⟨e, ?_, hmin⟩
  unfold peek
  rw [if_neg hs, rd_eq_ok.2 he]; rfl

end Verif.Heap
