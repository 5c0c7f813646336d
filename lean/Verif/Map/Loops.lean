import Verif.Map.Table

/-! # The probe, insert and backward-shift loops -/

set_option linter.unusedSectionVars false
set_option linter.unusedVariables false

namespace Verif.Map

variable {K C V : Type} [DecidableEq K] [DecidableEq C]

/-- A capacity: a power of two that fits 32 bits. -/
def IsCap (n : Nat) : Prop := ∃ j, n = 2 ^ j ∧ j ≤ 31

theorem IsCap.bounds {n : Nat} (h : IsCap n) : 0 < n ∧ n ≤ 2147483648 := by
  obtain ⟨j, rfl, hj⟩ := h
  exact ⟨Nat.two_pow_pos j, Nat.le_trans (Nat.pow_le_pow_right (by omega) hj) (by decide)⟩

theorem mask_mod {n : Nat} (h : IsCap n) (x : Nat) : x &&& sub32 n 1 = x % n := by
  have hb := h.bounds
  have h1 : sub32 n 1 = n - 1 := by unfold sub32; omega
  rw [h1]
  obtain ⟨j, rfl, hj⟩ := h
  exact Nat.and_two_pow_sub_one_eq_mod x j

theorem mask_hash {n : Nat} (h : IsCap n) (x : Nat) : x &&& sub32 n 1 = idx n (x : Int) := by
  rw [mask_mod h]
  unfold idx
  rw [← Int.natCast_emod]; rfl

theorem mask_next {n : Nat} (h : IsCap n) (x : Int) :
    add32 (idx n x) 1 &&& sub32 n 1 = idx n (x + 1) := by
  have hb := h.bounds
  have hi := idx_lt hb.1 x
  have h1 : add32 (idx n x) 1 = idx n x + 1 := by unfold add32; omega
  rw [h1, mask_hash h, idx_eq_iff hb.1]
  rw [Int.natCast_add, idx_cast hb.1, Int.emod_add_emod]; rfl

theorem rd_cell {T : List (Item K V)} {x : Int} {t : Item K V} (h : cell T x = some t) :
    rd T (idx T.length x) = .ok t := by rw [rd_eq_ok]; exact h

theorem wr_cell {T : List (Item K V)} (hn : 0 < T.length) (x : Int) (t : Item K V) :
    wr T (idx T.length x) t = .ok (T.set (idx T.length x) t) := wr_lt (idx_lt hn x)

/-- What probing finds. -/
theorem probe_spec {k : Kind K C} {T : List (Item K V)} (hc : IsCap T.length) (key : K) (h : Nat)
    (e : Int) (he : ¬ Full k T e) :
    ∀ (fuel : Nat) (y : Int), y ≤ e → e < y + fuel →
    ∃ z t, probe k (sub32 T.length 1) key h fuel T (idx T.length y) = .ok (idx T.length z) ∧
      y ≤ z ∧ z ≤ e ∧ cell T z = some t ∧
      (∀ x, y ≤ x → x < z → ∃ a, cell T x = some a ∧ a.key ≠ k.zero ∧ k.cmp a key h = false) ∧
      (t.key = k.zero ∨ k.cmp t key h = true) := by
  intro fuel
  induction fuel with
  | zero => intro y h1 h2; omega
  | succ fuel ih =>
    intro y h1 h2
    obtain ⟨t, ht⟩ := cell_total hc.bounds.1 y
    simp only [probe, rd_cell ht, Res.ok_bind]
    by_cases hz : t.key = k.zero
    · exact ⟨y, t, by simp [hz], by omega, h1, ht, by intro x; omega, Or.inl hz⟩
    · by_cases hm : k.cmp t key h = true
      · exact ⟨y, t, by simp [hz, hm], by omega, h1, ht, by intro x; omega, Or.inr hm⟩
      · have hlt : y ≠ e := by rintro rfl; exact he ⟨t, ht, hz⟩
        obtain ⟨z, a, hp, hyz, hze, ha, hall, hend⟩ := ih (y + 1) (by omega) (by omega)
        have hm' : k.cmp t key h = false := by simpa using hm
        refine ⟨z, a, ?_, by omega, hze, ha, ?_, hend⟩
        · rw [if_neg hz, hm', mask_next hc]; simpa using hp
        · intro x h3 h4
          by_cases hx : x = y
          · subst hx; exact ⟨t, ht, hz, hm'⟩
          · exact hall x (by omega) h4

/-- Comparing an occupied cell of a good table compares the classes. -/
theorem cmp_iff {k : Kind K C} {T : List (Item K V)} (g : Good k T) {x : Int} {t : Item K V}
    (ht : cell T x = some t) (hne : t.key ≠ k.zero) (key : K) :
    k.cmp t key (k.hash (k.cls key)) = true ↔ k.cls t.key = k.cls key := by
  have hh := g.hashOk x t ht hne
  unfold Kind.cmp Kind.hashof at *
  by_cases hc : k.cached = true
  · simp only [hc, if_true] at hh ⊢
    constructor
    · intro h; simpa using (Bool.and_eq_true_iff.1 h).2
    · intro h; simp [h, hh]
  · simp only [hc] at hh ⊢
    simp

/-- Looking up a class: the probe stops at the item with that class, or at a free cell and
there is none. -/
theorem lookup_spec {k : Kind K C} {T : List (Item K V)} (hc : IsCap T.length) (g : Good k T)
    (hocc : occupied k T < T.length) (key : K) :
    ∃ z t, probe k (sub32 T.length 1) key (k.hash (k.cls key)) (T.length + 1) T
        (k.hash (k.cls key) &&& sub32 T.length 1) = .ok (idx T.length z) ∧
      cell T z = some t ∧
      ((t.key ≠ k.zero ∧ k.cls t.key = k.cls key) ∨
       (t.key = k.zero ∧ ¬ HasKey k T (k.cls key) ∧ (k.hash (k.cls key) : Int) ≤ z ∧
        z < (k.hash (k.cls key) : Int) + T.length ∧
        ∀ x, (k.hash (k.cls key) : Int) ≤ x → x < z → Full k T x)) := by
  obtain ⟨e, he1, he2, he3⟩ := exists_free hocc (k.hash (k.cls key) : Int)
  obtain ⟨z, t, hp, h1, h2, ht, hall, hend⟩ :=
    probe_spec hc key (k.hash (k.cls key)) e he3 (T.length + 1) (k.hash (k.cls key) : Int) he1
      (by omega)
  refine ⟨z, t, by rw [mask_hash hc]; exact hp, ht, ?_⟩
  by_cases hz : t.key = k.zero
  · refine Or.inr ⟨hz, ?_, h1, by omega, ?_⟩
    · apply absent_of_probe g h1
      · intro x hx1 hx2 a ha
        obtain ⟨a', ha', hne, hcm⟩ := hall x hx1 hx2
        rw [ha] at ha'; cases ha'
        intro hcl
        rw [(cmp_iff g ha hne key).2 hcl] at hcm
        cases hcm
      · rw [not_full_iff ht]; exact hz
    · intro x hx1 hx2
      obtain ⟨a, ha, hne, _⟩ := hall x hx1 hx2
      exact ⟨a, ha, hne⟩
  · refine Or.inl ⟨hz, ?_⟩
    rcases hend with h | h
    · exact absurd h hz
    · exact (cmp_iff g ht hz key).1 h

/-- The inner loop of the remap stores the item in the first free cell. -/
theorem insertFree_spec {k : Kind K C} {T : List (Item K V)} (hc : IsCap T.length)
    (t : Item K V) (e : Int) (he : ¬ Full k T e) :
    ∀ (fuel : Nat) (y : Int), y ≤ e → e < y + fuel →
    ∃ z, insertFree k (sub32 T.length 1) t fuel T (idx T.length y)
        = .ok (T.set (idx T.length z) t) ∧
      y ≤ z ∧ z ≤ e ∧ ¬ Full k T z ∧ (∀ x, y ≤ x → x < z → Full k T x) := by
  intro fuel
  induction fuel with
  | zero => intro y h1 h2; omega
  | succ fuel ih =>
    intro y h1 h2
    obtain ⟨a, ha⟩ := cell_total hc.bounds.1 y
    simp only [insertFree, rd_cell ha, Res.ok_bind]
    by_cases hz : a.key = k.zero
    · refine ⟨y, ?_, by omega, h1, (not_full_iff ha).2 hz, by intro x; omega⟩
      rw [if_pos hz, wr_cell hc.bounds.1]
    · have hlt : y ≠ e := by rintro rfl; exact he ⟨a, ha, hz⟩
      obtain ⟨z, hp, hyz, hze, hf, hall⟩ := ih (y + 1) (by omega) (by omega)
      refine ⟨z, ?_, by omega, hze, hf, ?_⟩
      · rw [if_neg hz, mask_next hc]; exact hp
      · intro x h3 h4
        by_cases hx : x = y
        · subst hx; exact ⟨a, ha, hz⟩
        · exact hall x (by omega) h4

/-- A table with a hole at `P` that chains may cross. -/
structure Mid (k : Kind K C) (T : List (Item K V)) (P : Int) : Prop where
  pos : 0 < T.length
  hole : ¬ Full k T P
  chain : ∀ x t, cell T x = some t → t.key ≠ k.zero →
    ∀ d, 0 ≤ d → d ≤ disp k T.length x t → Full k T (x - d) ∨ (x - d) % T.length = P % T.length
  uniq : Uniq k T
  hashOk : HashOk k T

theorem shiftTest_iff {k : Kind K C} {n : Nat} (hc : IsCap n) {P Y : Int} {t : Item K V}
    (h1 : P < Y) (h2 : Y < P + n) :
    shiftTest (k.hash (k.cls t.key) &&& sub32 n 1) (idx n Y) (idx n P) = true ↔
      Y - P ≤ disp k n Y t := by
  have hn := hc.bounds.1
  rw [mask_hash hc]
  have ha := idx_lt hn Y
  have hb := idx_lt hn P
  have hp := idx_lt hn (k.hash (k.cls t.key) : Int)
  -- distances in terms of the cell indices
  have hYP : Y - P = if idx n P < idx n Y then (idx n Y : Int) - idx n P
      else (idx n Y : Int) - idx n P + n := by
    have e1 := Int.mul_ediv_add_emod Y n
    have e2 := Int.mul_ediv_add_emod P n
    rw [← idx_cast hn] at e1 e2
    have hd : Y - P = (idx n Y : Int) - idx n P + n * (Y / n - P / n) := by
      rw [Int.mul_sub]; omega
    generalize Y / n - P / n = q at hd
    have hq : q = 0 ∨ q = 1 := by
      have h3 : (n : Int) * q < n * 2 := by omega
      have h4 : (n : Int) * (-1) < n * q := by omega
      have := Int.lt_of_mul_lt_mul_left h3 (by omega)
      have := Int.lt_of_mul_lt_mul_left h4 (by omega)
      omega
    rcases hq with rfl | rfl
    · rw [if_pos (by omega)]; omega
    · rw [if_neg (by omega)]; omega
  have hD : disp k n Y t = if idx n (k.hash (k.cls t.key) : Int) ≤ idx n Y
      then (idx n Y : Int) - idx n (k.hash (k.cls t.key) : Int)
      else (idx n Y : Int) - idx n (k.hash (k.cls t.key) : Int) + n := by
    unfold disp
    rw [Int.sub_emod, ← idx_cast hn Y, ← idx_cast hn (k.hash (k.cls t.key) : Int)]
    clear hYP
    split
    · rw [Int.emod_eq_of_lt (by omega) (by omega)]
    · have : ∀ z : Int, z % n = (z + n) % n := by intro z; simp
      rw [this, Int.emod_eq_of_lt (by omega) (by omega)]
  rw [hYP, hD]
  unfold shiftTest
  simp only [Bool.or_eq_true, Bool.and_eq_true, decide_eq_true_eq]
  have hne : idx n Y ≠ idx n P := by
    intro h
    have := emod_window ((idx_eq_iff hn).1 h) (by omega) (by omega)
    omega
  split <;> split <;> omega

/-- Moving the item at `Y` into the hole at `P`. -/
theorem Mid.move {k : Kind K C} {T : List (Item K V)} {P Y : Int} (m : Mid k T P)
    {t : Item K V} (ht : cell T Y = some t) (hne : t.key ≠ k.zero) (h1 : P < Y)
    (h2 : Y < P + T.length) (hd : Y - P ≤ disp k T.length Y t) :
    let T' := (T.set (idx T.length P) t).set (idx T.length Y) { t with key := k.zero }
    Mid k T' Y ∧ occupied k T' = occupied k T ∧ (∀ c v, Has k T' c v ↔ Has k T c v) ∧
    (∀ x, x % T.length ≠ P % T.length → ¬ Full k T x → ¬ Full k T' x) ∧
    (∀ x, x % T.length ≠ P % T.length → x % T.length ≠ Y % T.length → cell T' x = cell T x) := by
  intro T'
  have hn := m.pos
  have hlen : T'.length = T.length := by simp [T']
  have hPY : P % T.length ≠ Y % T.length := by
    intro h
    have := emod_window h (by omega) (by omega)
    omega
  have hcs : ∀ x, cell T' x = if x % T.length = Y % T.length then
      some { t with key := k.zero } else if x % T.length = P % T.length then some t
      else cell T x := by
    intro x
    have e1 := cell_set (T := T.set (idx T.length P) t) (by simpa using hn) Y x
      { t with key := k.zero }
    rw [List.length_set] at e1
    rw [e1, cell_set hn]
  -- an occupied cell of T' holds what an occupied cell of T holds
  have hback : ∀ x a, cell T' x = some a → a.key ≠ k.zero →
      (x % T.length = P % T.length ∧ a = t) ∨
      (x % T.length ≠ P % T.length ∧ x % T.length ≠ Y % T.length ∧ cell T x = some a) := by
    intro x a ha hane
    rw [hcs] at ha
    by_cases hy : x % T.length = Y % T.length
    · rw [if_pos hy] at ha; cases ha; exact absurd rfl hane
    · rw [if_neg hy] at ha
      by_cases hp : x % T.length = P % T.length
      · rw [if_pos hp] at ha; cases ha; exact Or.inl ⟨hp, rfl⟩
      · rw [if_neg hp] at ha; exact Or.inr ⟨hp, hy, ha⟩
  have hfull : ∀ x, Full k T x ∨ x % T.length = P % T.length →
      Full k T' x ∨ x % T'.length = Y % T'.length := by
    intro x hx
    rw [hlen]
    by_cases hy : x % T.length = Y % T.length
    · exact Or.inr hy
    · left
      unfold Full
      rw [hcs, if_neg hy]
      by_cases hp : x % T.length = P % T.length
      · rw [if_pos hp]; exact ⟨t, rfl, hne⟩
      · rw [if_neg hp]
        rcases hx with hx | hx
        · exact hx
        · exact absurd hx hp
  have hocc : occupied k T' = occupied k T := by
    obtain ⟨o, ho⟩ := cell_total hn P
    have hoz : o.key = k.zero := (not_full_iff ho).1 m.hole
    have hgo : T[idx T.length P]'(idx_lt hn P) = o := by
      rw [cell_eq] at ho; exact (List.getElem?_eq_some_iff.1 ho).2
    have hgt : (T.set (idx T.length P) t)[idx T.length Y]'(by
        simpa using idx_lt hn Y) = t := by
      rw [List.getElem_set_ne]
      · rw [cell_eq] at ht; exact (List.getElem?_eq_some_iff.1 ht).2
      · intro h; exact hPY ((idx_eq_iff hn).1 h)
    show List.countP _ _ = List.countP _ _
    rw [List.countP_set (by simpa using idx_lt hn Y), List.countP_set (idx_lt hn P), hgo, hgt,
      if_neg (by simpa using hoz), if_pos (by simpa using hne), if_neg (by simp)]
    omega
  have hhas : ∀ c v, Has k T' c v ↔ Has k T c v := by
    intro c v
    constructor
    · rintro ⟨x, a, ha, hane, hc, hv⟩
      rcases hback x a ha hane with ⟨_, rfl⟩ | ⟨_, _, h⟩
      · exact ⟨Y, a, ht, hne, hc, hv⟩
      · exact ⟨x, a, h, hane, hc, hv⟩
    · rintro ⟨x, a, ha, hane, hc, hv⟩
      by_cases hy : x % T.length = Y % T.length
      · rw [cell_congr hy, ht] at ha; cases ha
        exact ⟨P, t, by rw [hcs, if_neg hPY, if_pos rfl], hne, hc, hv⟩
      · have hp : x % T.length ≠ P % T.length := by
          intro hp
          exact m.hole (Full.congr hp ⟨a, ha, hane⟩)
        exact ⟨x, a, by rw [hcs, if_neg hy, if_neg hp]; exact ha, hane, hc, hv⟩
  refine ⟨⟨by rw [hlen]; exact hn, ?_, ?_, ?_, ?_⟩, hocc, hhas, ?_, ?_⟩
  · have : cell T' Y = some { t with key := k.zero } := by rw [hcs, if_pos rfl]
    rw [not_full_iff this]
  · intro x a ha hane d hd0 hdd
    rw [hlen] at hdd
    apply hfull
    rcases hback x a ha hane with ⟨hp, rfl⟩ | ⟨_, _, h⟩
    · by_cases hd1 : d = 0
      · subst hd1; right; simpa using hp
      · -- the chain of the moved item, seen from Y
        have hdx : disp k T.length x a = disp k T.length Y a - (Y - P) := by
          have : disp k T.length (Y - (Y - P)) a = disp k T.length Y a - (Y - P) :=
            disp_sub hn (by omega) hd
          rw [← this]
          exact disp_congr (by rw [hp]; congr 1; omega)
        have := m.chain Y a ht hne (d + (Y - P)) (by omega) (by omega)
        have hxd : (Y - (d + (Y - P))) % T.length = (x - d) % T.length := by
          rw [Int.sub_emod x, hp, ← Int.sub_emod]; congr 1; omega
        rcases this with h | h
        · exact Or.inl (h.congr hxd)
        · exact Or.inr (by rw [← hxd]; exact h)
    · exact m.chain x a h hane d hd0 hdd
  · intro x y a b ha hb hane hbne hab
    rw [hlen]
    rcases hback x a ha hane with ⟨hp, rfl⟩ | ⟨hp, hy, h⟩
    · rcases hback y b hb hbne with ⟨hp', rfl⟩ | ⟨hp', hy', h'⟩
      · omega
      · exact absurd (m.uniq Y y a b ht h' hne hbne hab).symm hy'
    · rcases hback y b hb hbne with ⟨hp', rfl⟩ | ⟨hp', hy', h'⟩
      · exact absurd (m.uniq x Y a b h ht hane hne hab) hy
      · exact m.uniq x y a b h h' hane hbne hab
  · intro x a ha hane
    rcases hback x a ha hane with ⟨_, rfl⟩ | ⟨_, _, h⟩
    · exact m.hashOk Y a ht hne
    · exact m.hashOk x a h hane
  · rintro x hp hx ⟨a, ha, hane⟩
    rcases hback x a ha hane with ⟨hp', _⟩ | ⟨_, _, h⟩
    · exact hp hp'
    · exact hx ⟨a, h, hane⟩
  · intro x hp hy
    rw [hcs, if_neg hy, if_neg hp]

/-- The hole may stay where it is when the next cell is free. -/
theorem Mid.done {k : Kind K C} {T : List (Item K V)} {P Y : Int} (m : Mid k T P) (h1 : P ≤ Y)
    (h2 : Y + 1 < P + T.length)
    (hskip : ∀ x t, P < x → x ≤ Y → cell T x = some t → t.key ≠ k.zero →
      disp k T.length x t < x - P)
    (hfree : ¬ Full k T (Y + 1)) : Good k T := by
  refine ⟨m.pos, ?_, m.uniq, m.hashOk⟩
  intro x t ht hne d hd0 hd
  rcases m.chain x t ht hne d hd0 hd with h | h
  · exact h
  · exfalso
    -- bring x into the window (P, P + n)
    obtain ⟨x', hx', hx1, hx2⟩ : ∃ x' : Int, x' % T.length = x % T.length ∧ P ≤ x' ∧
        x' < P + T.length := by
      refine ⟨P + (x - P) % T.length, ?_, ?_, ?_⟩
      · rw [Int.add_emod_emod]; congr 1; omega
      · have := Int.emod_nonneg (x - P) (show (T.length : Int) ≠ 0 by have := m.pos; omega); omega
      · have := Int.emod_lt_of_pos (x - P) (show (0 : Int) < T.length by have := m.pos; omega)
        omega
    have ht' : cell T x' = some t := by rw [cell_congr hx']; exact ht
    have hdx : disp k T.length x' t = disp k T.length x t := disp_congr hx'
    have hlt := disp_lt (k := k) m.pos x t
    have hxP : x' ≠ P := by rintro rfl; exact m.hole ⟨t, ht', hne⟩
    have hd' : x' - d = P := by
      apply emod_window (n := T.length)
      · rw [Int.sub_emod, hx', ← Int.sub_emod]; exact h
      · omega
      · omega
    by_cases hY : x' ≤ Y
    · have := hskip x' t (by omega) hY ht' hne
      omega
    · have hxe : x' ≠ Y + 1 := by rintro rfl; exact hfree ⟨t, ht', hne⟩
      rcases m.chain x' t ht' hne (x' - (Y + 1)) (by omega) (by omega) with h' | h'
      · rw [show x' - (x' - (Y + 1)) = Y + 1 by omega] at h'; exact hfree h'
      · rw [show x' - (x' - (Y + 1)) = Y + 1 by omega] at h'
        have := emod_window h' (by omega) (by omega)
        omega

/-- The backward-shift loop closes the hole. -/
theorem shift_spec {k : Kind K C} :
    ∀ (fuel : Nat) (T : List (Item K V)) (P Y e : Int), IsCap T.length → Mid k T P → P ≤ Y → Y < e →
    e < P + T.length → e ≤ Y + fuel → ¬ Full k T e →
    (∀ x t, P < x → x ≤ Y → cell T x = some t → t.key ≠ k.zero → disp k T.length x t < x - P) →
    ∃ T', shift k (sub32 T.length 1) fuel T (idx T.length P) (idx T.length Y) = .ok T' ∧
      Good k T' ∧ T'.length = T.length ∧ occupied k T' = occupied k T ∧
      ∀ c v, Has k T' c v ↔ Has k T c v := by
  intro fuel
  induction fuel with
  | zero => intro T P Y e hc m h1 h2 h3 h4; omega
  | succ fuel ih =>
    intro T P Y e hc m h1 h2 h3 h4 he hskip
    have hn := m.pos
    obtain ⟨t, ht⟩ := cell_total hn (Y + 1)
    simp only [shift]
    rw [mask_next hc, rd_cell ht, Res.ok_bind]
    by_cases hz : t.key = k.zero
    · refine ⟨T, by rw [if_pos hz], ?_, rfl, rfl, fun _ _ => Iff.rfl⟩
      exact m.done h1 (by omega) hskip ((not_full_iff ht).2 hz)
    · rw [if_neg hz]
      have hYe : Y + 1 ≠ e := by rintro rfl; exact he ⟨t, ht, hz⟩
      rw [m.hashOk (Y + 1) t ht hz]
      by_cases hs : Y + 1 - P ≤ disp k T.length (Y + 1) t
      · rw [if_pos ((shiftTest_iff hc (by omega) (by omega)).2 hs), wr_cell hn, Res.ok_bind]
        have hl : (T.set (idx T.length P) t).length = T.length := List.length_set
        have hw := wr_cell (T := T.set (idx T.length P) t) (by rw [hl]; exact hn) (Y + 1)
          { t with key := k.zero }
        rw [hl] at hw
        rw [hw, Res.ok_bind]
        obtain ⟨m', hocc, hhas, hfr, _⟩ := m.move ht hz (by omega) (by omega) hs
        have hl' : ((T.set (idx T.length P) t).set (idx T.length (Y + 1))
            { t with key := k.zero }).length = T.length := by simp
        have hP : e % T.length ≠ P % T.length := by
          intro h
          have := emod_window h (by omega) (by omega)
          omega
        obtain ⟨T', hr, hg, hlen, hocc', hhas'⟩ := ih _ (Y + 1) (Y + 1) e (by rw [hl']; exact hc)
          m' (by omega) (by omega) (by rw [hl']; omega) (by omega) (hfr e hP he)
          (by intro x _ h1 h2; omega)
        rw [hl'] at hr hlen
        exact ⟨T', hr, hg, hlen, by rw [hocc', hocc],
          fun c v => (hhas' c v).trans (hhas c v)⟩
      · rw [if_neg (by rw [shiftTest_iff hc (by omega) (by omega)]; exact hs)]
        refine ih T P (Y + 1) e hc m (by omega) (by omega) h3 (by omega) he ?_
        intro x a hx1 hx2 ha hane
        by_cases hx : x = Y + 1
        · subst hx; rw [ht] at ha; cases ha; omega
        · exact hskip x a hx1 (by omega) ha hane

/-- Removing the item at `z` and shifting back. -/
theorem delete_spec {k : Kind K C} {T : List (Item K V)} (hc : IsCap T.length) (g : Good k T)
    (hocc : occupied k T < T.length) {z : Int} {t : Item K V} (ht : cell T z = some t)
    (hne : t.key ≠ k.zero) :
    ∃ T', shift k (sub32 T.length 1) T.length (T.set (idx T.length z) { t with key := k.zero })
        (idx T.length z) (idx T.length z) = .ok T' ∧
      Good k T' ∧ T'.length = T.length ∧ occupied k T' + 1 = occupied k T ∧
      ∀ c v, Has k T' c v ↔ c ≠ k.cls t.key ∧ Has k T c v := by
  have hn := g.pos
  have hcs := cell_set hn z
  let T0 := T.set (idx T.length z) { t with key := k.zero }
  have hcs0 : ∀ x, cell T0 x = if x % T.length = z % T.length
      then some { t with key := k.zero } else cell T x := fun x => hcs x _
  have hl : T0.length = T.length := by simp [T0]
  have hback : ∀ x a, cell T0 x = some a → a.key ≠ k.zero →
      x % T.length ≠ z % T.length ∧ cell T x = some a := by
    intro x a ha hane
    rw [hcs0] at ha
    by_cases h : x % T.length = z % T.length
    · rw [if_pos h] at ha; cases ha; exact absurd rfl hane
    · rw [if_neg h] at ha; exact ⟨h, ha⟩
  have hm : Mid k T0 z := by
    refine ⟨by rw [hl]; exact hn, ?_, ?_, ?_, ?_⟩
    · have : cell T0 z = some { t with key := k.zero } := by rw [hcs0, if_pos rfl]
      rw [not_full_iff this]
    · intro x a ha hane d hd0 hd
      rw [hl] at hd ⊢
      obtain ⟨hx, h⟩ := hback x a ha hane
      obtain ⟨b, hb, hbne⟩ := g.chain x a h hane d hd0 hd
      by_cases hz : (x - d) % T.length = z % T.length
      · exact Or.inr hz
      · left; unfold Full; rw [hcs0, if_neg hz]; exact ⟨b, hb, hbne⟩
    · intro x y a b ha hb hane hbne hab
      rw [hl]
      exact g.uniq x y a b (hback x a ha hane).2 (hback y b hb hbne).2 hane hbne hab
    · intro x a ha hane
      exact g.hashOk x a (hback x a ha hane).2 hane
  obtain ⟨e, he1, he2, he3⟩ := exists_free hocc z
  have hze : e ≠ z := by rintro rfl; exact he3 ⟨t, ht, hne⟩
  have he0 : ¬ Full k T0 e := by
    rintro ⟨a, ha, hane⟩
    exact he3 ⟨a, (hback e a ha hane).2, hane⟩
  obtain ⟨T', hr, hg, hlen, hocc', hhas⟩ := shift_spec T.length T0 z z e (by rw [hl]; exact hc) hm
    (by omega) (by omega) (by rw [hl]; omega) (by omega) he0 (by intro x _ h1 h2; omega)
  rw [hl] at hr hlen
  refine ⟨T', hr, hg, hlen, ?_, ?_⟩
  · rw [hocc']
    have hget : T[idx T.length z]'(idx_lt hn z) = t := by
      rw [cell_eq] at ht; exact (List.getElem?_eq_some_iff.1 ht).2
    have hpos : 0 < occupied k T := by
      unfold occupied
      rw [List.countP_pos_iff]
      exact ⟨t, by rw [← hget]; exact List.getElem_mem _, by simpa using hne⟩
    show List.countP _ (T.set _ _) + 1 = _
    unfold occupied at *
    rw [List.countP_set (idx_lt hn z), hget, if_pos (by simpa using hne), if_neg (by simp)]
    omega
  · intro c v
    rw [hhas]
    constructor
    · rintro ⟨x, a, ha, hane, hcc, hv⟩
      obtain ⟨hx, h⟩ := hback x a ha hane
      refine ⟨?_, x, a, h, hane, hcc, hv⟩
      intro hcl
      exact hx (g.uniq x z a t h ht hane hne (by rw [hcc, hcl]))
    · rintro ⟨hcl, x, a, ha, hane, hcc, hv⟩
      refine ⟨x, a, ?_, hane, hcc, hv⟩
      rw [hcs0, if_neg]
      · exact ha
      · intro hx
        rw [cell_congr hx, ht] at ha; cases ha
        exact hcl hcc.symm

end Verif.Map
