import Verif.Map.Props

/-! # What looking up costs

A map keeps no trace of deleted entries: how many cells a lookup looks at depends on the keys that are in the
map and on its capacity, not on the calls that led there. -/

set_option linter.unusedSectionVars false

namespace Verif.Map

variable {K C V : Type} [DecidableEq K] [DecidableEq C]

/-- The probe loops of put, get and del, map/sc_map.c:241-247, 271-278, 303-310, with the number of cells they
look at. -/
def probeC (k : Kind K C) (mod : Nat) (key : K) (h : Nat) :
    (fuel : Nat) → List (Item K V) → (pos : Nat) → Res (Nat × Nat)
  | 0, _, _ => .ub
  | fuel + 1, mem, pos => do
    let c ← rd mem pos
    if c.key = k.zero then .ok (pos, 1)
    else if !k.cmp c key h then do
      let (p, n) ← probeC k mod key h fuel mem (add32 pos 1 &&& mod)
      .ok (p, n + 1)
    else .ok (pos, 1)

/-- How many cells looking for a key looks at. The key 0 has a place of its own, map/sc_map.c:228-237, 264-267,
293-300. -/
def looked (k : Kind K C) (m : Map K V) (key : K) : Res Nat :=
  if key = k.zero then .ok 0
  else do
    let h := k.hash (k.cls key)
    let (_, n) ← probeC k (sub32 m.cap 1) key h (m.cap + 1) m.mem (h &&& sub32 m.cap 1)
    .ok n

/-- Counting changes nothing. -/
theorem probeC_probe {k : Kind K C} {mod : Nat} {key : K} {h : Nat} : ∀ {fuel : Nat} {mem : List (Item K V)} {pos : Nat},
    (do let (p, _) ← probeC k mod key h fuel mem pos; Res.ok p) = probe k mod key h fuel mem pos := by
  intro fuel
  induction fuel with
  | zero => intro mem pos; rfl
  | succ fuel ih =>
    intro mem pos
    simp only [probeC, probe]
    cases hr : rd mem pos with
    | ub => rfl
    | ok c =>
      simp only [Res.ok_bind]
      by_cases hz : c.key = k.zero
      · simp [hz]
      · by_cases hc : (!k.cmp c key h) = true
        · simp only [hz, hc, if_true, if_false, ← ih]
          generalize probeC k mod key h fuel mem (add32 pos 1 &&& mod) = x
          cases x <;> rfl
        · simp [hz, hc]

/-! ## Runs of occupied cells -/

/-- The cells from `y` on, once around. -/
def around (T : List (Item K V)) (y : Int) : List (Item K V) :=
  T.drop (idx T.length y) ++ T.take (idx T.length y)

theorem around_perm (T : List (Item K V)) (y : Int) : (around T y).Perm T := by
  unfold around
  have h := List.perm_append_comm (l₁ := T.drop (idx T.length y)) (l₂ := T.take (idx T.length y))
  rwa [List.take_append_drop] at h

theorem around_length (T : List (Item K V)) (y : Int) : (around T y).length = T.length := (around_perm T y).length_eq

theorem around_get {T : List (Item K V)} {y : Int} {i : Nat} (h : i < T.length) :
    (around T y)[i]? = cell T (y + i) := by
  have hn : 0 < T.length := by omega
  have hy := idx_lt hn y
  have hm := idx_cast hn y
  rw [cell_eq]
  unfold around
  rw [List.getElem?_append, List.length_drop, List.getElem?_drop, List.getElem?_take]
  have key : (y + i) % T.length = ((idx T.length y : Int) + i) % T.length := by
    rw [hm, Int.emod_add_emod]
  by_cases hlt : i < T.length - idx T.length y
  · rw [if_pos hlt]
    congr 1
    rw [(idx_eq_iff hn).2 (show (y + i) % T.length = (((idx T.length y + i : Nat) : Int)) % T.length by rw [key]; rfl), idx_of_lt (by omega)]
  · rw [if_neg hlt, if_pos (by omega)]
    congr 1
    rw [(idx_eq_iff hn).2 (show (y + i) % T.length = (((i - (T.length - idx T.length y) : Nat) : Int)) % T.length by
      rw [key]
      apply Int.emod_eq_emod_iff_emod_sub_eq_zero.2
      have : (idx T.length y : Int) + i - ((i - (T.length - idx T.length y) : Nat) : Int) = T.length := by omega
      rw [this, Int.emod_self]), idx_of_lt (by omega)]

/-- A run of occupied cells is no longer than the number of them. -/
theorem run_le {k : Kind K C} {T : List (Item K V)} {y : Int} {d : Nat} (hd : d < T.length)
    (h : ∀ i : Nat, i < d → Full k T (y + i)) : d ≤ occupied k T := by
  have h1 : ((around T y).take d).countP (fun t => decide (t.key ≠ k.zero)) = ((around T y).take d).length := by
    rw [List.countP_eq_length]
    intro t ht
    obtain ⟨i, hi, rfl⟩ := List.getElem_of_mem ht
    have hi' : i < d := by rw [List.length_take] at hi; omega
    obtain ⟨t', h1, h2⟩ := h i hi'
    rw [← around_get (by omega)] at h1
    have : ((around T y).take d)[i]? = some t' := by rw [List.getElem?_take, if_pos hi']; exact h1
    rw [List.getElem?_eq_getElem hi] at this
    cases this
    simpa using h2
  have h2 : ((around T y).take d).countP (fun t => decide (t.key ≠ k.zero)) ≤ (around T y).countP (fun t => decide (t.key ≠ k.zero)) :=
    (List.take_sublist d _).countP_le
  rw [h1, (around_perm T y).countP_eq, List.length_take, around_length] at h2
  unfold occupied
  omega

theorem probeC_run {k : Kind K C} {T : List (Item K V)} (hc : IsCap T.length) (key : K) (h : Nat) {t : Item K V} :
    ∀ (d fuel : Nat) (y : Int), d < fuel →
    (∀ i : Nat, i < d → ∃ a, cell T (y + i) = some a ∧ a.key ≠ k.zero ∧ k.cmp a key h = false) →
    cell T (y + d) = some t → (t.key = k.zero ∨ k.cmp t key h = true) →
    probeC k (sub32 T.length 1) key h fuel T (idx T.length y) = .ok (idx T.length (y + d), d + 1) := by
  intro d
  induction d with
  | zero =>
    intro fuel y hf _ ht hend
    obtain ⟨fuel, rfl⟩ : ∃ f, fuel = f + 1 := ⟨fuel - 1, by omega⟩
    have ht : cell T y = some t := by simpa using ht
    simp only [probeC, rd_cell ht, Res.ok_bind]
    by_cases hz : t.key = k.zero
    · simp [hz]
    · have hm := hend.resolve_left hz
      simp [hz, hm]
  | succ d ih =>
    intro fuel y hf hall ht hend
    obtain ⟨fuel, rfl⟩ : ∃ f, fuel = f + 1 := ⟨fuel - 1, by omega⟩
    obtain ⟨a, ha, hne, hcm⟩ := hall 0 (by omega)
    have ha : cell T y = some a := by simpa using ha
    have h2 := ih fuel (y + 1) (by omega)
      (fun i hi => by
        have := hall (i + 1) (by omega)
        rwa [show y + ((i + 1 : Nat) : Int) = y + 1 + i by omega] at this)
      (by rwa [show y + ((d + 1 : Nat) : Int) = y + 1 + d by omega] at ht) hend
    simp only [probeC, rd_cell ha, Res.ok_bind, if_neg hne, hcm, Bool.not_false, if_true, mask_next hc, h2]
    rw [show y + ((d + 1 : Nat) : Int) = y + 1 + d by omega]

/-- Where a lookup ends, and what it costs. -/
theorem looked_spec {k : Kind K C} {m : Map K V} {f : Spec.FMap C V} (r : Rep k m f) {key : K} (hk : key ≠ k.zero) :
    ∃ (d : Nat) (t : Item K V), looked k m key = .ok (d + 1) ∧ d < m.cap ∧
      cell m.mem ((k.hash (k.cls key) : Int) + d) = some t ∧
      (∀ i : Nat, i < d → ∃ a, cell m.mem ((k.hash (k.cls key) : Int) + i) = some a ∧ a.key ≠ k.zero ∧
        k.cls a.key ≠ k.cls key) ∧
      (t.key = k.zero ∨ t.key ≠ k.zero ∧ k.cls t.key = k.cls key) := by
  have hc : IsCap m.mem.length := by rw [r.len]; exact r.cap
  obtain ⟨e, he1, he2, he3⟩ := exists_free r.room (k.hash (k.cls key) : Int)
  obtain ⟨z, t, -, h1, h2, ht, hall, hend⟩ :=
    probe_spec hc key (k.hash (k.cls key)) e he3 (m.mem.length + 1) (k.hash (k.cls key) : Int) he1 (by omega)
  obtain ⟨d, hd⟩ : ∃ d : Nat, z = (k.hash (k.cls key) : Int) + d := ⟨(z - (k.hash (k.cls key) : Int)).toNat, by omega⟩
  subst hd
  have hp := probeC_run hc key (k.hash (k.cls key)) (t := t) d (m.mem.length + 1) (k.hash (k.cls key) : Int) (by omega)
    (fun i hi => hall _ (by omega) (by omega)) ht hend
  refine ⟨d, t, ?_, by rw [← r.len]; omega, ht, ?_, ?_⟩
  · unfold looked
    rw [if_neg hk, ← r.len]
    simp only [mask_hash hc, hp, Res.ok_bind]
  · intro i hi
    obtain ⟨a, ha, hne, hcm⟩ := hall _ (show (k.hash (k.cls key) : Int) ≤ (k.hash (k.cls key) : Int) + i by omega) (by omega)
    refine ⟨a, ha, hne, fun hcl => ?_⟩
    rw [(cmp_iff r.good ha hne key).2 hcl] at hcm
    cases hcm
  · by_cases hz : t.key = k.zero
    · exact .inl hz
    · exact .inr ⟨hz, (cmp_iff r.good ht hz key).1 (hend.resolve_left hz)⟩

/-! ## The occupied cells are determined by the keys -/

/-- No injection into a smaller range -/
theorem pigeonhole {w : Nat} {f : Nat → Nat} (hf : ∀ i, i < w + 1 → f i < w)
    (hi : ∀ i j, i < w + 1 → j < w + 1 → f i = f j → i = j) : False := by
  have hn : ((List.range (w + 1)).map f).Nodup := by
    unfold List.Nodup
    rw [List.pairwise_map]
    refine List.Pairwise.imp_of_mem ?_ (List.nodup_range (n := w + 1))
    intro a b ha hb hab h
    exact hab (hi a b (List.mem_range.1 ha) (List.mem_range.1 hb) h)
  have := hn.length_le_of_subset (l₂ := List.range w) (by
    intro x hx
    obtain ⟨i, h1, rfl⟩ := List.mem_map.1 hx
    exact List.mem_range.2 (hf i (List.mem_range.1 h1)))
  simp at this
  omega

theorem full_of {k : Kind K C} {T T' : List (Item K V)} (g : Good k T) (g' : Good k T') (hl : T.length = T'.length)
    (hr : occupied k T < T.length) (hk : ∀ c, HasKey k T c → HasKey k T' c) {x : Int} (hx : Full k T x) : Full k T' x := by
  apply Classical.byContradiction
  intro hn
  -- the last free cell before `x`
  obtain ⟨e, he1, he2, he3⟩ := exists_free hr (x - T.length)
  have hw : ∃ w : Nat, ¬ Full k T (x - w - 1) ∧ w < T.length ∧ ∀ i : Nat, i ≤ w → Full k T (x - i) := by
    have : ∀ n : Nat, (∀ i : Nat, i < n → Full k T (x - i)) ∨
        ∃ w : Nat, w + 1 < n + 1 ∧ ¬ Full k T (x - w - 1) ∧ ∀ i : Nat, i ≤ w → Full k T (x - i) := by
      intro n
      induction n with
      | zero => left; intro i hi; omega
      | succ n ih =>
        rcases ih with h | ⟨w, h1, h2, h3⟩
        · by_cases hf : Full k T (x - n)
          · left
            intro i hi
            by_cases hin : i = n
            · rw [hin]; exact hf
            · exact h i (by omega)
          · right
            have hn0 : n ≠ 0 := by rintro rfl; exact hf (by simpa using hx)
            refine ⟨n - 1, by omega, ?_, fun i hi => h i (by omega)⟩
            rwa [show x - ((n - 1 : Nat) : Int) - 1 = x - n by omega]
        · exact .inr ⟨w, by omega, h2, h3⟩
    rcases this (T.length + 1) with h | ⟨w, h1, h2, h3⟩
    · refine absurd ?_ he3
      have := h (x - e).toNat (by omega)
      rwa [show x - ((x - e).toNat : Int) = e by omega] at this
    · refine ⟨w, h2, ?_, h3⟩
      apply Classical.byContradiction
      intro hge
      have := h3 (x - e).toNat (by omega)
      rw [show x - ((x - e).toNat : Int) = e by omega] at this
      exact he3 this
  obtain ⟨w, hfree, hwn, hfull⟩ := hw
  -- where its items are in the other table
  have hpos : ∀ i : Nat, ∃ j : Nat, i < w + 1 → j < w ∧ ∃ t t', cell T (x - i) = some t ∧ t.key ≠ k.zero ∧
      cell T' (x - 1 - j) = some t' ∧ t'.key ≠ k.zero ∧ k.cls t'.key = k.cls t.key := by
    intro i
    by_cases hi : i < w + 1
    · obtain ⟨t, ht, hne⟩ := hfull i (by omega)
      obtain ⟨y, t', ht', hne', hcl⟩ := hk _ ⟨x - i, t, ht, hne, rfl⟩
      have hd0 := disp_nonneg (k := k) g.pos (x - i) t
      have hd : disp k T.length (x - i) t < w + 1 - i := by
        apply Classical.byContradiction
        intro hge
        exact hfree (chain_reach g ht hne (by omega) (by omega))
      -- its home, and its place from there
      have hhome : (x - i - disp k T.length (x - i) t) % T.length = (k.hash (k.cls t.key) : Int) % T.length := by
        unfold disp
        rw [Int.sub_emod, Int.emod_emod, ← Int.sub_emod]
        congr 1
        omega
      have he0 := disp_nonneg (k := k) g'.pos y t'
      have hyp : (x - i - disp k T.length (x - i) t + disp k T'.length y t') % T'.length = y % T'.length := by
        rw [← hl, ← Int.emod_add_emod, hhome, Int.emod_add_emod, ← hcl, hl]
        unfold disp
        rw [Int.add_emod_emod]
        congr 1
        omega
      have ht2 : cell T' (x - i - disp k T.length (x - i) t + disp k T'.length y t') = some t' := by
        rw [cell_congr hyp]; exact ht'
      have hlt : x - i - disp k T.length (x - i) t + disp k T'.length y t' < x := by
        apply Classical.byContradiction
        intro hge
        refine hn (chain_reach g' ht2 hne' (by omega) ?_)
        rw [disp_congr hyp]
        omega
      refine ⟨(x - 1 - (x - i - disp k T.length (x - i) t + disp k T'.length y t')).toNat, fun _ =>
        ⟨by omega, t, t', ht, hne, ?_, hne', hcl⟩⟩
      rw [show x - 1 - ((x - 1 - (x - i - disp k T.length (x - i) t + disp k T'.length y t')).toNat : Int) =
        x - i - disp k T.length (x - i) t + disp k T'.length y t' by omega]
      exact ht2
    · exact ⟨0, fun h => absurd h hi⟩
  obtain ⟨p, hp⟩ := Classical.axiomOfChoice hpos
  refine pigeonhole (w := w) (f := p) (fun i hi => (hp i hi).1) ?_
  intro i j hi hj hij
  obtain ⟨-, t, t', h1, h2, h3, h4, h5⟩ := hp i hi
  obtain ⟨-, s, s', q1, q2, q3, q4, q5⟩ := hp j hj
  rw [hij, q3] at h3
  cases h3
  have hu := g.uniq _ _ _ _ h1 q1 h2 q2 (by rw [← h5, ← q5])
  have := emod_window hu (by omega) (by omega)
  omega

/-- In two tables of the same size with the same keys, the same cells are occupied. -/
theorem full_same {k : Kind K C} {T T' : List (Item K V)} (g : Good k T) (g' : Good k T') (hl : T.length = T'.length)
    (hr : occupied k T < T.length) (hr' : occupied k T' < T'.length) (hk : ∀ c, HasKey k T c ↔ HasKey k T' c) (x : Int) :
    Full k T x ↔ Full k T' x :=
  ⟨full_of g g' hl hr fun c => (hk c).1, full_of g' g hl.symm hr' fun c => (hk c).2⟩

/-! ## The cost of keys that are in the map -/

open Classical in
/-- What looking up a class costs, 0 if there is none. -/
noncomputable def costOf (k : Kind K C) (T : List (Item K V)) (c : C) : Nat :=
  if h : ∃ d : Nat, ∃ x t, cell T x = some t ∧ t.key ≠ k.zero ∧ k.cls t.key = c ∧ disp k T.length x t = d then
    Classical.choose h + 1
  else 0

theorem costOf_eq {k : Kind K C} {T : List (Item K V)} (g : Good k T) {x : Int} {t : Item K V} (ht : cell T x = some t)
    (hne : t.key ≠ k.zero) : (costOf k T (k.cls t.key) : Int) = disp k T.length x t + 1 := by
  have h0 := disp_nonneg (k := k) g.pos x t
  have h : ∃ d : Nat, ∃ x' t', cell T x' = some t' ∧ t'.key ≠ k.zero ∧ k.cls t'.key = k.cls t.key ∧
      disp k T.length x' t' = d := ⟨(disp k T.length x t).toNat, x, t, ht, hne, rfl, by omega⟩
  unfold costOf
  rw [dif_pos h]
  obtain ⟨x', t', h1, h2, h3, h4⟩ := Classical.choose_spec h
  have hu := g.uniq _ _ _ _ h1 ht h2 hne h3
  rw [cell_congr hu, ht] at h1
  cases h1
  rw [disp_congr hu] at h4
  omega

theorem costOf_none {k : Kind K C} {T : List (Item K V)} {c : C} (h : ¬ HasKey k T c) : costOf k T c = 0 := by
  unfold costOf
  rw [dif_neg]
  rintro ⟨d, x, t, h1, h2, h3, -⟩
  exact h ⟨x, t, h1, h2, h3⟩

/-- What a lookup of a key that is there costs. -/
theorem looked_present {k : Kind K C} {m : Map K V} {f : Spec.FMap C V} (r : Rep k m f) {key : K} (hk : key ≠ k.zero)
    (h : HasKey k m.mem (k.cls key)) : looked k m key = .ok (costOf k m.mem (k.cls key)) := by
  obtain ⟨d, t, h1, h2, h3, h4, h5⟩ := looked_spec r hk
  rcases h5 with h5 | ⟨h5, h6⟩
  · refine absurd h (absent_of_probe r.good (z := (k.hash (k.cls key) : Int) + d) (by omega) ?_ (by rw [not_full_iff h3]; exact h5))
    intro x hx1 hx2 a ha
    obtain ⟨b, hb, -, hcl⟩ := h4 (x - (k.hash (k.cls key) : Int)).toNat (by omega)
    rw [show (k.hash (k.cls key) : Int) + ((x - (k.hash (k.cls key) : Int)).toNat : Int) = x by omega, ha] at hb
    cases hb
    exact hcl
  · have he := costOf_eq r.good h3 h5
    rw [h6] at he
    have hd : disp k m.mem.length ((k.hash (k.cls key) : Int) + d) t = d := by
      unfold disp
      rw [h6, show (k.hash (k.cls key) : Int) + d - (k.hash (k.cls key) : Int) = d by omega]
      exact Int.emod_eq_of_lt (by omega) (by rw [r.len]; omega)
    rw [h1]
    congr 1
    omega

/-- How many cells looking up each of some keys looks at. -/
def lookedAll (k : Kind K C) (m : Map K V) : List K → Res Nat
  | [] => .ok 0
  | key :: keys => do
    let a ← looked k m key
    let b ← lookedAll k m keys
    .ok (a + b)

theorem lookedAll_eq {k : Kind K C} {m : Map K V} {f : Spec.FMap C V} (r : Rep k m f) (hz : ZeroOk k) : ∀ {keys : List K},
    (∀ key ∈ keys, key ≠ k.zero → HasKey k m.mem (k.cls key)) →
    lookedAll k m keys = .ok ((keys.map fun key => costOf k m.mem (k.cls key)).sum)
  | [], _ => rfl
  | key :: keys, h => by
    have h1 : looked k m key = .ok (costOf k m.mem (k.cls key)) := by
      by_cases hk : key = k.zero
      · rw [costOf_none, looked, if_pos hk]
        rintro ⟨x, t, -, hne, hc⟩
        rw [hk] at hc
        exact hne (hz _ hc)
      · exact looked_present r hk (h key (by simp) hk)
    simp only [lookedAll, h1, lookedAll_eq r hz fun x hx => h x (List.mem_cons_of_mem _ hx), Res.ok_bind, List.map_cons,
      List.sum_cons]

/-- The items of a table with their distance from `z`. -/
def placed (k : Kind K C) (T : List (Item K V)) (z : Int) : List (Nat × Item K V) :=
  (List.range T.length).filterMap fun (i : Nat) =>
    match cell T (z + i) with
    | some t => if t.key = k.zero then none else some (i, t)
    | none => none

theorem mem_placed {k : Kind K C} {T : List (Item K V)} {z : Int} {i : Nat} {t : Item K V} :
    (i, t) ∈ placed k T z ↔ i < T.length ∧ cell T (z + i) = some t ∧ t.key ≠ k.zero := by
  unfold placed
  rw [List.mem_filterMap]
  constructor
  · rintro ⟨j, hj, h⟩
    split at h
    · split at h
      · cases h
      · cases h
        exact ⟨List.mem_range.1 hj, by assumption, by assumption⟩
    · cases h
  · rintro ⟨h1, h2, h3⟩
    exact ⟨i, List.mem_range.2 h1, by simp [h2, h3]⟩

/-- Where the distances come from -/
theorem placed_fst {k : Kind K C} {T T' : List (Item K V)} (hl : T.length = T'.length)
    (h : ∀ x, Full k T x ↔ Full k T' x) (hn : 0 < T.length) (z : Int) :
    (placed k T z).map Prod.fst = (placed k T' z).map Prod.fst := by
  unfold placed
  rw [← hl, List.map_filterMap, List.map_filterMap]
  congr 1
  funext i
  obtain ⟨t, ht⟩ := cell_total hn (z + i)
  obtain ⟨t', ht'⟩ := cell_total (T := T') (by omega) (z + i)
  have hf := h (z + i)
  rw [ht, ht']
  have h1 := not_full_iff (k := k) ht
  have h2 := not_full_iff (k := k) ht'
  by_cases hz : t.key = k.zero
  · have hz' : t'.key = k.zero := by rw [← h2, ← hf, h1]; exact hz
    simp [hz, hz']
  · have hz' : t'.key ≠ k.zero := by rw [Ne, ← h2, ← hf, h1]; exact hz
    simp [hz, hz']

theorem placed_nodup {k : Kind K C} {T : List (Item K V)} (g : Good k T) (z : Int) :
    ((placed k T z).map fun p => k.cls p.2.key).Nodup := by
  unfold List.Nodup
  rw [List.pairwise_map]
  have hp : (placed k T z).Pairwise fun p q => p.1 ≠ q.1 := by
    unfold placed
    rw [List.pairwise_filterMap]
    refine (List.nodup_range (n := T.length)).imp ?_
    intro i j hij p hp q hq
    have e1 : p.1 = i := by
      split at hp
      · split at hp
        · cases hp
        · cases hp; rfl
      · cases hp
    have e2 : q.1 = j := by
      split at hq
      · split at hq
        · cases hq
        · cases hq; rfl
      · cases hq
    rw [e1, e2]
    exact hij
  refine List.Pairwise.imp_of_mem ?_ hp
  rintro ⟨i, t⟩ ⟨j, s⟩ h1 h2 hij hc
  obtain ⟨a1, a2, a3⟩ := mem_placed.1 h1
  obtain ⟨b1, b2, b3⟩ := mem_placed.1 h2
  have := emod_window (g.uniq _ _ _ _ a2 b2 a3 b3 hc) (by omega) (by omega)
  simp only at hij
  omega

theorem placed_class {k : Kind K C} {T : List (Item K V)} (hn : 0 < T.length) (z : Int) (c : C) :
    c ∈ (placed k T z).map (fun p => k.cls p.2.key) ↔ HasKey k T c := by
  rw [List.mem_map]
  constructor
  · rintro ⟨⟨i, t⟩, h, rfl⟩
    obtain ⟨-, h2, h3⟩ := mem_placed.1 h
    exact ⟨_, t, h2, h3, rfl⟩
  · rintro ⟨x, t, h1, h2, rfl⟩
    have h0 := Int.emod_nonneg (x - z) (show (T.length : Int) ≠ 0 by omega)
    have h3 := Int.emod_lt_of_pos (x - z) (show (0 : Int) < T.length by omega)
    refine ⟨(((x - z) % T.length).toNat, t), mem_placed.2 ⟨by omega, ?_, h2⟩, rfl⟩
    rw [show z + (((x - z) % T.length).toNat : Int) = z + (x - z) % T.length by omega, ← h1]
    apply cell_congr
    rw [Int.add_emod_emod]
    congr 1
    omega

/-- The distance of the home of a class from `z` -/
def homeOf (k : Kind K C) (n : Nat) (z : Int) (c : C) : Nat := (((k.hash c : Int) - z) % n).toNat

/-- An item is as far from `z` as its home, and what it costs. -/
theorem placed_cost {k : Kind K C} {T : List (Item K V)} (g : Good k T) {z : Int} (hz : ¬ Full k T z) {i : Nat} {t : Item K V}
    (h : (i, t) ∈ placed k T z) : costOf k T (k.cls t.key) + homeOf k T.length z (k.cls t.key) = i + 1 := by
  obtain ⟨h1, h2, h3⟩ := mem_placed.1 h
  have h4 := costOf_eq g h2 h3
  have h0 := disp_nonneg (k := k) g.pos (z + i) t
  have h5 : disp k T.length (z + i) t < i := by
    apply Classical.byContradiction
    intro hge
    exact hz (chain_reach g h2 h3 (by omega) (by omega))
  have h6 : ((k.hash (k.cls t.key) : Int) - z) % T.length = i - disp k T.length (z + i) t := by
    have : ((k.hash (k.cls t.key) : Int) - z) % T.length = (i - disp k T.length (z + i) t) % T.length := by
      unfold disp
      rw [Int.sub_emod (i : Int), Int.emod_emod, ← Int.sub_emod]
      congr 1
      omega
    rw [this]
    exact Int.emod_eq_of_lt (by omega) (by omega)
  unfold homeOf
  omega

theorem sum_add {α : Type} (l : List α) (f g : α → Nat) :
    (l.map fun a => f a + g a).sum = (l.map f).sum + (l.map g).sum := by
  induction l with
  | nil => rfl
  | cons a l ih => simp only [List.map_cons, List.sum_cons, ih]; omega

theorem placed_sum {k : Kind K C} {T : List (Item K V)} (g : Good k T) {z : Int} (hz : ¬ Full k T z) :
    (((placed k T z).map fun p => k.cls p.2.key).map (costOf k T)).sum +
      (((placed k T z).map fun p => k.cls p.2.key).map (homeOf k T.length z)).sum =
    (((placed k T z).map Prod.fst).map fun i => i + 1).sum := by
  rw [← sum_add, List.map_map, List.map_map]
  congr 1
  apply List.map_congr_left
  rintro ⟨i, t⟩ h
  exact placed_cost g hz h

theorem sum_filter {α : Type} (p : α → Bool) (f : α → Nat) : ∀ (l : List α), (∀ a ∈ l, p a = false → f a = 0) →
    ((l.filter p).map f).sum = (l.map f).sum
  | [], _ => rfl
  | a :: l, h => by
    have ih := sum_filter p f l fun x hx => h x (List.mem_cons_of_mem _ hx)
    cases hp : p a with
    | true => rw [List.filter_cons_of_pos hp, List.map_cons, List.sum_cons, ih, List.map_cons, List.sum_cons]
    | false =>
      rw [List.filter_cons_of_neg (by simp [hp]), ih, List.map_cons, List.sum_cons, h a List.mem_cons_self hp]
      omega

theorem total_same {k : Kind K C} {T T' : List (Item K V)} (g : Good k T) (g' : Good k T') (hl : T.length = T'.length)
    (hr : occupied k T < T.length) (hr' : occupied k T' < T'.length) (hk : ∀ c, HasKey k T c ↔ HasKey k T' c)
    {cs : List C} (hn : cs.Nodup) (hc : ∀ c, HasKey k T c → c ∈ cs) :
    (cs.map (costOf k T)).sum = (cs.map (costOf k T')).sum := by
  have hf := full_same g g' hl hr hr' hk
  obtain ⟨z, -, -, hz⟩ := exists_free hr 0
  have hz' : ¬ Full k T' z := fun h => hz ((hf z).2 h)
  have s := placed_sum g hz
  have s' := placed_sum g' hz'
  rw [placed_fst hl hf g.pos, ← s', hl] at s
  have p : ((placed k T z).map fun p => k.cls p.2.key).Perm ((placed k T' z).map fun p => k.cls p.2.key) := by
    rw [List.perm_ext_iff_of_nodup (placed_nodup g z) (placed_nodup g' z)]
    intro c
    rw [placed_class g.pos, placed_class g'.pos]
    exact hk c
  have e := (p.map (homeOf k T'.length z)).sum_nat
  have q : ∀ (T : List (Item K V)) (hs : ∀ c, HasKey k T c → c ∈ cs) (g : Good k T),
      (cs.map (costOf k T)).sum = (((placed k T z).map fun p => k.cls p.2.key).map (costOf k T)).sum := by
    intro T hs g
    have h1 := sum_filter (fun c => decide (c ∈ (placed k T z).map fun p => k.cls p.2.key)) (costOf k T) cs (by
      intro c _ h
      apply costOf_none
      rw [← placed_class g.pos z]
      simpa using h)
    rw [← h1]
    have h2 : (cs.filter fun c => decide (c ∈ (placed k T z).map fun p => k.cls p.2.key)).Perm
        ((placed k T z).map fun p => k.cls p.2.key) := by
      rw [List.perm_ext_iff_of_nodup (hn.sublist List.filter_sublist) (placed_nodup g z)]
      intro c
      rw [List.mem_filter]
      constructor
      · intro h; simpa using h.2
      · intro h; exact ⟨hs c ((placed_class g.pos z c).1 h), by simpa using h⟩
    exact (h2.map _).sum_nat
  rw [q T hc g, q T' (fun c h => hc c ((hk c).2 h)) g']
  omega

/-! ## C134 -/

theorem Rep.hasKey {k : Kind K C} {m : Map K V} {f : Spec.FMap C V} (r : Rep k m f) (hz : ZeroOk k) (c : C) :
    HasKey k m.mem c ↔ c ≠ k.cls k.zero ∧ (f c).isSome = true := by
  constructor
  · rintro ⟨x, t, h1, h2, rfl⟩
    have hc : k.cls t.key ≠ k.cls k.zero := fun h => h2 (hz _ h)
    refine ⟨hc, ?_⟩
    rw [r.present hc h1 h2 rfl]
    rfl
  · rintro ⟨h1, h2⟩
    apply Classical.byContradiction
    intro h
    rw [r.absent h1 h] at h2
    cases h2

/-- **C134.** However a map came about, looking for a key looks at no more cells than there are keys in the map,
and one more if it is not found. -/
theorem looked_le {k : Kind K C} {v0 : V} (hz : ZeroOk k) {m m' : Map K V} (hm : Started k v0 m)
    {ops : List (Op K V)} {outs : List (Out V)} (hr : run k v0 m ops = .ok (m', outs)) :
    ∃ f, Spec.Run k.cls v0 Spec.empty ops outs f ∧ ∀ key, ∃ n, looked k m' key = .ok n ∧
      n ≤ m'.size + (if (f (k.cls key)).isSome then 0 else 1) := by
  obtain ⟨al, g, cap, lf, hcap, hinit⟩ := hm
  obtain ⟨m1, outs1, f, h1, h2, r⟩ := run_spec (v0 := v0) hz ops (init_rep hinit hcap)
  rw [hr] at h1
  cases h1
  refine ⟨f, h2, fun key => ?_⟩
  by_cases hk : key = k.zero
  · exact ⟨0, by rw [looked, if_pos hk], Nat.zero_le _⟩
  obtain ⟨d, t, h1, h2, h3, h4, h5⟩ := looked_spec r hk
  refine ⟨d + 1, h1, ?_⟩
  have hs := r.size
  rcases h5 with h5 | ⟨h5, h6⟩
  · have hle := run_le (k := k) (T := m'.mem) (y := (k.hash (k.cls key) : Int)) (d := d) (by rw [r.len]; exact h2)
      (fun i hi => by obtain ⟨a, h1, h2, -⟩ := h4 i hi; exact ⟨a, h1, h2⟩)
    have hn : ¬ HasKey k m'.mem (k.cls key) := by
      refine absent_of_probe r.good (z := (k.hash (k.cls key) : Int) + d) (by omega) ?_ (by rw [not_full_iff h3]; exact h5)
      intro x hx1 hx2 a ha
      obtain ⟨b, hb, -, hcl⟩ := h4 (x - (k.hash (k.cls key) : Int)).toNat (by omega)
      rw [show (k.hash (k.cls key) : Int) + ((x - (k.hash (k.cls key) : Int)).toNat : Int) = x by omega, ha] at hb
      cases hb
      exact hcl
    have : (f (k.cls key)).isSome = false := by
      rw [r.absent (fun h => hk (hz _ h)) hn]
      rfl
    rw [this]
    simp only [Bool.false_eq_true, if_false]
    omega
  · have hroom := r.room
    have hlt : d + 1 ≤ m'.mem.length := by rw [r.len]; omega
    have hle : d + 1 ≤ occupied k m'.mem := by
      rcases Nat.lt_or_ge (d + 1) m'.mem.length with hlt | hge
      · apply run_le (y := (k.hash (k.cls key) : Int)) hlt
        intro i hi
        by_cases hid : i = d
        · rw [hid]; exact ⟨t, h3, h5⟩
        · obtain ⟨a, h1, h2, -⟩ := h4 i (by omega); exact ⟨a, h1, h2⟩
      · -- all cells would be occupied
        exfalso
        obtain ⟨e, he1, he2, he3⟩ := exists_free hroom (k.hash (k.cls key) : Int)
        apply he3
        have hid : e = (k.hash (k.cls key) : Int) + (e - (k.hash (k.cls key) : Int)).toNat := by omega
        rw [hid]
        by_cases hd : (e - (k.hash (k.cls key) : Int)).toNat = d
        · rw [hd]; exact ⟨t, h3, h5⟩
        · obtain ⟨a, h1, h2, -⟩ := h4 (e - (k.hash (k.cls key) : Int)).toNat (by omega)
          exact ⟨a, h1, h2⟩
    omega

/-- **C135**, what holds of it: whoever chose the keys, looking for a key looks at no more cells than there are keys
in the map, and one more if it is not found. Missing: that it stays cheap when the map has many keys, which is false
(`string_flood_violated`, `u64_flood_violated`, `u32_flood_violated`, `row_miss_violated`). -/
theorem lookup_cost_partial {k : Kind K C} {v0 : V} (hz : ZeroOk k) {m m' : Map K V} (hm : Started k v0 m)
    {ops : List (Op K V)} {outs : List (Out V)} (hr : run k v0 m ops = .ok (m', outs)) (key : K) :
    ∃ n, looked k m' key = .ok n ∧ n ≤ m'.size + 1 := by
  obtain ⟨f, _, h⟩ := looked_le hz hm hr
  obtain ⟨n, h1, h2⟩ := h key
  exact ⟨n, h1, by split at h2 <;> omega⟩


/-- **C134.** Two maps that have the same capacity and the same keys, whatever calls led there: looking for a key that is
not in them costs the same in both, and so does looking up all keys that are, together. Entries that were deleted
leave no trace. -/
theorem looked_same {k : Kind K C} {v0 : V} (hz : ZeroOk k) {m₁ m₂ m₁' m₂' : Map K V} (hm₁ : Started k v0 m₁)
    (hm₂ : Started k v0 m₂) {ops₁ ops₂ : List (Op K V)} {outs₁ outs₂ : List (Out V)}
    (hr₁ : run k v0 m₁ ops₁ = .ok (m₁', outs₁)) (hr₂ : run k v0 m₂ ops₂ = .ok (m₂', outs₂)) (hcap : m₁'.cap = m₂'.cap) :
    ∃ f₁ f₂, Spec.Run k.cls v0 Spec.empty ops₁ outs₁ f₁ ∧ Spec.Run k.cls v0 Spec.empty ops₂ outs₂ f₂ ∧
      ((∀ c, (f₁ c).isSome = (f₂ c).isSome) →
        (∀ key, f₁ (k.cls key) = none → looked k m₁' key = looked k m₂' key) ∧
        (∀ keys : List K, (keys.map k.cls).Nodup → (∀ c, c ∈ keys.map k.cls ↔ (f₁ c).isSome = true) →
          lookedAll k m₁' keys = lookedAll k m₂' keys)) := by
  obtain ⟨al₁, g₁, cap₁, lf₁, hc₁, hi₁⟩ := hm₁
  obtain ⟨al₂, g₂, cap₂, lf₂, hc₂, hi₂⟩ := hm₂
  obtain ⟨x₁, y₁, f₁, a₁, b₁, r₁⟩ := run_spec (v0 := v0) hz ops₁ (init_rep hi₁ hc₁)
  obtain ⟨x₂, y₂, f₂, a₂, b₂, r₂⟩ := run_spec (v0 := v0) hz ops₂ (init_rep hi₂ hc₂)
  rw [hr₁] at a₁
  rw [hr₂] at a₂
  cases a₁
  cases a₂
  refine ⟨f₁, f₂, b₁, b₂, fun hf => ?_⟩
  have hk : ∀ c, HasKey k m₁'.mem c ↔ HasKey k m₂'.mem c := by
    intro c
    rw [r₁.hasKey hz, r₂.hasKey hz, hf]
  have hl : m₁'.mem.length = m₂'.mem.length := by rw [r₁.len, r₂.len, hcap]
  constructor
  · intro key hnone
    by_cases h0 : key = k.zero
    · rw [looked, looked, if_pos h0, if_pos h0]
    have hs := full_same r₁.good r₂.good hl r₁.room r₂.room hk
    have stop : ∀ {m : Map K V} {f : Spec.FMap C V}, Rep k m f → ¬ HasKey k m.mem (k.cls key) →
        ∃ d : Nat, looked k m key = .ok (d + 1) ∧ ¬ Full k m.mem ((k.hash (k.cls key) : Int) + d) ∧
          ∀ i : Nat, i < d → Full k m.mem ((k.hash (k.cls key) : Int) + i) := by
      intro m f r hn
      obtain ⟨d, t, h1, h2, h3, h4, h5⟩ := looked_spec r h0
      refine ⟨d, h1, ?_, fun i hi => by obtain ⟨a, h1, h2, -⟩ := h4 i hi; exact ⟨a, h1, h2⟩⟩
      rcases h5 with h5 | ⟨h5, h6⟩
      · rw [not_full_iff h3]; exact h5
      · exact absurd ⟨_, t, h3, h5, h6⟩ hn
    have hn₁ : ¬ HasKey k m₁'.mem (k.cls key) := by rw [r₁.hasKey hz, hnone]; simp
    obtain ⟨d₁, p1, p2, p3⟩ := stop r₁ hn₁
    obtain ⟨d₂, q1, q2, q3⟩ := stop r₂ (by rw [← hk]; exact hn₁)
    rw [p1, q1]
    have : d₁ = d₂ := by
      rcases Nat.lt_trichotomy d₁ d₂ with h | h | h
      · exact absurd ((hs _).2 (q3 d₁ h)) p2
      · exact h
      · exact absurd ((hs _).1 (p3 d₂ h)) q2
    rw [this]
  · intro keys hn hmem
    have hall : ∀ key ∈ keys, key ≠ k.zero → HasKey k m₁'.mem (k.cls key) := by
      intro key hkey hne
      rw [r₁.hasKey hz]
      exact ⟨fun h => hne (hz _ h), (hmem _).1 (List.mem_map.2 ⟨key, hkey, rfl⟩)⟩
    rw [lookedAll_eq r₁ hz hall, lookedAll_eq r₂ hz fun key h1 h2 => (hk _).1 (hall key h1 h2)]
    have := total_same r₁.good r₂.good hl r₁.room r₂.room hk hn (fun c h => by
      rw [hmem]
      rw [r₁.hasKey hz] at h
      exact h.2)
    rw [List.map_map, List.map_map] at this
    exact congrArg Res.ok this

/-! ## An example

Eight cells; 1, 9, 17 have the same home. In the second map, others were there before, and the order differs. -/

/-- Some calls on a map of the capacity 8 -/
def fillEight (ops : List (Op Nat Nat)) : Res (Map Nat Nat) :=
  match init u32Kind (0 : Nat) true (false, false) 8 75 with
  | none => .ub
  | some m => do
    let (m, _) ← run u32Kind 0 m ops
    .ok m

example : (do
    let m ← fillEight [.put 1 1 true, .put 9 1 true, .put 17 1 true]
    let a ← looked u32Kind m 25
    let b ← lookedAll u32Kind m [1, 9, 17]
    let c ← looked u32Kind m 17
    Res.ok (m.cap, a, b, c)) = .ok (8, 4, 6, 3) ∧
  (do
    let m ← fillEight [.put 17 1 true, .put 2 1 true, .put 25 1 true, .put 9 1 true, .del 2, .put 1 1 true, .del 25]
    let a ← looked u32Kind m 25
    let b ← lookedAll u32Kind m [1, 9, 17]
    let c ← looked u32Kind m 17
    Res.ok (m.cap, a, b, c)) = .ok (8, 4, 6, 1) := by decide +kernel

end Verif.Map
