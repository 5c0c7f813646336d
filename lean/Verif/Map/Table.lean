import Verif.Map.Model

/-! # Open-addressing tables in unrolled coordinates

Cells are addressed by any integer, modulo the capacity; probing then simply counts
upwards and no case distinction on wrap-around is needed. -/

set_option linter.unusedSectionVars false
set_option linter.unusedVariables false

namespace Verif.Map

variable {K C V : Type} [DecidableEq K] [DecidableEq C]

/-- The cell at the integer position `x`. -/
def cell (T : List (Item K V)) (x : Int) : Option (Item K V) := T[(x % T.length).toNat]?

/-- The cell index of the integer position `x`. -/
def idx (n : Nat) (x : Int) : Nat := (x % n).toNat

theorem emod_window {n : Nat} {x y : Int} (h : x % n = y % n) (h1 : x < y + n)
    (h2 : y < x + n) : x = y := by
  have hd : (x - y) % n = 0 := Int.emod_eq_emod_iff_emod_sub_eq_zero.1 h
  by_cases hle : y ≤ x
  · rw [Int.emod_eq_of_lt (by omega) (by omega)] at hd; omega
  · have hd' : (y - x) % n = 0 := Int.emod_eq_emod_iff_emod_sub_eq_zero.1 h.symm
    rw [Int.emod_eq_of_lt (by omega) (by omega)] at hd'; omega

theorem idx_lt {n : Nat} (hn : 0 < n) (x : Int) : idx n x < n := by
  unfold idx
  have := Int.emod_nonneg x (show (n : Int) ≠ 0 by omega)
  have := Int.emod_lt_of_pos x (show (0 : Int) < n by omega)
  omega

theorem idx_cast {n : Nat} (hn : 0 < n) (x : Int) : ((idx n x : Nat) : Int) = x % n := by
  unfold idx
  have := Int.emod_nonneg x (show (n : Int) ≠ 0 by omega)
  omega

theorem idx_eq_iff {n : Nat} (hn : 0 < n) {x y : Int} : idx n x = idx n y ↔ x % n = y % n := by
  rw [← idx_cast hn x, ← idx_cast hn y]; omega

theorem idx_of_lt {n i : Nat} (h : i < n) : idx n (i : Int) = i := by
  unfold idx
  rw [Int.emod_eq_of_lt (by omega) (by omega)]; rfl

theorem idx_idx {n : Nat} (hn : 0 < n) (x : Int) : idx n (idx n x : Int) = idx n x :=
  idx_of_lt (idx_lt hn x)

theorem cell_eq (T : List (Item K V)) (x : Int) : cell T x = T[idx T.length x]? := rfl

theorem cell_congr {T : List (Item K V)} {x y : Int} (h : x % T.length = y % T.length) :
    cell T x = cell T y := by unfold cell; rw [h]

theorem cell_total {T : List (Item K V)} (hn : 0 < T.length) (x : Int) :
    ∃ t, cell T x = some t :=
  ⟨_, List.getElem?_eq_getElem (idx_lt hn x)⟩

theorem cell_set {T : List (Item K V)} (hn : 0 < T.length) (z x : Int) (t : Item K V) :
    cell (T.set (idx T.length z) t) x =
      if x % T.length = z % T.length then some t else cell T x := by
  rw [cell_eq, cell_eq, List.length_set]
  by_cases h : x % T.length = z % T.length
  · rw [if_pos h, (idx_eq_iff hn).2 h, List.getElem?_set_self (idx_lt hn z)]
  · rw [if_neg h, List.getElem?_set_ne]
    intro he; exact h ((idx_eq_iff hn).1 he).symm

/-- The cell at `x` is occupied. -/
def Full (k : Kind K C) (T : List (Item K V)) (x : Int) : Prop :=
  ∃ t, cell T x = some t ∧ t.key ≠ k.zero

/-- How far the item at `x` is from its home cell. -/
def disp (k : Kind K C) (n : Nat) (x : Int) (t : Item K V) : Int :=
  (x - (k.hash (k.cls t.key) : Int)) % n

/-- Every occupied cell is reachable from its home cell over occupied cells. -/
def Chain (k : Kind K C) (T : List (Item K V)) : Prop :=
  ∀ x t, cell T x = some t → t.key ≠ k.zero →
    ∀ d, 0 ≤ d → d ≤ disp k T.length x t → Full k T (x - d)

/-- No two occupied cells hold the same key. -/
def Uniq (k : Kind K C) (T : List (Item K V)) : Prop :=
  ∀ x y a b, cell T x = some a → cell T y = some b → a.key ≠ k.zero → b.key ≠ k.zero →
    k.cls a.key = k.cls b.key → x % T.length = y % T.length

/-- The cached hashes are right. -/
def HashOk (k : Kind K C) (T : List (Item K V)) : Prop :=
  ∀ x t, cell T x = some t → t.key ≠ k.zero → k.hashof t = k.hash (k.cls t.key)

/-- The table holds the entry `(c, v)`. -/
def Has (k : Kind K C) (T : List (Item K V)) (c : C) (v : V) : Prop :=
  ∃ x t, cell T x = some t ∧ t.key ≠ k.zero ∧ k.cls t.key = c ∧ t.value = v

/-- The table holds the key `c`. -/
def HasKey (k : Kind K C) (T : List (Item K V)) (c : C) : Prop :=
  ∃ x t, cell T x = some t ∧ t.key ≠ k.zero ∧ k.cls t.key = c

/-- Number of occupied cells. -/
def occupied (k : Kind K C) (T : List (Item K V)) : Nat :=
  T.countP (fun t => decide (t.key ≠ k.zero))

structure Good (k : Kind K C) (T : List (Item K V)) : Prop where
  pos : 0 < T.length
  chain : Chain k T
  uniq : Uniq k T
  hashOk : HashOk k T

theorem disp_nonneg {k : Kind K C} {n : Nat} (hn : 0 < n) (x : Int) (t : Item K V) :
    0 ≤ disp k n x t := Int.emod_nonneg _ (by omega)

theorem disp_lt {k : Kind K C} {n : Nat} (hn : 0 < n) (x : Int) (t : Item K V) :
    disp k n x t < n := Int.emod_lt_of_pos _ (by omega)

theorem disp_congr {k : Kind K C} {n : Nat} {x y : Int} {t : Item K V}
    (h : x % n = y % n) : disp k n x t = disp k n y t := by
  unfold disp
  rw [Int.sub_emod, h, ← Int.sub_emod]

theorem disp_sub {k : Kind K C} {n : Nat} (hn : 0 < n) {x : Int} {t : Item K V} {d : Int}
    (h0 : 0 ≤ d) (h : d ≤ disp k n x t) : disp k n (x - d) t = disp k n x t - d := by
  have h1 := disp_lt (k := k) hn x t
  have h2 : (x - d - (k.hash (k.cls t.key) : Int)) % n =
      ((x - (k.hash (k.cls t.key) : Int)) % n - d) % n := by
    rw [Int.emod_sub_emod]; congr 1; omega
  unfold disp at *
  rw [h2, Int.emod_eq_of_lt (by omega) (by omega)]

theorem Full.congr {k : Kind K C} {T : List (Item K V)} {x y : Int}
    (h : x % T.length = y % T.length) (hf : Full k T x) : Full k T y := by
  unfold Full at *; rwa [cell_congr h.symm]

theorem not_full_iff {k : Kind K C} {T : List (Item K V)} {x : Int} {t : Item K V}
    (h : cell T x = some t) : ¬ Full k T x ↔ t.key = k.zero := by
  unfold Full
  constructor
  · intro hn
    exact Classical.byContradiction fun hz => hn ⟨t, h, hz⟩
  · rintro hz ⟨t', ht', hne⟩
    rw [h] at ht'; cases ht'; exact hne hz

theorem full_iff {k : Kind K C} {T : List (Item K V)} {x : Int} {t : Item K V}
    (h : cell T x = some t) : Full k T x ↔ t.key ≠ k.zero := by
  constructor
  · rintro ⟨t', ht', hne⟩; rw [h] at ht'; cases ht'; exact hne
  · intro hne; exact ⟨t, h, hne⟩

/-- If fewer cells are occupied than there are, some cell in any window is free. -/
theorem exists_free {k : Kind K C} {T : List (Item K V)} (h : occupied k T < T.length)
    (y : Int) : ∃ e, y ≤ e ∧ e < y + T.length ∧ ¬ Full k T e := by
  have hn : 0 < T.length := by omega
  have : ∃ i, ∃ hi : i < T.length, T[i].key = k.zero := by
    apply Classical.byContradiction
    intro hno
    have hall : ∀ t ∈ T, t.key ≠ k.zero := by
      intro t ht hz
      obtain ⟨i, hi, rfl⟩ := List.getElem_of_mem ht
      exact hno ⟨i, hi, hz⟩
    have : occupied k T = T.length := by
      unfold occupied
      rw [List.countP_eq_length]
      intro t ht; simpa using hall t ht
    omega
  obtain ⟨i, hi, hz⟩ := this
  refine ⟨y + ((i : Int) - y) % T.length, ?_, ?_, ?_⟩
  · have := Int.emod_nonneg ((i : Int) - y) (show (T.length : Int) ≠ 0 by omega); omega
  · have := Int.emod_lt_of_pos ((i : Int) - y) (show (0 : Int) < T.length by omega); omega
  · have hc : cell T (y + ((i : Int) - y) % T.length) = some T[i] := by
      have h1 : (y + ((i : Int) - y) % T.length) % T.length = (i : Int) % T.length := by
        rw [Int.add_emod_emod]; congr 1; omega
      rw [cell_congr h1, cell_eq, idx_of_lt hi]
      simp
    rw [not_full_iff hc]; exact hz

/-- A free cell stops the chain: an item whose home is at or before `e` in the window that
ends with its own position `x` cannot have a free cell on the way. -/
theorem chain_reach {k : Kind K C} {T : List (Item K V)} (g : Good k T) {x : Int}
    {t : Item K V} (ht : cell T x = some t) (hz : t.key ≠ k.zero) {e : Int} (he : e ≤ x)
    (hh : x - e ≤ disp k T.length x t) : Full k T e := by
  have := g.chain x t ht hz (x - e) (by omega) hh
  rwa [show x - (x - e) = e by omega] at this

/-- Position, counted upwards from the home cell of class `c`, of an item with that
class. -/
theorem hasKey_pos {k : Kind K C} {T : List (Item K V)} (hn : 0 < T.length) {c : C} {x : Int}
    {t : Item K V} (ht : cell T x = some t) (hc : k.cls t.key = c) :
    cell T ((k.hash c : Int) + disp k T.length x t) = some t ∧
    disp k T.length ((k.hash c : Int) + disp k T.length x t) t = disp k T.length x t := by
  have h1 : ((k.hash c : Int) + disp k T.length x t) % T.length = x % T.length := by
    unfold disp
    rw [hc, Int.add_emod_emod]; congr 1; omega
  exact ⟨by rw [cell_congr h1]; exact ht, disp_congr h1⟩

/-- If probing from the home cell of `c` meets a free cell `z` before any cell with key `c`,
the table does not hold `c`. -/
theorem absent_of_probe {k : Kind K C} {T : List (Item K V)} (g : Good k T) {c : C} {z : Int}
    (hz : (k.hash c : Int) ≤ z)
    (hmiss : ∀ x, (k.hash c : Int) ≤ x → x < z → ∀ t, cell T x = some t → k.cls t.key ≠ c)
    (hfree : ¬ Full k T z) : ¬ HasKey k T c := by
  rintro ⟨x, t, ht, hne, hc⟩
  obtain ⟨h1, h2⟩ := hasKey_pos g.pos ht hc
  have hd0 := disp_nonneg (k := k) g.pos x t
  by_cases hlt : (k.hash c : Int) + disp k T.length x t < z
  · exact hmiss _ (by omega) hlt t h1 hc
  · apply hfree
    exact chain_reach g h1 hne (by omega) (by rw [h2]; omega)

/-- Storing a new item in the free cell that probing from its home meets first. -/
theorem Good.insert {k : Kind K C} {T : List (Item K V)} (g : Good k T) {t : Item K V}
    (htz : t.key ≠ k.zero) (hth : k.hashof t = k.hash (k.cls t.key)) {z : Int}
    (hz : (k.hash (k.cls t.key) : Int) ≤ z)
    (hzn : z < (k.hash (k.cls t.key) : Int) + T.length)
    (hfull : ∀ x, (k.hash (k.cls t.key) : Int) ≤ x → x < z → Full k T x)
    (hfree : ¬ Full k T z) (habs : ¬ HasKey k T (k.cls t.key)) :
    Good k (T.set (idx T.length z) t) ∧
    occupied k (T.set (idx T.length z) t) = occupied k T + 1 ∧
    (∀ c v, Has k (T.set (idx T.length z) t) c v ↔
      (c = k.cls t.key ∧ v = t.value) ∨ Has k T c v) := by
  have hn := g.pos
  have hcs := cell_set hn z
  have hfullmono : ∀ x, Full k T x → Full k (T.set (idx T.length z) t) x := by
    rintro x ⟨a, ha, hne⟩
    unfold Full
    rw [hcs]
    by_cases h : x % T.length = z % T.length
    · rw [if_pos h]; exact ⟨t, rfl, htz⟩
    · rw [if_neg h]; exact ⟨a, ha, hne⟩
  have hlen : (T.set (idx T.length z) t).length = T.length := List.length_set
  refine ⟨⟨by rw [hlen]; exact hn, ?_, ?_, ?_⟩, ?_, ?_⟩
  · intro x a ha hne d hd0 hd
    rw [hlen] at hd
    rw [hcs] at ha
    by_cases h : x % T.length = z % T.length
    · rw [if_pos h] at ha; cases ha
      have hdz : disp k T.length x t = z - (k.hash (k.cls t.key) : Int) := by
        rw [disp_congr h]
        unfold disp
        exact Int.emod_eq_of_lt (by omega) (by omega)
      rw [hdz] at hd
      have hxd : (x - d) % T.length = (z - d) % T.length := by
        rw [Int.sub_emod, h, ← Int.sub_emod]
      by_cases hd1 : d = 0
      · subst hd1
        unfold Full
        rw [hcs, if_pos (by simpa using h)]
        exact ⟨t, rfl, htz⟩
      · exact hfullmono _ ((hfull (z - d) (by omega) (by omega)).congr hxd.symm)
    · rw [if_neg h] at ha
      exact hfullmono _ (g.chain x a ha hne d hd0 hd)
  · intro x y a b ha hb hane hbne hab
    rw [hlen]
    rw [hcs] at ha hb
    by_cases hx : x % T.length = z % T.length
    · rw [if_pos hx] at ha; cases ha
      by_cases hy : y % T.length = z % T.length
      · omega
      · rw [if_neg hy] at hb
        exact absurd ⟨y, b, hb, hbne, hab.symm⟩ habs
    · rw [if_neg hx] at ha
      by_cases hy : y % T.length = z % T.length
      · rw [if_pos hy] at hb; cases hb
        exact absurd ⟨x, a, ha, hane, hab⟩ habs
      · rw [if_neg hy] at hb
        exact g.uniq x y a b ha hb hane hbne hab
  · intro x a ha hne
    rw [hcs] at ha
    by_cases hx : x % T.length = z % T.length
    · rw [if_pos hx] at ha; cases ha; exact hth
    · rw [if_neg hx] at ha; exact g.hashOk x a ha hne
  · obtain ⟨o, ho⟩ := cell_total hn z
    have hoz : o.key = k.zero := (not_full_iff ho).1 hfree
    have hget : T[idx T.length z]'(idx_lt hn z) = o := by
      rw [cell_eq] at ho
      exact (List.getElem?_eq_some_iff.1 ho).2
    unfold occupied
    rw [List.countP_set (idx_lt hn z), hget]
    simp [hoz, htz]
  · intro c v
    constructor
    · rintro ⟨x, a, ha, hne, hc, hv⟩
      rw [hcs] at ha
      by_cases hx : x % T.length = z % T.length
      · rw [if_pos hx] at ha; cases ha; exact Or.inl ⟨hc.symm, hv.symm⟩
      · rw [if_neg hx] at ha; exact Or.inr ⟨x, a, ha, hne, hc, hv⟩
    · rintro (⟨rfl, rfl⟩ | ⟨x, a, ha, hne, hc, hv⟩)
      · exact ⟨z, t, by rw [hcs, if_pos rfl], htz, rfl, rfl⟩
      · refine ⟨x, a, ?_, hne, hc, hv⟩
        rw [hcs, if_neg]
        · exact ha
        · intro h
          exact hfree (Full.congr h ⟨a, ha, hne⟩)

/-- Replacing an occupied cell by an item with the same key. -/
theorem Good.overwrite {k : Kind K C} {T : List (Item K V)} (g : Good k T) {t o : Item K V}
    (htz : t.key ≠ k.zero) (hth : k.hashof t = k.hash (k.cls t.key)) {z : Int}
    (ho : cell T z = some o) (hoz : o.key ≠ k.zero) (hcls : k.cls o.key = k.cls t.key) :
    Good k (T.set (idx T.length z) t) ∧
    occupied k (T.set (idx T.length z) t) = occupied k T ∧
    (∀ c v, Has k (T.set (idx T.length z) t) c v ↔
      if c = k.cls t.key then v = t.value else Has k T c v) := by
  have hn := g.pos
  have hcs := cell_set hn z
  have hlen : (T.set (idx T.length z) t).length = T.length := List.length_set
  have hfullmono : ∀ x, Full k T x → Full k (T.set (idx T.length z) t) x := by
    rintro x ⟨a, ha, hne⟩
    unfold Full
    rw [hcs]
    by_cases h : x % T.length = z % T.length
    · rw [if_pos h]; exact ⟨t, rfl, htz⟩
    · rw [if_neg h]; exact ⟨a, ha, hne⟩
  -- every cell of the new table corresponds to a cell of the old one with the same class
  have hback : ∀ x a, cell (T.set (idx T.length z) t) x = some a → a.key ≠ k.zero →
      ∃ b, cell T x = some b ∧ b.key ≠ k.zero ∧ k.cls b.key = k.cls a.key := by
    intro x a ha hne
    rw [hcs] at ha
    by_cases hx : x % T.length = z % T.length
    · rw [if_pos hx] at ha; cases ha
      exact ⟨o, by rw [cell_congr hx]; exact ho, hoz, hcls⟩
    · rw [if_neg hx] at ha; exact ⟨a, ha, hne, rfl⟩
  refine ⟨⟨by rw [hlen]; exact hn, ?_, ?_, ?_⟩, ?_, ?_⟩
  · intro x a ha hne d hd0 hd
    obtain ⟨b, hb, hbne, hbc⟩ := hback x a ha hne
    rw [hlen] at hd
    have hdd : disp k T.length x b = disp k T.length x a := by unfold disp; rw [hbc]
    exact hfullmono _ (g.chain x b hb hbne d hd0 (by rw [hdd]; exact hd))
  · intro x y a b ha hb hane hbne hab
    rw [hlen]
    obtain ⟨a', ha', hane', hac⟩ := hback x a ha hane
    obtain ⟨b', hb', hbne', hbc⟩ := hback y b hb hbne
    exact g.uniq x y a' b' ha' hb' hane' hbne' (by rw [hac, hbc, hab])
  · intro x a ha hne
    rw [hcs] at ha
    by_cases hx : x % T.length = z % T.length
    · rw [if_pos hx] at ha; cases ha; exact hth
    · rw [if_neg hx] at ha; exact g.hashOk x a ha hne
  · have hget : T[idx T.length z]'(idx_lt hn z) = o := by
      rw [cell_eq] at ho
      exact (List.getElem?_eq_some_iff.1 ho).2
    have hpos : 0 < occupied k T := by
      unfold occupied
      rw [List.countP_pos_iff]
      exact ⟨o, by rw [← hget]; exact List.getElem_mem _, by simpa using hoz⟩
    unfold occupied at *
    rw [List.countP_set (idx_lt hn z), hget, if_pos (by simpa using hoz),
      if_pos (by simpa using htz)]
    omega
  · intro c v
    constructor
    · rintro ⟨x, a, ha, hne, hc, hv⟩
      rw [hcs] at ha
      by_cases hx : x % T.length = z % T.length
      · rw [if_pos hx] at ha; cases ha
        rw [if_pos hc.symm]; exact hv.symm
      · rw [if_neg hx] at ha
        rw [if_neg]
        · exact ⟨x, a, ha, hne, hc, hv⟩
        · intro he
          exact hx (g.uniq x z a o ha ho hne hoz (by rw [hc, he, hcls]))
    · split
      · next he =>
        intro hv
        exact ⟨z, t, by rw [hcs, if_pos rfl], htz, he.symm, hv.symm⟩
      · next he =>
        rintro ⟨x, a, ha, hne, hc, hv⟩
        refine ⟨x, a, ?_, hne, hc, hv⟩
        rw [hcs, if_neg]
        · exact ha
        · intro h
          have : cell T z = some a := by rw [← cell_congr h]; exact ha
          rw [ho] at this; cases this
          exact he (by rw [← hc, hcls])

end Verif.Map
