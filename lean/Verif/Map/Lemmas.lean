import Verif.Map.Loops
import Verif.Map.Spec
import Verif.Bits

/-! # Invariant of the map and the effect of each call -/

set_option linter.unusedSectionVars false
set_option linter.unusedVariables false

namespace Verif.Map

variable {K C V : Type} [DecidableEq K] [DecidableEq C]

/-! ## Capacities -/

theorem nextPow2_eq {v : Nat} (h1 : 1 ≤ v) (h2 : v < 4294967296) :
    ∃ e, nextPow2 v = add32 (2 ^ e - 1) 1 ∧ v ≤ 2 ^ e ∧ e ≤ 32 ∧ ∀ e', v ≤ 2 ^ e' → e ≤ e' := by
  have hs : sub32 v 1 = v - 1 := by unfold sub32; omega
  have s1 := (smeared_one (v - 1)).step
  have s2 := s1.step
  have s4 := s2.step
  have s8 := s4.step
  have s16 := s8.step
  obtain ⟨e, he, hv, hen, hmin⟩ := s16.pow (by omega)
  refine ⟨e, ?_, by omega, hen, ?_⟩
  · unfold nextPow2
    rw [hs]
    dsimp only at he ⊢
    rw [← he]; rfl
  · intro e' he'
    apply hmin
    omega

theorem nextPow2_spec {v : Nat} (h1 : 1 ≤ v) (h2 : v ≤ 2147483648) :
    ∃ e, nextPow2 v = 2 ^ e ∧ v ≤ 2 ^ e ∧ e ≤ 31 ∧ ∀ e', v ≤ 2 ^ e' → e ≤ e' := by
  obtain ⟨e, he, hv, hen, hmin⟩ := nextPow2_eq h1 (by omega)
  have h31 : e ≤ 31 := hmin 31 (by omega)
  refine ⟨e, ?_, hv, h31, hmin⟩
  have h3 : 2 ^ e ≤ 2147483648 :=
    Nat.le_trans (Nat.pow_le_pow_right (by omega) h31) (by decide)
  have := Nat.two_pow_pos e
  rw [he]; unfold add32; omega

theorem nextPow2_big {v : Nat} (h1 : 2147483648 < v) (h2 : v < 4294967296) : nextPow2 v = 0 := by
  obtain ⟨e, he, hv, hen, hmin⟩ := nextPow2_eq (by omega) h2
  have : e = 32 := by
    rcases Nat.lt_or_ge e 32 with h | h
    · have : 2 ^ e ≤ 2147483648 :=
        Nat.le_trans (Nat.pow_le_pow_right (by omega) (show e ≤ 31 by omega)) (by decide)
      omega
    · omega
  subst this
  rw [he]; decide

theorem nextPow2_pow {e : Nat} (h : e ≤ 31) : nextPow2 (2 ^ e) = 2 ^ e := by
  have hb : 2 ^ e ≤ 2147483648 :=
    Nat.le_trans (Nat.pow_le_pow_right (by omega) h) (by decide)
  obtain ⟨e', he', hv, _, hmin⟩ := nextPow2_spec (v := 2 ^ e) (Nat.two_pow_pos e) hb
  have h1 : e' ≤ e := hmin e (Nat.le_refl _)
  have h2 : e ≤ e' := by
    rcases Nat.lt_or_ge e' e with h | h
    · have := Nat.pow_lt_pow_right (a := 2) (by omega) h; omega
    · exact h
  rw [he', Nat.le_antisymm h1 h2]

/-! ## Empty tables -/

theorem good_of_empty {k : Kind K C} {T : List (Item K V)} (hn : 0 < T.length)
    (h : ∀ t ∈ T, t.key = k.zero) :
    Good k T ∧ occupied k T = 0 ∧ ∀ c v, ¬ Has k T c v := by
  have hno : ∀ x t, cell T x = some t → t.key ≠ k.zero → False := by
    intro x t ht hne
    exact hne (h t (List.mem_of_getElem? ht))
  refine ⟨⟨hn, ?_, ?_, ?_⟩, ?_, ?_⟩
  · intro x t ht hne; exact (hno x t ht hne).elim
  · intro x y a b ha _ hne; exact (hno x a ha hne).elim
  · intro x t ht hne; exact (hno x t ht hne).elim
  · unfold occupied
    rw [List.countP_eq_zero]
    intro t ht; simpa using h t ht
  · rintro c v ⟨x, t, ht, hne, _⟩; exact hno x t ht hne

theorem mem_iff_cell {T : List (Item K V)} (hn : 0 < T.length) {t : Item K V} :
    t ∈ T ↔ ∃ x, cell T x = some t := by
  constructor
  · intro h
    obtain ⟨i, hi, rfl⟩ := List.getElem_of_mem h
    exact ⟨(i : Int), by rw [cell_eq, idx_of_lt hi]; simp⟩
  · rintro ⟨x, hx⟩; exact List.mem_of_getElem? hx

theorem pairwise_of_uniq {k : Kind K C} {T : List (Item K V)} (h : Uniq k T) :
    T.Pairwise (fun a b => a.key ≠ k.zero → b.key ≠ k.zero → k.cls a.key ≠ k.cls b.key) := by
  rw [List.pairwise_iff_getElem]
  intro i j hi hj hij ha hb hc
  have := h (i : Int) (j : Int) T[i] T[j] (by rw [cell_eq, idx_of_lt hi]; simp)
    (by rw [cell_eq, idx_of_lt hj]; simp) ha hb hc
  rw [Int.emod_eq_of_lt (by omega) (by omega), Int.emod_eq_of_lt (by omega) (by omega)] at this
  omega

/-! ## Rehashing -/

theorem rehash_spec {k : Kind K C} {n : Nat} (hc : IsCap n) :
    ∀ (ts : List (Item K V)) (T : List (Item K V)), T.length = n → Good k T →
    occupied k T + occupied k ts < n →
    ts.Pairwise (fun a b => a.key ≠ k.zero → b.key ≠ k.zero → k.cls a.key ≠ k.cls b.key) →
    (∀ t ∈ ts, t.key ≠ k.zero → k.hashof t = k.hash (k.cls t.key)) →
    (∀ t ∈ ts, t.key ≠ k.zero → ¬ HasKey k T (k.cls t.key)) →
    ∃ T', rehash k n (sub32 n 1) ts T = .ok T' ∧ T'.length = n ∧ Good k T' ∧
      occupied k T' = occupied k T + occupied k ts ∧
      ∀ c v, Has k T' c v ↔
        Has k T c v ∨ ∃ t ∈ ts, t.key ≠ k.zero ∧ k.cls t.key = c ∧ t.value = v := by
  intro ts
  induction ts with
  | nil =>
    intro T hl g hocc _ _ _
    refine ⟨T, rfl, hl, g, by simp [occupied], ?_⟩
    intro c v; simp
  | cons t ts ih =>
    intro T hl g hocc hpw hh hno
    have hoc : occupied k (t :: ts) =
        occupied k ts + (if t.key ≠ k.zero then 1 else 0) := by
      unfold occupied; rw [List.countP_cons]; simp
    by_cases hz : t.key = k.zero
    · have hoc' : occupied k (t :: ts) = occupied k ts := by rw [hoc]; simp [hz]
      rw [hoc'] at hocc ⊢
      obtain ⟨T', hr, hl', g', ho', hhas⟩ := ih T hl g hocc (List.pairwise_cons.1 hpw).2
        (fun a ha => hh a (List.mem_cons_of_mem _ ha))
        (fun a ha => hno a (List.mem_cons_of_mem _ ha))
      refine ⟨T', by simp only [rehash, hz, ne_eq, not_true, if_false]; exact hr, hl', g', ho', ?_⟩
      intro c v
      rw [hhas]
      constructor
      · rintro (h | ⟨a, ha, h⟩)
        · exact Or.inl h
        · exact Or.inr ⟨a, List.mem_cons_of_mem _ ha, h⟩
      · rintro (h | ⟨a, ha, h1, h⟩)
        · exact Or.inl h
        · rcases List.mem_cons.1 ha with rfl | ha
          · exact absurd hz h1
          · exact Or.inr ⟨a, ha, h1, h⟩
    · have hoc' : occupied k (t :: ts) = occupied k ts + 1 := by rw [hoc]; simp [hz]
      rw [hoc'] at hocc ⊢
      have hth := hh t (List.mem_cons_self ..) hz
      have hta := hno t (List.mem_cons_self ..) hz
      obtain ⟨e, he1, he2, he3⟩ := exists_free (k := k) (T := T) (by omega)
        (k.hash (k.cls t.key) : Int)
      obtain ⟨z, hins, hz1, hz2, hzf, hzall⟩ := insertFree_spec (by rw [hl]; exact hc) t e he3
        T.length (k.hash (k.cls t.key) : Int) he1 he2
      obtain ⟨g1, ho1, hh1⟩ := g.insert hz hth hz1 (by omega) hzall hzf hta
      obtain ⟨hpw1, hpw2⟩ := List.pairwise_cons.1 hpw
      obtain ⟨T', hr, hl', g', ho', hhas⟩ := ih (T.set (idx T.length z) t) (by simpa using hl) g1
        (by omega) hpw2 (fun a ha => hh a (List.mem_cons_of_mem _ ha)) (by
          rintro a ha hane ⟨x, b, hb, hbne, hbc⟩
          have hb' : Has k (T.set (idx T.length z) t) (k.cls a.key) b.value :=
            ⟨x, b, hb, hbne, hbc, rfl⟩
          rcases (hh1 _ _).1 hb' with ⟨hc', _⟩ | ⟨y, d, hd, hdne, hdc, _⟩
          · exact hpw1 a ha hz hane hc'.symm
          · exact hno a (List.mem_cons_of_mem _ ha) hane ⟨y, d, hd, hdne, hdc⟩)
      refine ⟨T', ?_, hl', g', by omega, ?_⟩
      · simp only [rehash, ne_eq, hz, not_false_iff, if_true]
        rw [hth, mask_hash hc]
        rw [hl] at hins hr
        rw [hins, Res.ok_bind]
        exact hr
      · intro c v
        rw [hhas, hh1]
        constructor
        · rintro ((⟨rfl, rfl⟩ | h) | ⟨a, ha, h⟩)
          · exact Or.inr ⟨t, List.mem_cons_self .., hz, rfl, rfl⟩
          · exact Or.inl h
          · exact Or.inr ⟨a, List.mem_cons_of_mem _ ha, h⟩
        · rintro (h | ⟨a, ha, h1, h2, h3⟩)
          · exact Or.inl (Or.inr h)
          · rcases List.mem_cons.1 ha with rfl | ha
            · exact Or.inl (Or.inl ⟨h2.symm, h3.symm⟩)
            · exact Or.inr ⟨a, ha, h1, h2, h3⟩

/-! ## The invariant -/

/-- The map `m` is well formed and stands for the finite map `f`. -/
structure Rep (k : Kind K C) (m : Map K V) (f : Spec.FMap C V) : Prop where
  cap : IsCap m.cap
  len : m.mem.length = m.cap
  good : Good k m.mem
  size : m.size = occupied k m.mem + (if m.used then 1 else 0)
  mem1 : m.mem1.key = k.zero
  lf : 25 ≤ m.loadFac ∧ m.loadFac ≤ 95
  shape : (m.static = true ∧ m.cap = 1 ∧ m.remap = 0) ∨
    (m.static = false ∧ 8 ≤ m.cap ∧ m.remap = remapOf m.cap m.loadFac)
  bound : m.size ≤ m.remap
  rep : ∀ c v, f c = some v ↔
    (c = k.cls k.zero ∧ m.used = true ∧ m.mem1.value = v) ∨ Has k m.mem c v

theorem Rep.room {k : Kind K C} {m : Map K V} {f : Spec.FMap C V} (r : Rep k m f) :
    occupied k m.mem < m.mem.length := by
  have h1 := r.size
  have h2 := r.bound
  have h3 := r.lf
  rw [r.len]
  rcases r.shape with ⟨_, hc, hr⟩ | ⟨_, hc, hr⟩
  · omega
  · rw [hr] at h2
    unfold remapOf at h2
    have : m.cap * m.loadFac ≤ m.cap * 95 := Nat.mul_le_mul_left _ h3.2
    omega

/-- The zero key is the only key of its class. -/
def ZeroOk (k : Kind K C) : Prop := ∀ key, k.cls key = k.cls k.zero → key = k.zero

theorem Rep.zero {k : Kind K C} {m : Map K V} {f : Spec.FMap C V} (r : Rep k m f)
    (hz : ZeroOk k) : f (k.cls k.zero) = if m.used then some m.mem1.value else none := by
  have hno : ∀ v, ¬ Has k m.mem (k.cls k.zero) v := by
    rintro v ⟨x, t, _, hne, hc, _⟩; exact hne (hz _ hc)
  apply Option.ext
  intro v
  rw [r.rep]
  by_cases hu : m.used = true
  · simp [hu, hno]
  · simp [hu, hno]

theorem Rep.other {k : Kind K C} {m : Map K V} {f : Spec.FMap C V} (r : Rep k m f)
    {c : C} (hc : c ≠ k.cls k.zero) (v : V) : f c = some v ↔ Has k m.mem c v := by
  rw [r.rep]; simp [hc]

theorem Rep.present {k : Kind K C} {m : Map K V} {f : Spec.FMap C V} (r : Rep k m f)
    {c : C} (hc : c ≠ k.cls k.zero) {z : Int} {t : Item K V} (ht : cell m.mem z = some t)
    (hne : t.key ≠ k.zero) (htc : k.cls t.key = c) : f c = some t.value :=
  (r.other hc _).2 ⟨z, t, ht, hne, htc, rfl⟩

theorem Rep.absent {k : Kind K C} {m : Map K V} {f : Spec.FMap C V} (r : Rep k m f)
    {c : C} (hc : c ≠ k.cls k.zero) (h : ¬ HasKey k m.mem c) : f c = none := by
  cases hf : f c with
  | none => rfl
  | some v =>
    obtain ⟨x, t, ht, hne, hcc, _⟩ := (r.other hc v).1 hf
    exact absurd ⟨x, t, ht, hne, hcc⟩ h

/-- Looking up a key. -/
theorem Rep.lookup {k : Kind K C} {m : Map K V} {f : Spec.FMap C V} (r : Rep k m f)
    (key : K) :
    ∃ z t, probe k (sub32 m.cap 1) key (k.hash (k.cls key)) (m.cap + 1) m.mem
        (k.hash (k.cls key) &&& sub32 m.cap 1) = .ok (idx m.mem.length z) ∧
      cell m.mem z = some t ∧
      ((t.key ≠ k.zero ∧ k.cls t.key = k.cls key) ∨
       (t.key = k.zero ∧ ¬ HasKey k m.mem (k.cls key) ∧ (k.hash (k.cls key) : Int) ≤ z ∧
        z < (k.hash (k.cls key) : Int) + m.mem.length ∧
        ∀ x, (k.hash (k.cls key) : Int) ≤ x → x < z → Full k m.mem x)) := by
  have := lookup_spec (by rw [r.len]; exact r.cap) r.good r.room key
  rw [← r.len]; exact this

/-! ## init -/

theorem init_rep {k : Kind K C} {v0 : V} {al : Bool} {g : Bool × Bool} {cap lf : Nat}
    {m : Map K V} (h : init k v0 al g cap lf = some m) (hcap : cap ≤ 2147483648) :
    Rep k m Spec.empty := by
  have hrep0 : ∀ {T : List (Item K V)} {m1 : Item K V}, (∀ c v, ¬ Has k T c v) →
      ∀ (c : C) (v : V), (Spec.empty c : Option V) = some v ↔
        (c = k.cls k.zero ∧ false = true ∧ m1.value = v) ∨ Has k T c v := by
    intro T m1 hT c v
    constructor
    · intro h; cases h
    · rintro (⟨_, h, _⟩ | h)
      · cases h
      · exact absurd h (hT c v)
  unfold init at h
  dsimp only at h
  generalize hf : (if lf = 0 then 75 else lf) = f' at h
  by_cases h1 : f' > 95 ∨ f' < 25
  · rw [if_pos h1] at h; cases h
  · rw [if_neg h1] at h
    by_cases h2 : cap = 0
    · rw [if_pos h2] at h
      cases h
      obtain ⟨hg, ho, hh⟩ := good_of_empty (k := k) (T := [zeroItem k v0]) (by simp)
        (by simp [zeroItem])
      exact ⟨⟨0, rfl, by omega⟩, rfl, hg, by simp [emptyMap, ho], rfl, by dsimp only; omega,
        Or.inl ⟨rfl, rfl, rfl⟩, by simp [emptyMap], hrep0 hh⟩
    · rw [if_neg h2] at h
      unfold alloc allocCap at h
      rw [Nat.div_one, if_neg (by omega), Nat.mul_one, Nat.mod_eq_of_lt (by omega)] at h
      dsimp only at h
      obtain ⟨e, he, hv, he31, hmin⟩ := nextPow2_spec (v := if cap < 8 then 8 else cap)
        (by split <;> omega) (by split <;> omega)
      rw [he] at h
      cases al with
      | false => simp at h
      | true =>
        simp only [if_true, Option.some.injEq] at h
        subst h
        have hpos := Nat.two_pow_pos e
        obtain ⟨hg, ho, hh⟩ := good_of_empty (k := k)
          (T := List.replicate (2 ^ e) (zeroItem k v0)) (by simpa using hpos)
          (by intro t ht; rw [(List.mem_replicate.1 ht).2]; rfl)
        refine ⟨⟨e, rfl, he31⟩, by simp, hg, by simp [ho], rfl, by dsimp only; omega,
          Or.inr ⟨rfl, ?_, rfl⟩, Nat.zero_le _, hrep0 hh⟩
        dsimp only
        split at hv <;> omega

/-! ## remap -/

theorem remap_spec {k : Kind K C} {v0 : V} {al : Bool} {m : Map K V} {f : Spec.FMap C V}
    (r : Rep k m f) :
    (∃ m', remap k v0 al m = .ok (m', true) ∧ Rep k m' f ∧ m'.size < m'.remap ∧
      m'.static = false ∧ m'.oom = m.oom) ∨
    (remap k v0 al m = .ok (m, false) ∧ (al = false ∨ 536870912 ≤ m.size)) := by
  unfold remap
  have hlf := r.lf
  have hb := r.cap.bounds
  by_cases h : m.size < m.remap
  · left
    refine ⟨m, by rw [if_pos h], r, h, ?_, rfl⟩
    rcases r.shape with ⟨_, _, h0⟩ | ⟨h0, _⟩
    · omega
    · exact h0
  · rw [if_neg h]
    -- the new capacity
    have hcap : (∃ e, allocCap m.cap 2 = some (2 ^ e) ∧ e ≤ 31 ∧ 8 ≤ 2 ^ e ∧
          m.size < remapOf (2 ^ e) m.loadFac) ∨
        (allocCap m.cap 2 = none ∧ 536870912 ≤ m.size) := by
      unfold allocCap
      have hgrow : ∀ c, 8 ≤ c → m.size ≤ remapOf c m.loadFac →
          m.size < remapOf (2 * c) m.loadFac := by
        intro c h1 h2
        unfold remapOf at *
        have h3 : 8 * 25 ≤ c * m.loadFac := Nat.mul_le_mul h1 hlf.1
        have h4 : 2 * c * m.loadFac = 2 * (c * m.loadFac) := Nat.mul_assoc ..
        rw [h4]; omega
      rcases r.shape with ⟨_, hc, h0⟩ | ⟨_, h8, hre⟩
      · left
        refine ⟨3, ?_, by omega, by omega, ?_⟩
        · rw [if_neg (by omega), if_pos (by omega)]
          rw [show (8 : Nat) = 2 ^ 3 by rfl, nextPow2_pow (by omega)]
        · have := r.bound
          have h3 : 2 ^ 3 * 25 ≤ 2 ^ 3 * m.loadFac := Nat.mul_le_mul_left _ hlf.1
          unfold remapOf; omega
      · by_cases hbig : m.cap > 4294967295 / 2
        · right
          refine ⟨by rw [if_pos hbig], ?_⟩
          have : m.cap = 2147483648 := by omega
          unfold remapOf at hre
          rw [this] at hre
          have h3 : 2147483648 * 25 ≤ 2147483648 * m.loadFac := Nat.mul_le_mul_left _ hlf.1
          omega
        · left
          obtain ⟨j, hj, hj31⟩ := r.cap
          have hj30 : j ≤ 30 := by
            rcases Nat.lt_or_ge j 31 with h | h
            · omega
            · have : j = 31 := by omega
              subst this; omega
          have he : m.cap * 2 = 2 ^ (j + 1) := by rw [hj, Nat.pow_succ]
          refine ⟨j + 1, ?_, by omega, by omega, ?_⟩
          · rw [if_neg hbig, if_neg (by omega), Nat.mod_eq_of_lt (by omega), he,
              nextPow2_pow (by omega)]
          · have := hgrow m.cap h8 (by rw [← hre]; exact r.bound)
            rw [show 2 * m.cap = 2 ^ (j + 1) by omega] at this
            exact this
    rcases hcap with ⟨e, he, he31, he8, hsz⟩ | ⟨he, hsz⟩
    · cases al with
      | false =>
        right
        refine ⟨?_, Or.inl rfl⟩
        unfold alloc; rw [he]; rfl
      | true =>
        left
        have hal : alloc k v0 true m.cap 2 =
            some (2 ^ e, List.replicate (2 ^ e) (zeroItem k v0)) := by
          unfold alloc; rw [he]; rfl
        rw [hal]
        dsimp only
        rw [if_neg (by rw [r.len]; omega), List.take_of_length_le (by rw [r.len]; omega)]
        have hcap2 : IsCap (2 ^ e) := ⟨e, rfl, he31⟩
        obtain ⟨hg, ho, hh⟩ := good_of_empty (k := k)
          (T := List.replicate (2 ^ e) (zeroItem k v0)) (by simpa using Nat.two_pow_pos e)
          (by intro t ht; rw [(List.mem_replicate.1 ht).2]; rfl)
        have hocc : occupied k m.mem ≤ m.size := by rw [r.size]; omega
        have hlt : remapOf (2 ^ e) m.loadFac < 2 ^ e := by
          unfold remapOf
          have : 2 ^ e * m.loadFac ≤ 2 ^ e * 95 := Nat.mul_le_mul_left _ hlf.2
          omega
        obtain ⟨T', hr, hl', g', ho', hhas⟩ := rehash_spec hcap2 m.mem
          (List.replicate (2 ^ e) (zeroItem k v0)) (by simp) hg (by omega)
          (pairwise_of_uniq r.good.uniq)
          (by intro t ht hne
              obtain ⟨x, hx⟩ := (mem_iff_cell r.good.pos).1 ht
              exact r.good.hashOk x t hx hne)
          (by rintro t _ _ ⟨x, a, ha, hane, hac⟩
              exact hh _ _ ⟨x, a, ha, hane, hac, rfl⟩)
        rw [hr]
        refine ⟨_, rfl, ⟨hcap2, hl', g', ?_, ?_, hlf, Or.inr ⟨rfl, he8, rfl⟩, ?_, ?_⟩, hsz, rfl, rfl⟩
        · dsimp only; rw [ho', ho, Nat.zero_add]; exact r.size
        · dsimp only; split
          · rfl
          · exact r.mem1
        · exact Nat.le_of_lt hsz
        · intro c v
          rw [r.rep, hhas]
          have hmem : Has k m.mem c v ↔ (Has k (List.replicate (2 ^ e) (zeroItem k v0)) c v ∨
              ∃ t ∈ m.mem, t.key ≠ k.zero ∧ k.cls t.key = c ∧ t.value = v) := by
            constructor
            · rintro ⟨x, t, ht, h⟩
              exact Or.inr ⟨t, List.mem_of_getElem? ht, h⟩
            · rintro (h | ⟨t, ht, h⟩)
              · exact absurd h (hh c v)
              · obtain ⟨x, hx⟩ := (mem_iff_cell r.good.pos).1 ht
                exact ⟨x, t, hx, h⟩
          rw [← hmem]
          -- the zero key moves along unless the old table was the static one, which is empty
          rcases r.shape with ⟨hst, _, h0⟩ | ⟨hst, _⟩
          · have hu : m.used = false := by
              have h1 := r.bound
              have h2 := r.size
              cases hu : m.used with
              | false => rfl
              | true => rw [hu] at h2; simp at h2; omega
            simp [hu]
          · simp [hst]
    · right
      refine ⟨?_, Or.inr hsz⟩
      unfold alloc; rw [he]

end Verif.Map
