import Verif.Cost.Flood

/-! # What looking up costs when the keys are numbers in a row -/

set_option linter.unusedSectionVars false

namespace Verif.Map

variable {K C V : Type} [DecidableEq K] [DecidableEq C]

/-! ## Keys with different homes -/

theorem perm_of_subset {l l' : List Nat} (hn : l.Nodup) (hn' : l'.Nodup) (hs : ∀ x ∈ l, x ∈ l') (hl : l'.length ≤ l.length) :
    l.Perm l' := by
  rw [List.perm_ext_iff_of_nodup hn hn']
  intro x
  refine ⟨hs x, fun hx => ?_⟩
  apply Classical.byContradiction
  intro hno
  have hc : (x :: l).Nodup := List.nodup_cons.2 ⟨hno, hn⟩
  have := hc.length_le_of_subset (l₂ := l') (by
    intro y hy
    rcases List.mem_cons.1 hy with rfl | hy
    · exact hx
    · exact hs y hy)
  simp at this
  omega

theorem all_one {α : Type} {f : α → Nat} : ∀ {l : List α}, (∀ a ∈ l, 1 ≤ f a) → (l.map f).sum = l.length → ∀ a ∈ l, f a = 1
  | [], _, _, a, ha => by cases ha
  | b :: l, h, hs, a, ha => by
    have hge : ∀ l : List α, (∀ a ∈ l, 1 ≤ f a) → l.length ≤ (l.map f).sum := by
      intro l
      induction l with
      | nil => intro _; simp
      | cons x l ih =>
        intro h
        have h1 := h x List.mem_cons_self
        have h2 := ih fun a ha => h a (List.mem_cons_of_mem _ ha)
        simp only [List.map_cons, List.sum_cons, List.length_cons]
        omega
    have h1 := h b List.mem_cons_self
    have h2 := hge l fun a ha => h a (List.mem_cons_of_mem _ ha)
    simp only [List.map_cons, List.sum_cons, List.length_cons] at hs
    rcases List.mem_cons.1 ha with rfl | ha
    · omega
    · exact all_one (fun a ha => h a (List.mem_cons_of_mem _ ha)) (by omega) a ha

theorem placed_fst_nodup {k : Kind K C} {T : List (Item K V)} (z : Int) : ((placed k T z).map Prod.fst).Nodup := by
  unfold placed List.Nodup
  rw [List.pairwise_map, List.pairwise_filterMap]
  refine (List.nodup_range (n := T.length)).imp ?_
  intro i j hij p hp q hq
  have e1 : p.1 = i := by
    split at hp
    · split at hp
      · cases hp
      · cases hp; rfl
    · cases hp
  have e2 : q.1 = j := by
    split at hq
    · split at hq
      · cases hq
      · cases hq; rfl
    · cases hq
  rw [e1, e2]
  exact hij

/-- If no two keys have the same home then each is at home. -/
theorem all_home {k : Kind K C} {T : List (Item K V)} (g : Good k T) (hr : occupied k T < T.length)
    (hd : ∀ c c', HasKey k T c → HasKey k T c' → k.hash c % T.length = k.hash c' % T.length → c = c') {c : C} (hc : HasKey k T c) :
    costOf k T c = 1 := by
  obtain ⟨z, -, -, hz⟩ := exists_free hr 0
  have s := placed_sum g hz
  have hn := g.pos
  have hcl : ∀ c, c ∈ (placed k T z).map (fun p => k.cls p.2.key) ↔ HasKey k T c := placed_class g.pos z
  have hmod : ∀ c, ((z + homeOf k T.length z c) : Int) % T.length = (k.hash c : Int) % T.length := by
    intro c
    unfold homeOf
    have h0 := Int.emod_nonneg ((k.hash c : Int) - z) (show (T.length : Int) ≠ 0 by omega)
    rw [show z + ((((k.hash c : Int) - z) % T.length).toNat : Int) = z + ((k.hash c : Int) - z) % T.length by omega,
      Int.add_emod_emod]
    congr 1
    omega
  have hlt : ∀ c, homeOf k T.length z c < T.length := by
    intro c
    unfold homeOf
    have h0 := Int.emod_nonneg ((k.hash c : Int) - z) (show (T.length : Int) ≠ 0 by omega)
    have h3 := Int.emod_lt_of_pos ((k.hash c : Int) - z) (show (0 : Int) < T.length by omega)
    omega
  have hp : (((placed k T z).map fun p => k.cls p.2.key).map (homeOf k T.length z)).Perm ((placed k T z).map Prod.fst) := by
    refine perm_of_subset ?_ (placed_fst_nodup z) ?_ (by simp)
    · unfold List.Nodup
      rw [List.pairwise_map]
      refine List.Pairwise.imp_of_mem ?_ (placed_nodup g z)
      intro a b ha hb hab h
      refine hab (hd a b ((hcl a).1 ha) ((hcl b).1 hb) ?_)
      have h1 := hmod a
      rw [h, hmod b] at h1
      exact_mod_cast h1.symm
    · intro i hi
      obtain ⟨c, hc, rfl⟩ := List.mem_map.1 hi
      obtain ⟨h1, h2, -⟩ := placed_at g ((hcl c).1 hc) (H := k.hash c) rfl
      obtain ⟨t, ht, hne⟩ := Full.congr (by simpa using (hmod c).symm) (h2 0 h1)
      exact List.mem_map.2 ⟨(_, t), mem_placed.2 ⟨hlt c, ht, hne⟩, rfl⟩
  have e := hp.sum_nat
  rw [e] at s
  have s2 : (((placed k T z).map Prod.fst).map fun i => i + 1).sum = ((placed k T z).map Prod.fst).sum + ((placed k T z).map Prod.fst).length := by
    generalize (placed k T z).map Prod.fst = l
    induction l with
    | nil => rfl
    | cons a l ih => simp only [List.map_cons, List.sum_cons, ih, List.length_cons]; omega
  refine all_one (l := (placed k T z).map fun p => k.cls p.2.key) ?_ ?_ c ((hcl c).2 hc)
  · intro c hc
    exact (placed_at g ((hcl c).1 hc) (H := k.hash c) rfl).1
  · rw [List.length_map]
    rw [List.length_map] at s2
    omega

/-- **C136.** However a map came about: if no two of its keys have the same hash up to multiples of the capacity, then each is found at the
first look. -/
theorem looked_one {k : Kind K C} {v0 : V} (hz : ZeroOk k) {m m' : Map K V} (hm : Started k v0 m) {ops : List (Op K V)} {outs : List (Out V)}
    (hr : run k v0 m ops = .ok (m', outs)) :
    ∃ f, Spec.Run k.cls v0 Spec.empty ops outs f ∧
      ((∀ x y, (f (k.cls x)).isSome = true → (f (k.cls y)).isSome = true → k.hash (k.cls x) % m'.cap = k.hash (k.cls y) % m'.cap →
        k.cls x = k.cls y) →
      ∀ key, key ≠ k.zero → (f (k.cls key)).isSome = true → looked k m' key = .ok 1) := by
  obtain ⟨al, g, cap, lf, hcap, hinit⟩ := hm
  obtain ⟨m1, outs1, f, h1, h2, r⟩ := run_spec (v0 := v0) hz ops (init_rep hinit hcap)
  rw [hr] at h1
  cases h1
  refine ⟨f, h2, fun hd key hk hs => ?_⟩
  have hkey := (r.hasKey hz (k.cls key)).2 ⟨fun h => hk (hz _ h), hs⟩
  rw [looked_present r hk hkey, all_home r.good r.room ?_ hkey]
  intro c c' hc hc' h
  obtain ⟨x, t, hx, hne, rfl⟩ := hc
  obtain ⟨x', t', hx', hne', rfl⟩ := hc'
  rw [r.len] at h
  exact hd _ _ ((r.hasKey hz _).1 ⟨x, t, hx, hne, rfl⟩).2 ((r.hasKey hz _).1 ⟨x', t', hx', hne', rfl⟩).2 h

/-! ## Numbers in a row -/

theorem mod_inj {n a b lo : Nat} (ha : lo ≤ a) (ha' : a < lo + n) (hb : lo ≤ b) (hb' : b < lo + n) (h : a % n = b % n) : a = b := by
  have h1 := emod_window (n := n) (x := a) (y := b) (by exact_mod_cast h) (by omega) (by omega)
  exact_mod_cast h1

/-- **C136.** In a map with numbers of 32 bits all of which lie within as many numbers in a row as the map has cells, each is found at the
first look. -/
theorem u32_row {v0 : V} {m m' : Map Nat V} (hm : Started u32Kind v0 m) {ops : List (Op Nat V)} {outs : List (Out V)}
    (hr : run u32Kind v0 m ops = .ok (m', outs)) :
    ∃ f, Spec.Run (fun x => x) v0 Spec.empty ops outs f ∧
      ∀ lo, lo + m'.cap ≤ 2 ^ 32 → (∀ x, (f x).isSome = true → lo ≤ x ∧ x < lo + m'.cap) →
        ∀ key, key ≠ 0 → (f key).isSome = true → looked u32Kind m' key = .ok 1 := by
  obtain ⟨f, h1, h2⟩ := looked_one u32Kind_ok hm hr
  refine ⟨f, h1, fun lo hlo hin => h2 ?_⟩
  intro x y hx hy h
  obtain ⟨a, b⟩ := hin x hx
  obtain ⟨c, d⟩ := hin y hy
  have e : ∀ z, z < 2 ^ 32 → u32Kind.hash (u32Kind.cls z) = z := fun z hz => Nat.mod_eq_of_lt hz
  rw [e x (by omega), e y (by omega)] at h
  exact mod_inj a b c d h

/-- **C136**, for numbers of 64 bits. -/
theorem u64_row {v0 : V} {m m' : Map Nat V} (hm : Started u64Kind v0 m) {ops : List (Op Nat V)} {outs : List (Out V)}
    (hr : run u64Kind v0 m ops = .ok (m', outs)) :
    ∃ f, Spec.Run (fun x => x) v0 Spec.empty ops outs f ∧
      ∀ lo, lo + m'.cap ≤ 2 ^ 32 → (∀ x, (f x).isSome = true → lo ≤ x ∧ x < lo + m'.cap) →
        ∀ key, key ≠ 0 → (f key).isSome = true → looked u64Kind m' key = .ok 1 := by
  obtain ⟨f, h1, h2⟩ := looked_one u64Kind_ok hm hr
  refine ⟨f, h1, fun lo hlo hin => h2 ?_⟩
  intro x y hx hy h
  obtain ⟨a, b⟩ := hin x hx
  obtain ⟨c, d⟩ := hin y hy
  have e : ∀ z, z < 2 ^ 32 → u64Kind.hash (u64Kind.cls z) = z := fun z hz => by
    show (z % W32) ^^^ ((z >>> 32) % W32) = z
    rw [Nat.shiftRight_eq_div_pow, Nat.div_eq_of_lt hz, Nat.mod_eq_of_lt hz, Nat.zero_mod, Nat.xor_zero]
  rw [e x (by omega), e y (by omega)] at h
  exact mod_inj a b c d h

/-- **C136**, for `int` and `long long`. -/
theorem int_row {v0 : V} {m m' : Map Int V} (hm : Started intKind v0 m) {ops : List (Op Int V)} {outs : List (Out V)}
    (hr : run intKind v0 m ops = .ok (m', outs)) :
    ∃ f, Spec.Run (fun x => x) v0 Spec.empty ops outs f ∧
      ∀ lo : Int, 0 ≤ lo → lo + m'.cap ≤ 2 ^ 32 → (∀ x, (f x).isSome = true → lo ≤ x ∧ x < lo + m'.cap) →
        ∀ key, key ≠ 0 → (f key).isSome = true → looked intKind m' key = .ok 1 := by
  obtain ⟨f, h1, h2⟩ := looked_one intKind_ok hm hr
  refine ⟨f, h1, fun lo h0 hlo hin => h2 ?_⟩
  intro x y hx hy h
  obtain ⟨a, b⟩ := hin x hx
  obtain ⟨c, d⟩ := hin y hy
  have e : ∀ z : Int, 0 ≤ z → z < 2 ^ 32 → intKind.hash (intKind.cls z) = z.toNat := fun z hz hz' => by
    show hash64 (z % (W64 : Int)).toNat = z.toNat
    rw [Int.emod_eq_of_lt hz (by omega)]
    have hz' : z.toNat < 2 ^ 32 := by omega
    generalize z.toNat = n at hz'
    show (n % W32) ^^^ ((n >>> 32) % W32) = n
    rw [Nat.shiftRight_eq_div_pow, Nat.div_eq_of_lt hz', Nat.mod_eq_of_lt hz', Nat.zero_mod, Nat.xor_zero]
  rw [e x (by omega) (by omega), e y (by omega) (by omega)] at h
  have := mod_inj (lo := lo.toNat) (by omega) (by omega) (by omega) (by omega) h
  show x = y
  omega

/-! ## Numbers in a row that are not there -/

/-- **C135 is violated**, even for keys that no one chose: in a new map with the numbers from 1 to `N`, looking for the number that is one more
than the capacity looks at all of them. -/
theorem row_miss_violated {N : Nat} (hN : N < 536870912) (h1 : 1 ≤ N) :
    ∃ m outs, run u32Kind (0 : Nat) (newMap u32Kind 0) (((List.range N).map (· + 1)).map fun x => .put x 0 true) = .ok (m, outs) ∧
      N < m.cap ∧ looked u32Kind m (m.cap + 1) = .ok (N + 1) := by
  have hi := newMap_init u32Kind (0 : Nat)
  have r0 := init_rep hi (by decide)
  obtain ⟨m, outs, f, hrun, h2, r⟩ := run_spec (v0 := 0) u32Kind_ok (((List.range N).map (· + 1)).map fun x => .put x 0 true) r0
  have hf := puts_spec (L := []) 0 (fun c h => by cases h) (by simpa using hN) h2
  have hf : ∀ c, (f c).isSome = true ↔ 1 ≤ c ∧ c ≤ N := fun c => by
    rw [hf]
    have : u32Kind.cls = id := rfl
    simp only [Spec.empty, this, List.map_map, List.mem_map, List.mem_range, Function.comp, id]
    constructor
    · rintro (h | ⟨i, hi, rfl⟩)
      · cases h
      · omega
    · rintro ⟨ha, hb⟩
      exact .inr ⟨c - 1, by omega, by omega⟩
  have hb := r.cap.bounds
  have hkey : ∀ c, HasKey u32Kind m.mem c ↔ 1 ≤ c ∧ c ≤ N := fun c => by
    rw [r.hasKey u32Kind_ok, hf]
    show c ≠ 0 ∧ _ ↔ _
    omega
  have hcapN : N < m.cap := by
    have hs := r.size
    have hroom := r.room
    obtain ⟨l, ⟨hl1, hl2⟩, hsz⟩ := (r.observes (v0 := 0) u32Kind_ok).size
    have hsub : N ≤ l.length := by
      have := (List.nodup_range (n := N)).length_le_of_subset (l₂ := (l.map Prod.fst).map (· - 1)) (by
        intro i hi
        have hi := List.mem_range.1 hi
        obtain ⟨w, hw⟩ := Option.isSome_iff_exists.1 ((hf (i + 1)).2 ⟨by omega, by omega⟩)
        exact List.mem_map.2 ⟨i + 1, List.mem_map.2 ⟨(i + 1, w), (hl2 _ _).2 hw, rfl⟩, by omega⟩)
      simpa using this
    have hu : m.used = false := by
      cases hu : m.used with
      | false => rfl
      | true =>
        have := (hf 0).1 (by rw [(r.rep 0 m.mem1.value).2 (.inl ⟨rfl, hu, rfl⟩)]; rfl)
        omega
    rw [hu] at hs
    rw [r.len] at hroom
    simp at hs
    omega
  refine ⟨m, outs, hrun, hcapN, ?_⟩
  have hash : ∀ z, z < 2 ^ 32 → u32Kind.hash (u32Kind.cls z) = z := fun z hz => Nat.mod_eq_of_lt hz
  have hone : ∀ c, HasKey u32Kind m.mem c → costOf u32Kind m.mem c = 1 := by
    intro c hc
    refine all_home r.good r.room ?_ hc
    intro x y hx hy h
    have hx := (hkey x).1 hx
    have hy := (hkey y).1 hy
    rw [show u32Kind.hash x = x from hash x (by omega), show u32Kind.hash y = y from hash y (by omega), r.len] at h
    exact mod_inj (lo := 1) (by omega) (by omega) (by omega) (by omega) h
  -- the cells from 1 to `N` are those that are occupied
  have hfull : ∀ i : Nat, 1 ≤ i → i ≤ N → ∃ t, cell m.mem (i : Int) = some t ∧ t.key = i := by
    intro i ha hb'
    obtain ⟨-, -, t, h3, h4, h5⟩ := placed_at r.good ((hkey i).2 ⟨ha, hb'⟩) (H := i)
      (by rw [show u32Kind.hash i = i from hash i (by omega)])
    rw [hone i ((hkey i).2 ⟨ha, hb'⟩)] at h3
    exact ⟨t, by simpa using h3, h5⟩
  have hfree : ¬ Full u32Kind m.mem ((N + 1 : Nat) : Int) := by
    rintro ⟨t, ht, hne⟩
    have hk : HasKey u32Kind m.mem t.key := ⟨_, t, ht, hne, rfl⟩
    obtain ⟨ha, hb'⟩ := (hkey _).1 hk
    obtain ⟨t', ht', he⟩ := hfull t.key ha hb'
    have hu := r.good.uniq _ _ _ _ ht ht' hne (by rw [he]; exact hne) (by rw [he])
    have := emod_window hu (by rw [r.len]; omega) (by rw [r.len]; omega)
    omega
  obtain ⟨d, t, p1, p2, p3, p4, p5⟩ := looked_spec r (key := m.cap + 1) (by show m.cap + 1 ≠ 0; omega)
  have hh : u32Kind.hash (u32Kind.cls (m.cap + 1)) = m.cap + 1 := hash _ (by omega)
  have hmod : ∀ i : Nat, cell m.mem (((m.cap + 1 : Nat) : Int) + i) = cell m.mem ((1 + i : Nat) : Int) := by
    intro i
    apply cell_congr
    rw [r.len, show ((m.cap + 1 : Nat) : Int) + i = ((1 + i : Nat) : Int) + m.cap by omega, Int.add_emod_right]
  rw [hh] at p3 p4
  rw [p1]
  congr 1
  rcases Nat.lt_trichotomy d N with hlt | rfl | hgt
  · exfalso
    rw [hmod] at p3
    obtain ⟨t', h3, h4⟩ := hfull (1 + d) (by omega) (by omega)
    rw [h3] at p3
    cases p3
    rcases p5 with h5 | ⟨-, h5⟩
    · have : t.key = 0 := h5
      omega
    · have : t.key = m.cap + 1 := h5
      omega
  · rfl
  · exfalso
    obtain ⟨a, h3, h4, -⟩ := p4 N hgt
    rw [hmod] at h3
    rw [show 1 + N = N + 1 by omega] at h3
    exact hfree ⟨a, h3, h4⟩

/-! ## Examples -/

/-- Four strings of 64 bytes each; the fifth one is not there. -/
example : (match run (strKind (floodAt 4)) 0 (newMap (strKind (floodAt 4)) 0) (((List.range 4).map (· + 1)).map fun p => .put p 0 true) with
    | .ok (m, _) => decide (m.size = 4 ∧ looked (strKind (floodAt 4)) m 5 = .ok 5 ∧ lookedAll (strKind (floodAt 4)) m [1, 2, 3, 4] = .ok 10)
    | .ub => false) = true := by decide +kernel

/-- The same four strings are different. -/
example : ([1, 2, 3, 4].map (floodAt 4)).Nodup := by decide +kernel

/-- The numbers from 5 to 8 are in a map of 8 cells: each is found at the first look, and for 13, which is not there, there are five. -/
example : (match run u32Kind 0 (newMap u32Kind 0) ([7, 5, 8, 6].map fun p => .put p p true) with
    | .ok (m, _) => decide (m.cap = 8 ∧ lookedAll u32Kind m [5, 6, 7, 8] = .ok 4 ∧ looked u32Kind m 13 = .ok 5)
    | .ub => false) = true := by decide +kernel

example : Started u32Kind 0 (newMap u32Kind 0) := ⟨true, (false, false), 0, 0, by decide, newMap_init u32Kind 0⟩

end Verif.Map
