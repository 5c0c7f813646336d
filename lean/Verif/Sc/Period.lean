import Verif.Sc.Props

/-! # The generator goes round in a circle -/

namespace Verif.Sc

open Spec

/-! ## Steps can be undone -/

/-- The state before the last byte. -/
def Spec.Gen.prev (g : Gen) : Gen := ⟨swap g.S g.i g.j, g.i - 1, g.j - g.S g.j⟩

theorem swap_swap (S : Table) (a b : UInt8) : swap (swap S a b) a b = S := by
  funext x
  unfold swap
  by_cases h1 : x = a
  · subst h1
    by_cases h2 : b = x
    · simp [h2]
    · simp [h2]
  · by_cases h2 : x = b
    · subst h2; simp [h1]
    · simp [h1, h2]

theorem prev_next (g : Gen) : Gen.prev g.next = g := by
  obtain ⟨S, i, j⟩ := g
  have e : swap S (i + 1) (j + S (i + 1)) (j + S (i + 1)) = S (i + 1) := by
    unfold swap; split
    · next h => rw [h]
    · simp
  simp only [Gen.prev, Gen.next, swap_swap, e, UInt8.add_sub_cancel]

theorem next_inj {g h : Gen} (e : g.next = h.next) : g = h := by
  rw [← prev_next g, e, prev_next]

theorem after_inj (n : Nat) : ∀ {g h : Gen}, g.after n = h.after n → g = h := by
  induction n with
  | zero => intro g h e; exact e
  | succ n ih => intro g h e; exact ih (next_inj e)

/-! ## Finitely many states -/

/-- Iterates of an injective function on finitely many states come back. -/
theorem comes_back {α : Type} {f : Nat → α} {code : α → Nat} {N : Nat} (hc : ∀ a b, code a = code b → a = b)
    (hN : ∀ a, code a < N) (hf : ∀ a b, f a = f (a + b) → f 0 = f b) : ∃ T, 0 < T ∧ T ≤ N ∧ f 0 = f T := by
  apply Classical.byContradiction
  intro h
  have hno : ∀ T, 0 < T → T ≤ N → f 0 ≠ f T := fun T h1 h2 h3 => h ⟨T, h1, h2, h3⟩
  have hlt : ∀ a b, a < b → b ≤ N → f a ≠ f b := by
    intro a b hab hb e
    refine hno (b - a) (by omega) (by omega) (hf a (b - a) ?_)
    rw [show a + (b - a) = b by omega]; exact e
  have hnd : ((List.range (N + 1)).map fun k => code (f k)).Nodup := by
    refine List.pairwise_map.2 ?_
    rw [List.pairwise_iff_getElem]
    intro i j hi hj hij
    simp only [List.length_range] at hi hj
    simp only [List.getElem_range]
    exact fun e => hlt i j hij (by omega) (hc _ _ e)
  have := hnd.length_le_of_subset (l₂ := List.range N) (by
    intro x hx
    obtain ⟨k, -, rfl⟩ := List.mem_map.1 hx
    exact List.mem_range.2 (hN _))
  simp at this
  omega

/-- The bytes as a number. -/
def num : List UInt8 → Nat
  | [] => 0
  | b :: l => b.toNat + 256 * num l

theorem num_lt (l : List UInt8) : num l < 256 ^ l.length := by
  induction l with
  | nil => simp [num]
  | cons b l ih =>
    rw [num, List.length_cons, Nat.pow_succ]
    have := toNat_lt b
    omega

theorem num_inj : ∀ {l m : List UInt8}, l.length = m.length → num l = num m → l = m := by
  intro l
  induction l with
  | nil => intro m h _; exact (List.length_eq_zero_iff.1 h.symm).symm
  | cons b l ih =>
    intro m h e
    cases m with
    | nil => simp at h
    | cons c m =>
      simp only [num] at e
      have h1 := toNat_lt b
      have h2 := toNat_lt c
      have e1 : b.toNat = c.toNat := by omega
      have e2 : num l = num m := by omega
      rw [UInt8.toNat_inj.1 e1, ih (by simpa using h) e2]

/-- The state as a list of bytes. -/
def Spec.Gen.bytes (g : Gen) : List UInt8 := g.i :: g.j :: (List.range 256).map fun k => g.S (UInt8.ofNat k)

theorem bytes_len (g : Gen) : g.bytes.length = 258 := by simp [Gen.bytes]

theorem bytes_inj {g h : Gen} (e : g.bytes = h.bytes) : g = h := by
  obtain ⟨S, i, j⟩ := g
  obtain ⟨S', i', j'⟩ := h
  simp only [Gen.bytes, List.cons.injEq] at e
  obtain ⟨rfl, rfl, e⟩ := e
  have : S = S' := by
    funext x
    have h1 : ((List.range 256).map fun k => S (UInt8.ofNat k))[x.toNat]? = some (S x) := by
      rw [List.getElem?_map, List.getElem?_range (toNat_lt x)]; simp
    have h2 : ((List.range 256).map fun k => S' (UInt8.ofNat k))[x.toNat]? = some (S' x) := by
      rw [List.getElem?_map, List.getElem?_range (toNat_lt x)]; simp
    rw [e, h2] at h1
    exact (Option.some.inj h1).symm
  rw [this]

theorem gen_returns (g : Gen) {n : Nat} (hn : n = 258) : ∃ T, 0 < T ∧ T ≤ 256 ^ n ∧ g.after T = g := by
  obtain ⟨T, h1, h2, h3⟩ := comes_back (f := g.after) (code := fun g => num g.bytes) (N := 256 ^ n)
    (fun a b e => bytes_inj (num_inj (by rw [bytes_len, bytes_len]) e))
    (fun a => by have := num_lt a.bytes; rw [bytes_len, ← hn] at this; exact this)
    (fun a b e => by rw [Nat.add_comm, after_add] at e; exact after_inj a e)
  exact ⟨T, h1, h2, h3.symm⟩

theorem after_i (g : Gen) (n : Nat) : (g.after n).i = g.i + UInt8.ofNat n := by
  induction n with
  | zero => simp [Gen.after]
  | succ n ih =>
    show (g.after n).i + 1 = _
    rw [ih, UInt8.add_assoc]
    congr 1
    apply UInt8.toNat_inj.1
    simp

theorem gen_256 {g : Gen} {T : Nat} (h : g.after T = g) : 256 ∣ T := by
  have h1 := after_i g T
  rw [h] at h1
  have h2 : UInt8.ofNat T = 0 := by
    have : g.i + UInt8.ofNat T - g.i = g.i - g.i := by rw [← h1]
    rwa [UInt8.sub_self, UInt8.add_comm, UInt8.add_sub_cancel] at this
  have h3 := congrArg UInt8.toNat h2
  simp at h3
  exact Nat.dvd_of_mod_eq_zero h3

theorem after_mul {g : Gen} {T : Nat} (h : g.after T = g) (k : Nat) : g.after (T * k) = g := by
  induction k with
  | zero => rfl
  | succ k ih => rw [Nat.mul_succ, after_add, ih, h]

theorem least {p : Nat → Prop} (n : Nat) : p n → ∃ m, m ≤ n ∧ p m ∧ ∀ k, k < m → ¬p k := by
  induction n using Nat.strongRecOn with
  | ind n ih =>
    intro h
    by_cases h1 : ∃ k, k < n ∧ p k
    · obtain ⟨k, hk, hp⟩ := h1
      obtain ⟨m, h2, h3, h4⟩ := ih k hk hp
      exact ⟨m, by omega, h3, h4⟩
    · exact ⟨n, Nat.le_refl _, h, fun k hk hp => h1 ⟨k, hk, hp⟩⟩

/-- The period: the state comes back after its multiples and after nothing else. -/
theorem gen_period (g : Gen) {n : Nat} (hn : n = 258) :
    ∃ T, 0 < T ∧ T ≤ 256 ^ n ∧ 256 ∣ T ∧ ∀ t, g.after t = g ↔ T ∣ t := by
  obtain ⟨T0, h1, h2, h3⟩ := gen_returns g hn
  obtain ⟨T, h4, ⟨h5, h6⟩, h7⟩ := least (p := fun T => 0 < T ∧ g.after T = g) T0 ⟨h1, h3⟩
  refine ⟨T, h5, by omega, gen_256 h6, fun t => ⟨fun ht => ?_, fun ⟨k, hk⟩ => by rw [hk]; exact after_mul h6 k⟩⟩
  rw [← Nat.div_add_mod t T, after_add, after_mul h6] at ht
  have hlt : t % T < T := Nat.mod_lt _ h5
  by_cases h0 : t % T = 0
  · exact Nat.dvd_of_mod_eq_zero h0
  · exact absurd ⟨by omega, ht⟩ (h7 _ hlt)

theorem Rel.gen {r r' : Rand} {g : Gen} (h : Rel r g.S g.i g.j) (h' : Rel r' g.S g.i g.j) : r = r' := by
  obtain ⟨i, j, tab⟩ := r
  obtain ⟨i', j', tab'⟩ := r'
  have h1 : tab = tab' := by
    refine List.ext_getElem? fun k => ?_
    by_cases hk : k < 256
    · have e : (UInt8.ofNat k).toNat = k := by simp; omega
      have a := h.tab (UInt8.ofNat k)
      have b := h'.tab (UInt8.ofNat k)
      rw [e] at a b
      exact a.trans b.symm
    · have a := h.len
      have b := h'.len
      simp only at a b
      rw [List.getElem?_eq_none (by omega), List.getElem?_eq_none (by omega)]
  have h2 : i = i' := h.i.trans h'.i.symm
  have h3 : j = j' := h.j.trans h'.j.symm
  rw [h1, h2, h3]

theorem Rel.same {r : Rand} {g g' : Gen} (h : Rel r g.S g.i g.j) (h' : Rel r g'.S g'.i g'.j) : g = g' := by
  obtain ⟨S, i, j⟩ := g
  obtain ⟨S', i', j'⟩ := g'
  have h1 : S = S' := funext fun x => Option.some.inj ((h.tab x).symm.trans (h'.tab x))
  have h2 : i = i' := h.i.symm.trans h'.i
  have h3 : j = j' := h.j.symm.trans h'.j
  rw [h1, h2, h3]

/-- Every state with a table of 256 bytes is one of a generator. -/
theorem rel_of {r : Rand} (h : r.tab.length = 256) : ∃ g : Gen, Rel r g.S g.i g.j :=
  ⟨⟨table r.tab, r.i, r.j⟩, rfl, rfl, h, fun x => by
    have := toNat_lt x
    show _ = some (table r.tab x)
    unfold table
    rw [List.getElem?_eq_getElem (by omega)]; rfl⟩

/-- **C143**, going round: after some number of bytes, a multiple of 256, the generator is where
`sc_rand_init` left it, and its bytes start again from the first. It is there again after every
multiple of that number and at no other time, whichever sizes are read. -/
theorem rand_period {seed : List UInt8} (h : 256 ≤ seed.length) : ∃ r T, randInit seed = .ok r ∧ 0 < T ∧ 256 ∣ T ∧
    (∀ n, (generator (table seed)).stream (n + T) = (generator (table seed)).stream n) ∧
    ∀ l : List (List UInt8 × Int), (∀ x ∈ l, x.2 ≤ x.1.length) →
      ∃ r', readAll r l = .ok (r', Spec.pieces (generator (table seed)).stream 0 l) ∧ (r' = r ↔ T ∣ Spec.total l) := by
  obtain ⟨r, h1, -, h3⟩ := randInit_eq h
  obtain ⟨T, t1, -, t3, t4⟩ := gen_period (generator (table seed)) rfl
  refine ⟨r, T, h1, t1, t3, fun n => ?_, fun l hl => ?_⟩
  · rw [Nat.add_comm, ← stream_after, (t4 T).2 (Nat.dvd_refl _)]
  · obtain ⟨r', h4, -, h6⟩ := readAll_eq l r _ hl h3
    refine ⟨r', h4, ?_⟩
    rw [← t4]
    constructor
    · rintro rfl
      exact h6.same h3
    · intro e
      rw [e] at h6
      exact h6.gen h3

/-- **C143**, looking back: what a generator was before it gave `n` bytes follows from what it is
after them, so two generators that differ never become the same one by reading equally much. -/
theorem rand_apart {r1 r2 s1 s2 : Rand} {b1 b2 : List UInt8} {o1 o2 : Option (List UInt8)} {n : Nat}
    (h1 : r1.tab.length = 256) (h2 : r2.tab.length = 256) (l1 : n ≤ b1.length) (l2 : n ≤ b2.length)
    (e1 : randRead r1 (some b1) n = .ok (s1, o1)) (e2 : randRead r2 (some b2) n = .ok (s2, o2)) (hs : s1 = s2) : r1 = r2 := by
  subst hs
  obtain ⟨g1, k1⟩ := rel_of h1
  obtain ⟨g2, k2⟩ := rel_of h2
  obtain ⟨t1, f1, -, m1⟩ := randRead_eq (buf := b1) (n := n) (by omega) k1
  obtain ⟨t2, f2, -, m2⟩ := randRead_eq (buf := b2) (n := n) (by omega) k2
  rw [e1] at f1
  rw [e2] at f2
  cases f1
  cases f2
  have := after_inj _ (m1.same m2)
  subst this
  exact k1.gen k2

theorem after_zero {g : Gen} (h : ∀ x, g.S x = 0) (n : Nat) : (∀ x, (g.after n).S x = 0) ∧ (g.after n).j = g.j := by
  induction n with
  | zero => exact ⟨h, rfl⟩
  | succ n ih =>
    refine ⟨fun x => ?_, ?_⟩
    · show swap _ _ _ x = 0
      unfold swap
      split
      · exact ih.1 _
      · split
        · exact ih.1 _
        · exact ih.1 _
    · show (g.after n).j + (g.after n).S _ = g.j
      rw [ih.1, ih.2, UInt8.add_zero]

/-- The bound is met: with 256 zeros as the seed, the generator is back after 256 bytes. -/
theorem rand_period_zero : (generator (table (List.replicate 256 0))).after 256 = generator (table (List.replicate 256 0)) := by
  have h0 : ∀ x, (generator (table (List.replicate 256 0))).S x = 0 := fun x =>
    (List.mem_replicate.1 (generator_mem (by rw [List.length_replicate]; decide) x)).2
  generalize generator (table (List.replicate 256 0)) = g at h0
  obtain ⟨h1, h2⟩ := after_zero h0 256
  have h3 : (g.after 256).i = g.i := by rw [after_i]; simp
  generalize g.after 256 = k at *
  obtain ⟨S, i, j⟩ := g
  obtain ⟨S', i', j'⟩ := k
  have : S' = S := funext fun x => (h1 x).trans (h0 x).symm
  simp only at h2 h3
  rw [this, h2, h3]

/-- Two generators that differ, and still differ after three bytes each. -/
example : (do
    let (s1, _) ← randRead ⟨0, 0, List.replicate 256 7⟩ (some [0, 0, 0]) 3
    let (s2, _) ← randRead ⟨0, 9, List.replicate 256 7⟩ (some [0, 0, 0]) 3
    .ok (s1.j, s2.j)) = Res.ok (21, 30) := by decide +kernel

end Verif.Sc
