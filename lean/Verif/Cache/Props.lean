import Verif.Cache.Model

/-! # The cache keeps what was used last (C161) -/

namespace Verif.Cache

open LList (Addr Heap)
open LList.Spec (State Addable Used)
open Map (Map Kind ZeroOk)

set_option linter.unusedSectionVars false

/-- One list and its elements, and nothing else. -/
def one (l : Addr) (es : List Addr) : State := fun x => if x = l then some es else none

theorem rep_free {h : Heap} {S : State} {e : Addr} (r : LList.Rep h S) (he : S e = some []) :
    LList.Rep (fun y => if y = e then none else h y) (LList.Spec.absorb S e) := by
  have hS : ∀ l es, LList.Spec.absorb S e l = some es → l ≠ e ∧ S l = some es := by
    intro l es h
    unfold LList.Spec.absorb at h
    split at h
    · cases h
    · next hn => exact ⟨hn, h⟩
  refine ⟨fun l es hl => ?_, fun l es l' es' hl hl' => r.disj l es l' es' (hS l es hl).2 (hS l' es' hl').2⟩
  obtain ⟨hn, hl2⟩ := hS l es hl
  refine (r.ring l es hl2).congr fun x hx => ?_
  rw [if_neg]
  intro hxe
  subst hxe
  exact hn (r.disj l es x [] hl2 he x hx (by simp))

theorem rep_touch {h : Heap} {l a : Addr} {es : List Addr} (r : LList.Rep h (one l es)) (ha : a ∈ es) :
    ∃ h', LList.addHead h l a = .ok h' ∧ LList.Rep h' (one l (a :: es.filter (· ≠ a))) := by
  have hne : a ≠ l := by
    intro h1
    have := (r.ring l es (by simp [one])).nodup
    rw [h1] at ha
    exact (List.nodup_cons.1 this).1 ha
  have hl : LList.Spec.detach (one l es) a l = some (es.filter (· ≠ a)) := by
    unfold LList.Spec.detach one
    rw [if_neg (Ne.symm hne)]
    simp
  obtain ⟨h', h1, h2⟩ := LList.rep_addHead r ⟨hne, ⟨l, es, by simp [one], .inr ha⟩, fun es' h => by simp [one, hne] at h⟩ hl
  refine ⟨h', h1, ?_⟩
  have : LList.Spec.put (LList.Spec.absorb (LList.Spec.detach (one l es) a) a) l (a :: es.filter (· ≠ a)) =
      one l (a :: es.filter (· ≠ a)) := by
    funext x
    unfold LList.Spec.put LList.Spec.absorb LList.Spec.detach one
    by_cases hx : x = l
    · simp [hx]
    · by_cases hxa : x = a <;> simp [hx, hxa]
  rwa [this] at h2

theorem rep_new {h : Heap} {l a : Addr} {es : List Addr} (r : LList.Rep h (one l es)) (hne : a ≠ l) (ha : a ∉ es) :
    ∃ h', LList.addHead (LList.init h a) l a = .ok h' ∧ LList.Rep h' (one l (a :: es)) := by
  have hu : ¬ Used (one l es) a := by
    rintro ⟨x, xs, h1, h2⟩
    unfold one at h1
    split at h1
    · next hx =>
      cases h1
      subst hx
      rcases h2 with h2 | h2
      · exact hne h2
      · exact ha h2
    · cases h1
  have r1 := LList.rep_init r (.inl hu)
  have hS : LList.Spec.put (one l es) a [] a = some [] := by simp [LList.Spec.put]
  have hf : es.filter (· ≠ a) = es := List.filter_eq_self.2 fun x hx => by
    have : x ≠ a := fun h => ha (h ▸ hx)
    simpa using this
  have hl : LList.Spec.detach (LList.Spec.put (one l es) a []) a l = some es := by
    unfold LList.Spec.detach LList.Spec.put one
    rw [if_neg (Ne.symm hne), if_neg (Ne.symm hne), if_pos rfl]
    simp only [Option.map_some, hf]
  obtain ⟨h', h1, h2⟩ := LList.rep_addHead r1 ⟨hne, ⟨a, [], hS, .inl rfl⟩, fun es' h => by rw [hS] at h; cases h; rfl⟩ hl
  refine ⟨h', h1, ?_⟩
  have : LList.Spec.put (LList.Spec.absorb (LList.Spec.detach (LList.Spec.put (one l es) a []) a) a) l (a :: es) = one l (a :: es) := by
    funext x
    unfold LList.Spec.put LList.Spec.absorb LList.Spec.detach one
    by_cases hx : x = l
    · simp [hx]
    · by_cases hxa : x = a <;> simp [hx, hxa]
  rwa [this] at h2

theorem rep_out {h : Heap} {l a : Addr} {es : List Addr} (r : LList.Rep h (one l es)) (ha : a ∈ es) :
    ∃ h', LList.del h a = .ok h' ∧ LList.Rep (fun y => if y = a then none else h' y) (one l (es.filter (· ≠ a))) := by
  have hne : a ≠ l := by
    intro h1
    have := (r.ring l es (by simp [one])).nodup
    rw [h1] at ha
    exact (List.nodup_cons.1 this).1 ha
  obtain ⟨h', h1, h2⟩ := LList.rep_del r (e := a) ⟨l, es, by simp [one], .inr ha⟩ (fun es' h => by simp [one, hne] at h)
  refine ⟨h', h1, ?_⟩
  have h3 := rep_free h2 (e := a) (by simp [LList.Spec.detach])
  have : LList.Spec.absorb (LList.Spec.detach (one l es) a) a = one l (es.filter (· ≠ a)) := by
    funext x
    unfold LList.Spec.absorb LList.Spec.detach one
    by_cases hx : x = l
    · subst hx
      simp [Ne.symm hne]
    · by_cases hxa : x = a
      · simp [hxa, hne]
      · simp [hx, hxa]
  rwa [this] at h3

theorem rep_last {h : Heap} {l a : Addr} {es : List Addr} (r : LList.Rep h (one l (es ++ [a]))) :
    ∃ h', LList.popTail h l = .ok (h', some a) ∧ LList.Rep (fun y => if y = a then none else h' y) (one l es) := by
  have hne : a ≠ l := by
    intro h1
    have := (r.ring l (es ++ [a]) (by simp [one])).nodup
    rw [h1] at this
    exact (List.nodup_cons.1 this).1 (by simp)
  obtain ⟨h', h1, h2⟩ := (LList.rep_popTail (l := l) r).2 es a (by simp [one])
  refine ⟨h', h1, ?_⟩
  have h3 := rep_free h2 (e := a) (by simp [LList.Spec.put])
  have : LList.Spec.absorb (LList.Spec.put (LList.Spec.put (one l (es ++ [a])) l es) a []) a = one l es := by
    funext x
    unfold LList.Spec.absorb LList.Spec.put one
    by_cases hx : x = l
    · subst hx
      simp [Ne.symm hne]
    · by_cases hxa : x = a
      · simp [hxa, hne]
      · simp [hx, hxa]
  rwa [this] at h3

/-! ## Counting -/

theorem nodup_of_map {α β : Type} (f : α → β) {l : List α} (h : (l.map f).Nodup) : l.Nodup := by
  rw [List.Nodup, List.pairwise_map] at h
  exact h.imp fun hab heq => hab (by rw [heq])

theorem nodup_length_le {α : Type} [DecidableEq α] : ∀ (x y : List α), x.Nodup → (∀ a ∈ x, a ∈ y) → x.length ≤ y.length := by
  intro x
  induction x with
  | nil => intros; simp
  | cons a x ih =>
    intro y hx h
    have ha := h a (by simp)
    have hx := List.nodup_cons.1 hx
    have := ih (y.erase a) hx.2 fun b hb => by
      refine (List.mem_erase_of_ne ?_).2 (h b (by simp [hb]))
      intro hba
      rw [hba] at hb
      exact hx.1 hb
    rw [List.length_erase_of_mem ha] at this
    have := List.length_pos_of_mem ha
    simp only [List.length_cons]
    omega

section
variable {K C V : Type} [DecidableEq K] [DecidableEq C]

/-- An entry with its address. -/
abbrev Ent (K V : Type) := Addr × K × V

/-- What the entries hold, for the specification. -/
def shown (k : Kind K C) (t : List (Ent K V)) : Entries C V := t.map fun x => (k.cls x.2.1, x.2.2)

/-- The entries `t` are in the list, in this order, and in the map. -/
structure Holds (k : Kind K C) (c : Cache K V) (t : List (Ent K V)) : Prop where
  list : LList.Rep c.h (one c.list (t.map (·.1)))
  map : ∃ f, Map.Rep k c.m f ∧ ∀ cl a, f cl = some a ↔ ∃ x ∈ t, x.1 = a ∧ k.cls x.2.1 = cl
  keys : (t.map fun x => k.cls x.2.1).Nodup
  ents : ∀ a x, c.ents a = some x ↔ (a, x) ∈ t

theorem Holds.addrs {k : Kind K C} {c : Cache K V} {t : List (Ent K V)} (i : Holds k c t) : (c.list :: t.map (·.1)).Nodup :=
  (i.list.ring c.list _ (by simp [one])).nodup

theorem nodup_inj {α β : Type} {f : α → β} : ∀ {l : List α}, (l.map f).Nodup → ∀ {x y : α}, x ∈ l → y ∈ l → f x = f y → x = y := by
  intro l
  induction l with
  | nil => intro _ x y hx; cases hx
  | cons a l ih =>
    intro h x y hx hy hf
    have h := List.nodup_cons.1 h
    rcases List.mem_cons.1 hx with rfl | hx' <;> rcases List.mem_cons.1 hy with rfl | hy'
    · rfl
    · exact absurd (List.mem_map.2 ⟨y, hy', hf.symm⟩) h.1
    · exact absurd (List.mem_map.2 ⟨x, hx', hf⟩) h.1
    · exact ih h.2 hx' hy' hf

theorem Holds.size {k : Kind K C} {c : Cache K V} {t : List (Ent K V)} (i : Holds k c t) (hz : ZeroOk k) : c.m.size = t.length := by
  obtain ⟨f, r, hf⟩ := i.map
  obtain ⟨⟨e1, e2⟩, h2⟩ := r.entries hz
  generalize hl : (((if c.m.used then [c.m.mem1] else []) ++ c.m.mem.filter (fun t => decide (t.key ≠ k.zero))).map
        (fun t => (k.cls t.key, t.value))) = l at e1 e2
  have hlen : l.length = c.m.size := by rw [← hl, List.length_map]; exact h2
  have m1 : ∀ p, p ∈ l ↔ p ∈ t.map fun x => (k.cls x.2.1, x.1) := by
    rintro ⟨cl, a⟩
    rw [e2, hf]
    simp only [List.mem_map, Prod.mk.injEq]
    constructor
    · rintro ⟨x, hx, h1, h2⟩; exact ⟨x, hx, h2, h1⟩
    · rintro ⟨x, hx, h1, h2⟩; exact ⟨x, hx, h2, h1⟩
  have n1 : l.Nodup := nodup_of_map _ e1
  have n2 : (t.map fun x => (k.cls x.2.1, x.1)).Nodup := by
    refine nodup_of_map Prod.fst ?_
    rw [List.map_map]
    exact i.keys
  have := nodup_length_le l _ n1 fun p hp => (m1 p).1 hp
  have := nodup_length_le _ l n2 fun p hp => (m1 p).2 hp
  simp only [List.length_map] at *
  omega

theorem Map.Rep.flags {k : Kind K C} {m : Map K Addr} {f} (r : Map.Rep k m f) (a b : Bool) : Map.Rep k { m with found := a, oom := b } f :=
  ⟨r.cap, r.len, r.good, r.size, r.mem1, r.lf, r.shape, r.bound, r.rep⟩

/-! ## Looking up -/

theorem lookup_some {k : Kind K C} {t : List (Ent K V)} (hk : (t.map fun x => k.cls x.2.1).Nodup) {x : Ent K V} (hx : x ∈ t) :
    lookup (shown k t) (k.cls x.2.1) = some x.2.2 := by
  unfold lookup shown
  cases hf : (t.map fun x => (k.cls x.2.1, x.2.2)).find? (fun y => decide (y.1 = k.cls x.2.1)) with
  | none =>
    rw [List.find?_eq_none] at hf
    exact absurd (decide_eq_true rfl) (hf _ (List.mem_map.2 ⟨x, hx, rfl⟩))
  | some y =>
    have h1 := List.find?_some hf
    obtain ⟨z, hz, rfl⟩ := List.mem_map.1 (List.mem_of_find?_eq_some hf)
    have : z = x := nodup_inj hk hz hx (by simpa using h1)
    rw [this]
    rfl

theorem lookup_none {k : Kind K C} {t : List (Ent K V)} {cl : C} : lookup (shown k t) cl = none ↔ ∀ x ∈ t, k.cls x.2.1 ≠ cl := by
  unfold lookup shown
  rw [Option.map_eq_none_iff, List.find?_eq_none]
  constructor
  · intro h x hx
    simpa using h _ (List.mem_map.2 ⟨x, hx, rfl⟩)
  · intro h y hy
    obtain ⟨x, hx, rfl⟩ := List.mem_map.1 hy
    simpa using h x hx

theorem without_shown {k : Kind K C} {t : List (Ent K V)} (hk : (t.map fun x => k.cls x.2.1).Nodup) (ha : (t.map (·.1)).Nodup)
    {x : Ent K V} (hx : x ∈ t) :
    without (shown k t) (k.cls x.2.1) = shown k (t.filter (·.1 ≠ x.1)) := by
  unfold without shown
  rw [List.filter_map]
  congr 1
  apply List.filter_congr
  intro y hy
  have : y.1 = x.1 ↔ k.cls y.2.1 = k.cls x.2.1 :=
    ⟨fun h => by rw [nodup_inj ha hy hx h], fun h => by rw [nodup_inj hk hy hx h]⟩
  simp [this]

theorem without_absent {k : Kind K C} {t : List (Ent K V)} {cl : C} (h : ∀ x ∈ t, k.cls x.2.1 ≠ cl) :
    without (shown k t) cl = shown k t := by
  unfold without shown
  rw [List.filter_eq_self]
  intro y hy
  obtain ⟨x, hx, rfl⟩ := List.mem_map.1 hy
  simpa using h x hx

theorem filter_addr (t : List (Ent K V)) (a : Addr) : (t.filter (·.1 ≠ a)).map (·.1) = (t.map (·.1)).filter (· ≠ a) := by
  rw [List.filter_map]
  rfl

/-! ## The calls -/

/-- What looking up a key in the map finds. -/
theorem Holds.find {k : Kind K C} {c : Cache K V} {t : List (Ent K V)} (i : Holds k c t) (hz : ZeroOk k) (key : K) :
    (∃ m x, Map.get k 0 c.m key = .ok (m, x.1) ∧ m.found = true ∧ x ∈ t ∧ k.cls x.2.1 = k.cls key ∧ Holds k { c with m := m } t) ∨
    (∃ m a, Map.get k 0 c.m key = .ok (m, a) ∧ m.found = false ∧ (∀ x ∈ t, k.cls x.2.1 ≠ k.cls key) ∧ Holds k { c with m := m } t) := by
  obtain ⟨f, r, hf⟩ := i.map
  have hg := Map.get_spec (v0 := (0 : Addr)) r hz key
  have hH : ∀ b, Holds k { c with m := { c.m with found := b } } t := fun b => ⟨i.list, ⟨f, Map.Rep.flags r b c.m.oom, hf⟩, i.keys, i.ents⟩
  cases hv : f (k.cls key) with
  | none =>
    rw [hv] at hg
    refine .inr ⟨_, _, hg, rfl, fun x hx h => ?_, hH _⟩
    have := (hf (k.cls key) x.1).2 ⟨x, hx, rfl, h⟩
    rw [hv] at this
    cases this
  | some a =>
    obtain ⟨x, hx, h1, h2⟩ := (hf _ _).1 hv
    rw [hv] at hg
    subst h1
    exact .inl ⟨_, x, hg, rfl, hx, h2, hH _⟩

theorem Holds.load_ok {k : Kind K C} {c : Cache K V} {t : List (Ent K V)} (i : Holds k c t) {x : Ent K V} (hx : x ∈ t) :
    load c x.1 = .ok x.2 := by
  unfold load
  rw [(i.ents x.1 x.2).2 hx]

/-- An entry goes to the front and may get another value. -/
theorem Holds.front {k : Kind K C} {c : Cache K V} {t : List (Ent K V)} (i : Holds k c t) {x : Ent K V} (hx : x ∈ t) (v : V) :
    ∃ h, LList.addHead c.h c.list x.1 = .ok h ∧
      Holds k (store { c with h := h } x.1 (x.2.1, v)) ((x.1, x.2.1, v) :: t.filter (·.1 ≠ x.1)) := by
  have hnd := (List.nodup_cons.1 i.addrs).2
  obtain ⟨h', h1, h2⟩ := rep_touch i.list (List.mem_map.2 ⟨x, hx, rfl⟩)
  refine ⟨h', h1, ?_, ?_, ?_, ?_⟩
  · show LList.Rep h' (one c.list (x.1 :: (t.filter (·.1 ≠ x.1)).map (·.1)))
    rw [filter_addr]
    exact h2
  · obtain ⟨f, r, hf⟩ := i.map
    refine ⟨f, r, fun cl a => (hf cl a).trans ?_⟩
    constructor
    · rintro ⟨y, hy, h3, h4⟩
      by_cases hyx : y.1 = x.1
      · have := nodup_inj hnd hy hx hyx
        subst this
        exact ⟨_, List.mem_cons_self .., h3, h4⟩
      · exact ⟨y, List.mem_cons_of_mem _ (List.mem_filter.2 ⟨hy, by simpa using hyx⟩), h3, h4⟩
    · rintro ⟨y, hy, h3, h4⟩
      rcases List.mem_cons.1 hy with rfl | hy
      · exact ⟨x, hx, h3, h4⟩
      · exact ⟨y, (List.mem_filter.1 hy).1, h3, h4⟩
  · simp only [List.map_cons]
    refine List.nodup_cons.2 ⟨fun hm => ?_, ?_⟩
    · obtain ⟨y, hy, h3⟩ := List.mem_map.1 hm
      have hy := List.mem_filter.1 hy
      rw [nodup_inj i.keys hy.1 hx h3] at hy
      simp at hy
    · exact List.Sublist.nodup (List.Sublist.map _ (List.filter_sublist)) i.keys
  · intro a y
    show (if a = x.1 then some (x.2.1, v) else c.ents a) = some y ↔ _
    by_cases ha : a = x.1
    · subst ha
      rw [if_pos rfl]
      constructor
      · intro h; cases h; exact List.mem_cons_self ..
      · intro h
        rcases List.mem_cons.1 h with h | h
        · cases h; rfl
        · have := (List.mem_filter.1 h).2
          simp at this
    · rw [if_neg ha, i.ents]
      constructor
      · intro h; exact List.mem_cons_of_mem _ (List.mem_filter.2 ⟨h, by simpa using ha⟩)
      · intro h
        rcases List.mem_cons.1 h with h | h
        · cases h; exact absurd rfl ha
        · exact (List.mem_filter.1 h).1

theorem store_same {c : Cache K V} {a : Addr} {x : K × V} {h : Heap} (hc : c.ents a = some x) :
    store { c with h := h } a x = { c with h := h } := by
  unfold store
  congr 1
  funext y
  split
  · next hy => rw [hy, hc]
  · rfl

theorem get_ok {k : Kind K C} (hz : ZeroOk k) {c : Cache K V} {t : List (Ent K V)} (i : Holds k c t) (key : K) :
    (∃ c' x, get k c key = .ok (c', some x.2.2) ∧ x ∈ t ∧ k.cls x.2.1 = k.cls key ∧ Holds k c' (x :: t.filter (·.1 ≠ x.1)) ∧ c'.list = c.list ∧
      c'.max = c.max) ∨
    (∃ c', get k c key = .ok (c', none) ∧ (∀ x ∈ t, k.cls x.2.1 ≠ k.cls key) ∧ Holds k c' t ∧ c'.list = c.list ∧ c'.max = c.max) := by
  unfold get
  rcases i.find hz key with ⟨m, x, h1, h2, h3, h4, j⟩ | ⟨m, a, h1, h2, h3, j⟩
  · left
    rw [h1, Res.ok_bind]
    simp only [h2, if_true]
    rw [j.load_ok h3, Res.ok_bind]
    obtain ⟨h', g1, g2⟩ := j.front h3 x.2.2
    have g1' : LList.addHead c.h c.list x.1 = .ok h' := g1
    rw [g1', Res.ok_bind]
    refine ⟨_, x, rfl, h3, h4, ?_, rfl, rfl⟩
    rwa [store_same (x := x.2) ((j.ents x.1 x.2).2 h3)] at g2
  · right
    rw [h1, Res.ok_bind]
    simp only [h2]
    exact ⟨_, rfl, h3, j, rfl, rfl⟩

/-- An entry is taken out of the map, the list and the memory. -/
theorem Holds.drop {k : Kind K C} (hz : ZeroOk k) {c : Cache K V} {t : List (Ent K V)} (i : Holds k c t) {x : Ent K V} (hx : x ∈ t)
    {key : K} (hk : k.cls x.2.1 = k.cls key) {h' : Heap}
    (hl : LList.Rep (fun y => if y = x.1 then none else h' y) (one c.list ((t.map (·.1)).filter (· ≠ x.1)))) :
    ∃ m c', Map.del k 0 c.m key = .ok (m, x.1) ∧ m.found = true ∧ free { c with m := m, h := h' } x.1 = .ok c' ∧
      Holds k c' (t.filter (·.1 ≠ x.1)) ∧ c'.list = c.list ∧ c'.max = c.max := by
  have hnd := (List.nodup_cons.1 i.addrs).2
  obtain ⟨f, r, hf⟩ := i.map
  have hv : f (k.cls key) = some x.1 := (hf _ _).2 ⟨x, hx, rfl, hk⟩
  obtain ⟨m, d1, d2, -, d4⟩ := Map.del_spec (v0 := (0 : Addr)) r hz key
  rw [hv] at d1 d4
  have he : c.ents x.1 = some x.2 := (i.ents x.1 x.2).2 hx
  refine ⟨m, { c with m := m, ents := fun y => if y = x.1 then none else c.ents y, h := fun y => if y = x.1 then none else h' y },
    d1, d4, ?_, ⟨?_, ?_, ?_, ?_⟩, rfl, rfl⟩
  · unfold free
    simp only [he]
  · show LList.Rep _ (one c.list ((t.filter (·.1 ≠ x.1)).map (·.1)))
    rw [filter_addr]
    exact hl
  · refine ⟨_, d2, fun cl a => ?_⟩
    unfold Map.Spec.rem
    by_cases hcl : cl = k.cls key
    · rw [if_pos hcl]
      constructor
      · intro h; cases h
      · rintro ⟨y, hy, h3, h4⟩
        have hy := List.mem_filter.1 hy
        rw [nodup_inj i.keys hy.1 hx (by rw [h4, hcl, hk])] at hy
        simp at hy
    · rw [if_neg hcl, hf]
      constructor
      · rintro ⟨y, hy, h3, h4⟩
        refine ⟨y, List.mem_filter.2 ⟨hy, ?_⟩, h3, h4⟩
        simp only [ne_eq, decide_not, Bool.not_eq_true', decide_eq_false_iff_not]
        intro hyx
        rw [nodup_inj hnd hy hx hyx, hk] at h4
        exact hcl h4.symm
      · rintro ⟨y, hy, h3, h4⟩
        exact ⟨y, (List.mem_filter.1 hy).1, h3, h4⟩
  · exact List.Sublist.nodup (List.Sublist.map _ (List.filter_sublist)) i.keys
  · intro a y
    show (if a = x.1 then none else c.ents a) = some y ↔ _
    by_cases ha : a = x.1
    · subst ha
      rw [if_pos rfl]
      constructor
      · intro h; cases h
      · intro h
        have := (List.mem_filter.1 h).2
        simp at this
    · rw [if_neg ha, i.ents]
      constructor
      · intro h; exact List.mem_filter.2 ⟨h, by simpa using ha⟩
      · intro h; exact (List.mem_filter.1 h).1

theorem del_ok {k : Kind K C} (hz : ZeroOk k) {c : Cache K V} {t : List (Ent K V)} (i : Holds k c t) (key : K) :
    (∃ c' x, del k c key = .ok (c', true) ∧ x ∈ t ∧ k.cls x.2.1 = k.cls key ∧ Holds k c' (t.filter (·.1 ≠ x.1)) ∧ c'.list = c.list ∧
      c'.max = c.max) ∨
    (∃ c', del k c key = .ok (c', false) ∧ (∀ x ∈ t, k.cls x.2.1 ≠ k.cls key) ∧ Holds k c' t ∧ c'.list = c.list ∧ c'.max = c.max) := by
  obtain ⟨f, r, hf⟩ := i.map
  unfold del
  cases hv : f (k.cls key) with
  | none =>
    right
    obtain ⟨m, d1, d2, -, d4⟩ := Map.del_spec (v0 := (0 : Addr)) r hz key
    rw [hv] at d1 d4
    rw [d1, Res.ok_bind]
    simp only [d4]
    have habs : ∀ x ∈ t, k.cls x.2.1 ≠ k.cls key := by
      intro x hx h
      have := (hf (k.cls key) x.1).2 ⟨x, hx, rfl, h⟩
      rw [hv] at this
      cases this
    refine ⟨_, rfl, habs, ⟨i.list, ⟨_, d2, fun cl a => ?_⟩, i.keys, i.ents⟩, rfl, rfl⟩
    unfold Map.Spec.rem
    by_cases hcl : cl = k.cls key
    · rw [if_pos hcl]
      constructor
      · intro h; cases h
      · rintro ⟨y, hy, h3, h4⟩
        exact absurd (h4.trans hcl) (habs y hy)
    · rw [if_neg hcl, hf]
  | some a =>
    left
    obtain ⟨x, hx, h1, h2⟩ := (hf _ _).1 hv
    subst h1
    obtain ⟨h', g1, g2⟩ := rep_out i.list (List.mem_map.2 ⟨x, hx, rfl⟩)
    obtain ⟨m, c', d1, d2, d3, d4, d5, d6⟩ := i.drop hz hx h2 g2
    rw [d1, Res.ok_bind]
    simp only [d2, if_true]
    rw [g1, Res.ok_bind, d3, Res.ok_bind]
    exact ⟨c', x, rfl, hx, h2, d4, d5, d6⟩

theorem evict_ok {k : Kind K C} (hz : ZeroOk k) {c : Cache K V} {t : List (Ent K V)} (i : Holds k c t) (hm : t.length ≤ c.max + 1) :
    ∃ c', evict k c = .ok c' ∧ Holds k c' (t.take c.max) ∧ c'.list = c.list ∧ c'.max = c.max := by
  unfold evict
  rw [i.size hz]
  by_cases h : t.length > c.max
  · rw [if_pos h]
    have hne : t ≠ [] := fun h0 => by rw [h0] at h; simp at h
    obtain ⟨u, x, rfl⟩ : ∃ u x, t = u ++ [x] := ⟨t.dropLast, t.getLast hne, (List.dropLast_concat_getLast hne).symm⟩
    simp only [List.length_append, List.length_cons, List.length_nil] at h hm
    have hu : u.length = c.max := by omega
    have hnd := (List.nodup_cons.1 i.addrs).2
    have hx : x ∈ u ++ [x] := by simp
    have hl := i.list
    rw [List.map_append] at hl
    obtain ⟨h', g1, g2⟩ := rep_last hl
    have hux : ∀ y ∈ u, y.1 ≠ x.1 := by
      rw [List.map_append, List.nodup_append] at hnd
      intro y hy
      exact hnd.2.2 y.1 (List.mem_map.2 ⟨y, hy, rfl⟩) x.1 (by simp)
    have hf : (u ++ [x]).filter (·.1 ≠ x.1) = u := by
      rw [List.filter_append]
      have h1 : u.filter (·.1 ≠ x.1) = u := List.filter_eq_self.2 fun y hy => by simpa using hux y hy
      rw [h1]
      simp
    have hfa : ((u ++ [x]).map (·.1)).filter (· ≠ x.1) = u.map (·.1) := by
      rw [← filter_addr, hf]
    rw [← hfa] at g2
    obtain ⟨m, c', d1, -, d3, d4, d5, d6⟩ := i.drop hz hx rfl g2
    rw [g1, Res.ok_bind]
    simp only
    rw [i.load_ok hx, Res.ok_bind, d1, Res.ok_bind]
    simp only
    rw [d3]
    refine ⟨c', rfl, ?_, d5, d6⟩
    rw [← hu, List.take_left]
    rwa [hf] at d4
  · rw [if_neg h]
    exact ⟨c, rfl, by rwa [List.take_of_length_le (by omega)], rfl, rfl⟩

theorem put_ok {k : Kind K C} (hz : ZeroOk k) {c : Cache K V} {t : List (Ent K V)} (i : Holds k c t) (hm : t.length ≤ c.max)
    (key : K) (v : V) (al : Bool) {mem : Option Addr} (hmem : ∀ a, mem = some a → c.ents a = none ∧ a ≠ c.list) :
    (∃ c' x, put k al mem c key v = .ok (c', true) ∧ x ∈ t ∧ k.cls x.2.1 = k.cls key ∧
      Holds k c' ((x.1, x.2.1, v) :: t.filter (·.1 ≠ x.1)) ∧ c'.list = c.list ∧ c'.max = c.max) ∨
    (∃ c' a, put k al mem c key v = .ok (c', true) ∧ (∀ x ∈ t, k.cls x.2.1 ≠ k.cls key) ∧
      Holds k c' (((a, key, v) :: t).take c.max) ∧ c'.list = c.list ∧ c'.max = c.max) ∨
    (∃ c', put k al mem c key v = .ok (c', false) ∧ (∀ x ∈ t, k.cls x.2.1 ≠ k.cls key) ∧
      (mem = none ∨ al = false ∨ 536870912 ≤ t.length) ∧ Holds k c' t ∧ c'.list = c.list ∧ c'.max = c.max) := by
  unfold put
  rcases i.find hz key with ⟨m, x, h1, h2, h3, h4, j⟩ | ⟨m, a0, h1, h2, h3, j⟩
  · left
    rw [h1, Res.ok_bind]
    simp only [h2, if_true]
    rw [j.load_ok h3, Res.ok_bind]
    obtain ⟨h', g1, g2⟩ := j.front h3 v
    have g1' : LList.addHead c.h c.list x.1 = .ok h' := g1
    rw [g1', Res.ok_bind]
    exact ⟨_, x, rfl, h3, h4, g2, rfl, rfl⟩
  · right
    rw [h1, Res.ok_bind]
    simp only [h2]
    cases mem with
    | none => exact .inr ⟨_, rfl, h3, .inl rfl, j, rfl, rfl⟩
    | some a =>
      obtain ⟨ha1, ha2⟩ := hmem a rfl
      obtain ⟨f, r, hf⟩ := j.map
      have hsz := j.size hz
      rcases Map.put_spec (v0 := (0 : Addr)) (al := al) r hz key a with ⟨m', p1, p2, p3, -⟩ | ⟨p1, p2⟩
      · left
        have hat : a ∉ t.map (·.1) := by
          intro h
          obtain ⟨x, hx, rfl⟩ := List.mem_map.1 h
          have := (i.ents x.1 x.2).2 hx
          rw [ha1] at this
          cases this
        obtain ⟨h', g1, g2⟩ := rep_new i.list ha2 hat
        have jj : Holds k { store { c with m := m' } a (key, v) with h := h' } ((a, key, v) :: t) := by
          refine ⟨g2, ⟨_, p2, fun cl b => ?_⟩, ?_, fun b y => ?_⟩
          · unfold Map.Spec.upd
            by_cases hcl : cl = k.cls key
            · rw [if_pos hcl]
              constructor
              · intro h; cases h; exact ⟨_, List.mem_cons_self .., rfl, hcl.symm⟩
              · rintro ⟨y, hy, q1, q2⟩
                rcases List.mem_cons.1 hy with rfl | hy
                · rw [← q1]
                · exact absurd (q2.trans hcl) (h3 y hy)
            · rw [if_neg hcl, hf]
              constructor
              · rintro ⟨y, hy, q⟩; exact ⟨y, List.mem_cons_of_mem _ hy, q⟩
              · rintro ⟨y, hy, q1, q2⟩
                rcases List.mem_cons.1 hy with rfl | hy
                · exact absurd q2.symm hcl
                · exact ⟨y, hy, q1, q2⟩
          · simp only [List.map_cons]
            refine List.nodup_cons.2 ⟨fun h => ?_, i.keys⟩
            obtain ⟨y, hy, q⟩ := List.mem_map.1 h
            exact h3 y hy q
          · show (if b = a then some (key, v) else c.ents b) = some y ↔ _
            by_cases hb : b = a
            · subst hb
              rw [if_pos rfl]
              constructor
              · intro h; cases h; exact List.mem_cons_self ..
              · intro h
                rcases List.mem_cons.1 h with h | h
                · cases h; rfl
                · exact absurd (List.mem_map.2 ⟨_, h, rfl⟩) hat
            · rw [if_neg hb, i.ents]
              constructor
              · intro h; exact List.mem_cons_of_mem _ h
              · intro h
                rcases List.mem_cons.1 h with h | h
                · cases h; exact absurd rfl hb
                · exact h
        obtain ⟨c', e1, e2, e3, e4⟩ := evict_ok hz jj (by show t.length + 1 ≤ c.max + 1; omega)
        have p1' : Map.put k 0 al m key a = .ok (m', (f (k.cls key)).getD 0) := p1
        simp only [Bool.false_eq_true, if_false]
        rw [p1', Res.ok_bind]
        simp only [p3]
        have g1' : LList.addHead (LList.init (store { c with m := m' } a (key, v)).h a) (store { c with m := m' } a (key, v)).list a = .ok h' := g1
        simp only [Bool.false_eq_true, if_false]
        rw [g1', Res.ok_bind]
        have e1' : evict k { store { c with m := m' } a (key, v) with h := h' } = .ok c' := e1
        rw [e1', Res.ok_bind]
        exact ⟨c', a, rfl, h3, e2, e3, e4⟩
      · right
        have p1' : Map.put k 0 al m key a = .ok ({ m with oom := true }, 0) := p1
        simp only [Bool.false_eq_true, if_false]
        rw [p1', Res.ok_bind]
        simp only [if_true]
        refine ⟨_, rfl, h3, .inr ?_, ⟨i.list, ⟨f, Map.Rep.flags r m.found true, hf⟩, i.keys, i.ents⟩, rfl, rfl⟩
        rw [← hsz]
        exact p2

/-! ## Histories -/

/-- Every call is defined and does what the specification says. -/
theorem step_ok {k : Kind K C} (hz : ZeroOk k) {c : Cache K V} {t : List (Ent K V)} (i : Holds k c t) (hm : t.length ≤ c.max)
    {op : Op K V} (hf : Fresh c op) :
    ∃ c' out t', step k c op = .ok (c', out) ∧ Spec c.max k.cls (shown k t) op out (shown k t') ∧ Holds k c' t' ∧ t'.length ≤ c'.max ∧
      c'.list = c.list ∧ c'.max = c.max := by
  have hnd := (List.nodup_cons.1 i.addrs).2
  have hlen : ∀ x : Ent K V, x ∈ t → ∀ y : Ent K V, (y :: t.filter (·.1 ≠ x.1)).length ≤ c.max := by
    intro x hx y
    have : (t.filter (·.1 ≠ x.1)).length < t.length := by
      refine Nat.lt_of_le_of_ne (List.length_filter_le _ _) fun h => ?_
      have := List.length_filter_eq_length_iff.1 h x hx
      simp at this
    simp only [List.length_cons]
    omega
  cases op with
  | get key =>
    simp only [step]
    rcases get_ok hz i key with ⟨c', x, h1, h2, h3, h4, h5, h6⟩ | ⟨c', h1, h2, h4, h5, h6⟩
    · rw [h1]
      refine ⟨c', _, _, rfl, ?_, h4, by rw [h6]; exact hlen x h2 x, h5, h6⟩
      have := Spec.hit (max := c.max) (key := key) (h3 ▸ lookup_some i.keys h2)
      rw [← h3, without_shown i.keys hnd h2] at this
      exact this
    · rw [h1]
      exact ⟨c', _, _, rfl, .miss (lookup_none.2 h2), h4, by rw [h6]; exact hm, h5, h6⟩
  | put key v al mem =>
    simp only [step]
    have hmem : ∀ a, mem = some a → c.ents a = none ∧ a ≠ c.list := by
      intro a ha
      subst ha
      exact hf
    rcases put_ok hz i hm key v al hmem with ⟨c', x, h1, h2, h3, h4, h5, h6⟩ | ⟨c', a, h1, h2, h4, h5, h6⟩ | ⟨c', h1, h2, h3, h4, h5, h6⟩
    · rw [h1]
      have hl := hlen x h2 (x.1, x.2.1, v)
      refine ⟨c', _, _, rfl, ?_, h4, by rw [h6]; exact hl, h5, h6⟩
      have := Spec.put (max := c.max) (cls := k.cls) (q := shown k t) (key := key) (v := v) (al := al) (mem := mem)
      rw [← h3, without_shown i.keys hnd h2, List.take_of_length_le (by simpa [shown] using hl)] at this
      exact this
    · rw [h1]
      refine ⟨c', _, _, rfl, ?_, h4, by rw [h6, List.length_take]; omega, h5, h6⟩
      have := Spec.put (max := c.max) (cls := k.cls) (q := shown k t) (key := key) (v := v) (al := al) (mem := mem)
      rw [without_absent h2] at this
      unfold shown at this ⊢
      rw [List.map_take]
      exact this
    · rw [h1]
      exact ⟨c', _, _, rfl, .fail (lookup_none.2 h2) (by simpa [shown] using h3), h4, by rw [h6]; exact hm, h5, h6⟩
  | del key =>
    simp only [step]
    have hs := Spec.del (max := c.max) (cls := k.cls) (q := shown k t) (key := key)
    rcases del_ok hz i key with ⟨c', x, h1, h2, h3, h4, h5, h6⟩ | ⟨c', h1, h2, h4, h5, h6⟩
    · rw [h1]
      refine ⟨c', _, _, rfl, ?_, h4, by rw [h6]; exact Nat.le_trans (List.length_filter_le _ _) hm, h5, h6⟩
      rw [← h3, lookup_some i.keys h2, without_shown i.keys hnd h2] at hs
      exact hs
    · rw [h1]
      refine ⟨c', _, _, rfl, ?_, h4, by rw [h6]; exact hm, h5, h6⟩
      rw [lookup_none.2 h2, without_absent h2] at hs
      exact hs

theorem Started.holds {k : Kind K C} {c : Cache K V} (s : Started k c) : Holds k c [] := by
  obtain ⟨al, g, cap, lf, h1, h2⟩ := s.map
  obtain ⟨h, hh⟩ := s.list
  refine ⟨?_, ⟨_, Map.init_rep h2 h1, fun cl a => ⟨fun h => (by cases h), fun ⟨x, hx, _⟩ => (by cases hx)⟩⟩, List.nodup_nil,
    fun a x => ⟨fun h => (by rw [s.ents] at h; cases h), fun h => (by cases h)⟩⟩
  rw [hh]
  have := LList.rep_init (LList.rep_empty h) (l := c.list) (.inl (LList.not_used_empty _))
  exact this

theorem run_ok {k : Kind K C} (hz : ZeroOk k) {c c' : Cache K V} (s : Started k c) {ops : List (Op K V)} {outs : List (Out V)}
    (r : Run k c ops outs c') :
    ∃ t, Holds k c' t ∧ t.length ≤ c'.max ∧ c'.list = c.list ∧ c'.max = c.max ∧ SpecRun c.max k.cls [] ops outs (shown k t) := by
  induction r with
  | refl => exact ⟨[], s.holds, Nat.zero_le _, rfl, rfl, .refl⟩
  | step _ hf hs ih =>
    obtain ⟨t, i, h1, h2, h3, h4⟩ := ih
    obtain ⟨c₂, out, t', g1, g2, g3, g4, g5, g6⟩ := step_ok hz i h1 hf
    rw [hs] at g1
    cases g1
    exact ⟨t', g3, g4, g5.trans h2, g6.trans h3, h4.step (by rw [← h3]; exact g2)⟩

theorem walk_collect : ∀ (es s : List Addr), LList.Spec.walk (fun s a => (s ++ [a], false)) s es = s ++ es := by
  intro es
  induction es with
  | nil => intro s; simp [LList.Spec.walk]
  | cons a es ih => intro s; simp [LList.Spec.walk, ih]

/-- **C161.** In every history of a cache, with any hash function and any outcome of allocations, what the callers are told is
what the specification says: that of a list of entries in the order of their last use, of which the last is dropped when there are too
many. The reported size, the elements of the list, and the blocks that are allocated agree with it: nothing leaks. -/
theorem refines {k : Kind K C} (hz : ZeroOk k) {c c' : Cache K V} (s : Started k c) {ops : List (Op K V)} {outs : List (Out V)}
    (r : Run k c ops outs c') :
    ∃ t : List (Addr × K × V), SpecRun c.max k.cls [] ops outs (t.map fun x => (k.cls x.2.1, x.2.2)) ∧ t.length ≤ c.max ∧
      c'.m.size = t.length ∧ (∀ a x, c'.ents a = some x ↔ (a, x) ∈ t) ∧
      (∃ N, ∀ fuel, N ≤ fuel → LList.foreach c'.h c'.list (fun s a => (s ++ [a], false)) fuel [] = .ok (t.map (·.1))) := by
  obtain ⟨t, i, h1, h2, h3, h4⟩ := run_ok hz s r
  refine ⟨t, h4, by rw [← h3]; exact h1, i.size hz, i.ents, (t.map (·.1)).length + 1, fun fuel hf => ?_⟩
  rw [i.list.observes.foreach _ _ _ c'.list (t.map (·.1)) fuel (by simp [one]) (by omega), walk_collect, List.nil_append]

/-- **C161**: no call is undefined, in every history, if `malloc` returns memory that is not in use. -/
theorem defined {k : Kind K C} (hz : ZeroOk k) {c c' : Cache K V} (s : Started k c) {ops : List (Op K V)} {outs : List (Out V)}
    (r : Run k c ops outs c') {op : Op K V} (hf : Fresh c' op) : ∃ c'' out, step k c' op = .ok (c'', out) := by
  obtain ⟨t, i, h1, -⟩ := run_ok hz s r
  obtain ⟨c₂, out, -, g1, -⟩ := step_ok hz i h1 hf
  exact ⟨c₂, out, g1⟩

end

/-! ## Example -/

/-- A cache of two entries, which was just made; the list is at address 1. -/
def ex0 : Cache Nat Nat where
  m := (Map.init Map.u32Kind 0 true (false, false) 0 0).getD (Map.emptyMap Map.u32Kind 0)
  h := LList.init (fun _ => none) 1
  ents _ := none
  list := 1
  max := 2

theorem ex0_started : Started Map.u32Kind ex0 :=
  ⟨⟨true, (false, false), 0, 0, by decide, rfl⟩, ⟨_, rfl⟩, fun _ => rfl⟩

/-- The results of calls one after another. -/
def outs (c : Cache Nat Nat) : List (Op Nat Nat) → Option (List (Out Nat))
  | [] => some []
  | op :: ops =>
    match step Map.u32Kind c op with
    | .ok (c, o) => (outs c ops).map (o :: ·)
    | .ub => none

/-- Of the keys 5, 6 and 7, the second was not used for longest when the third comes. Its memory is used again. -/
example : outs ex0 [.put 5 50 true (some 2), .put 6 60 true (some 3), .get 5, .put 7 70 true (some 4), .get 6, .get 5, .put 5 51 true none,
      .put 0 1 true (some 3), .get 7, .get 5, .get 0, .put 9 90 true none, .del 5, .del 5, .get 0] =
    some [.done true, .done true, .value (some 50), .done true, .value none, .value (some 50), .done true,
      .done true, .value none, .value (some 51), .value (some 1), .done false, .done true, .done false, .value (some 1)] := by
  decide +kernel

/-- A history as in the theorems. -/
example : ∃ c, Run Map.u32Kind ex0 [.put 5 50 true (some 2), .get 5] [.done true, .value (some 50)] c :=
  ⟨_, .step (ops := [.put 5 50 true (some 2)]) (outs := [.done true])
    (.step (ops := []) (outs := []) .refl ⟨rfl, by decide⟩ rfl) trivial rfl⟩

end Verif.Cache
