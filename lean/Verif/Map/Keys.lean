import Verif.Map.Props

/-! # Which keys a string map holds, and which memory it reads (C154)

A string map stores the pointer it is given, not a copy of the text. `sc_map_put` with a key
equal to a stored one replaces the stored pointer too (map/sc_map.c:252 with 47-53), so the
map holds, for every text, the pointer of the last successful put. Here the memory may change
between any two calls: keys used only to look up or to delete, keys that were replaced and
keys that were deleted may be freed or overwritten, and the map does not notice. -/

namespace Verif.Map.Keys

open Verif Verif.Map

/-! ## Specification -/

/-- The text at `p` in a memory: `none` for `NULL`. -/
def text (content : Nat → List Nat) (p : Nat) : Option (List Nat) :=
  if p = 0 then none else some (content p)

/-- The entries, by text, after a call that gave `o`. -/
def entriesAfter (content : Nat → List Nat) (f : Spec.FMap (Option (List Nat)) V)
    (op : Op Nat V) (o : Out V) : Spec.FMap (Option (List Nat)) V :=
  match op with
  | .put p v _ => if o.oom then f else Spec.upd f (text content p) v
  | .get _ => f
  | .del p => Spec.rem f (text content p)
  | .clear => Spec.empty

/-- The pointers the map holds, by text, after a call that gave `o`: a put that succeeded
makes `p` the key for its text, whatever it was before. -/
def heldAfter (content : Nat → List Nat) (g : Spec.FMap (Option (List Nat)) Nat)
    (op : Op Nat V) (o : Out V) : Spec.FMap (Option (List Nat)) Nat :=
  match op with
  | .put p _ _ => if o.oom then g else Spec.upd g (text content p) p
  | .get _ => g
  | .del p => Spec.rem g (text content p)
  | .clear => Spec.empty

/-- The held keys still have the text they were put with. Nothing is said about any other
memory. -/
def Keeps (content : Nat → List Nat) (g : Spec.FMap (Option (List Nat)) Nat) : Prop :=
  ∀ c p, g c = some p → text content p = c

/-- A map after a history in which the memory may be another one at every call, as long as
the keys the map holds then are kept. `f` are its entries and `g` its keys. -/
inductive History (v0 : V) : Map Nat V → Spec.FMap (Option (List Nat)) V →
    Spec.FMap (Option (List Nat)) Nat → Prop where
  | start {content m} (h : Started (strKind content) v0 m) : History v0 m Spec.empty Spec.empty
  | call {m f g content op m' o} (h : History v0 m f g) (hk : Keeps content g)
      (hs : step (strKind content) v0 m op = .ok (m', o)) :
      History v0 m' (entriesAfter content f op o) (heldAfter content g op o)

/-! ## Cells are only moved -/

theorem insertFree_mem {k : Kind Nat C} [DecidableEq C] {mod : Nat} {t : Item Nat V} :
    ∀ {fuel new pos new'}, insertFree k mod t fuel new pos = .ok new' →
      ∀ s ∈ new', s = t ∨ s ∈ new := by
  intro fuel
  induction fuel with
  | zero => intro new pos new' h; cases h
  | succ fuel ih =>
    intro new pos new' h s hs
    unfold insertFree at h
    obtain ⟨c, _, h⟩ := Res.bind_eq_ok.1 h
    split at h
    · unfold wr at h
      split at h
      · cases h
        rcases List.mem_or_eq_of_mem_set hs with h | h
        · exact Or.inr h
        · exact Or.inl h
      · cases h
    · exact ih h s hs

theorem rehash_mem {k : Kind Nat C} [DecidableEq C] {cap mod : Nat} :
    ∀ {old new new' : List (Item Nat V)}, rehash k cap mod old new = .ok new' →
      ∀ s ∈ new', s ∈ old ∨ s ∈ new := by
  intro old
  induction old with
  | nil => intro new new' h s hs; cases h; exact Or.inr hs
  | cons t ts ih =>
    intro new new' h s hs
    unfold rehash at h
    split at h
    · obtain ⟨n1, h1, h⟩ := Res.bind_eq_ok.1 h
      rcases ih h s hs with h2 | h2
      · exact Or.inl (List.mem_cons_of_mem _ h2)
      · rcases insertFree_mem h1 s h2 with h3 | h3
        · exact Or.inl (h3 ▸ List.mem_cons_self)
        · exact Or.inr h3
    · rcases ih h s hs with h2 | h2
      · exact Or.inl (List.mem_cons_of_mem _ h2)
      · exact Or.inr h2

theorem remap_mem {k : Kind Nat C} [DecidableEq C] {v0 : V} {al : Bool} {m m' : Map Nat V}
    {b : Bool} (h : remap k v0 al m = .ok (m', b)) :
    ∀ s ∈ m'.mem, s.key ≠ k.zero → s ∈ m.mem := by
  intro s hs hne
  unfold remap at h
  split at h
  · cases h; exact hs
  · split at h
    · cases h; exact hs
    · next cap new ha =>
      dsimp only at h
      split at h
      · cases h
      · obtain ⟨n1, h1, h⟩ := Res.bind_eq_ok.1 h
        cases h
        rcases rehash_mem h1 s hs with h2 | h2
        · exact List.mem_of_mem_take h2
        · exfalso
          unfold alloc at ha
          split at ha
          · cases ha
          · split at ha
            · cases ha
              exact hne (by rw [(List.mem_replicate.1 h2).2]; rfl)
            · cases ha

theorem shift_mem {k : Kind Nat C} [DecidableEq C] {mod : Nat} :
    ∀ {fuel} {mem mem' : List (Item Nat V)} {prev it},
      shift k mod fuel mem prev it = .ok mem' →
      ∀ s ∈ mem', s.key ≠ k.zero → s ∈ mem := by
  intro fuel
  induction fuel with
  | zero => intro mem mem' prev it h; cases h
  | succ fuel ih =>
    intro mem mem' prev it h s hs hne
    unfold shift at h
    dsimp only at h
    obtain ⟨c, hc, h⟩ := Res.bind_eq_ok.1 h
    split at h
    · cases h; exact hs
    · split at h
      · obtain ⟨m1, h1, h⟩ := Res.bind_eq_ok.1 h
        obtain ⟨m2, h2, h⟩ := Res.bind_eq_ok.1 h
        have hin := ih h s hs hne
        unfold wr at h1 h2
        split at h1
        · cases h1
          split at h2
          · cases h2
            rcases List.mem_or_eq_of_mem_set hin with h | h
            · rcases List.mem_or_eq_of_mem_set h with h | h
              · exact h
              · subst h
                unfold rd at hc
                split at hc
                · next hget => cases hc; exact List.mem_of_getElem? hget
                · cases hc
            · subst h; exact absurd rfl hne
          · cases h2
        · cases h1
      · exact ih h s hs hne

theorem put_mem {k : Kind Nat C} [DecidableEq C] {v0 : V} {al : Bool} {m m' : Map Nat V}
    {key : Nat} {v r : V} (h : put k v0 al m key v = .ok (m', r)) (ho : m'.oom = false) :
    (∀ s ∈ m'.mem, s.key ≠ k.zero → s ∈ m.mem ∨ s.key = key) ∧
    (key ≠ k.zero → ∃ s ∈ m'.mem, s.key = key) := by
  unfold put at h
  dsimp only at h
  obtain ⟨⟨m1, b⟩, h1, h⟩ := Res.bind_eq_ok.1 h
  have hm1 := remap_mem h1
  dsimp only at h hm1
  split at h
  · cases h; cases ho
  · split at h
    · next hz => cases h; exact ⟨fun s hs hne => Or.inl (hm1 s hs hne), fun hn => absurd hz hn⟩
    · obtain ⟨pos, _, h⟩ := Res.bind_eq_ok.1 h
      obtain ⟨c, _, h⟩ := Res.bind_eq_ok.1 h
      obtain ⟨mem, hw, h⟩ := Res.bind_eq_ok.1 h
      cases h
      have ha : (k.assign c key v (k.hash (k.cls key))).key = key := by
        unfold Kind.assign; split <;> rfl
      unfold wr at hw
      split at hw
      · next hlt =>
        cases hw
        refine ⟨fun s hs hne => ?_, fun _ => ⟨_, List.mem_set hlt _, ha⟩⟩
        rcases List.mem_or_eq_of_mem_set hs with h | h
        · exact Or.inl (hm1 s h hne)
        · exact Or.inr (by rw [h]; exact ha)
      · cases hw

theorem del_mem {k : Kind Nat C} [DecidableEq C] {v0 : V} {m m' : Map Nat V} {key : Nat} {r : V}
    (h : del k v0 m key = .ok (m', r)) : ∀ s ∈ m'.mem, s.key ≠ k.zero → s ∈ m.mem := by
  intro s hs hne
  unfold del at h
  dsimp only at h
  split at h
  · cases h; exact hs
  · obtain ⟨pos, _, h⟩ := Res.bind_eq_ok.1 h
    obtain ⟨c, _, h⟩ := Res.bind_eq_ok.1 h
    split at h
    · cases h; exact hs
    · obtain ⟨mem, hw, h⟩ := Res.bind_eq_ok.1 h
      obtain ⟨mem2, hsft, h⟩ := Res.bind_eq_ok.1 h
      cases h
      have := shift_mem hsft s hs hne
      unfold wr at hw
      split at hw
      · cases hw
        rcases List.mem_or_eq_of_mem_set this with h | h
        · exact h
        · subst h; exact absurd rfl hne
      · cases hw

/-! ## The invariant -/

/-- Every key in the table is a held one. -/
def Own (m : Map Nat V) (g : Spec.FMap (Option (List Nat)) Nat) : Prop :=
  ∀ t ∈ m.mem, t.key ≠ 0 → ∃ c, g c = some t.key

/-- In the memory `content` the map has the entries `f` and holds the keys `g`. -/
structure Inv (content : Nat → List Nat) (m : Map Nat V) (f : Spec.FMap (Option (List Nat)) V)
    (g : Spec.FMap (Option (List Nat)) Nat) : Prop where
  rep : Rep (strKind content) m f
  keeps : Keeps content g
  own : Own m g
  dom : ∀ c, (g c).isSome = (f c).isSome

theorem cell_mem {T : List (Item Nat V)} {x : Int} {t : Item Nat V} (h : cell T x = some t) :
    t ∈ T := by
  unfold cell at h
  exact List.mem_of_getElem? h

/-- The invariant does not depend on the memory that is not held. -/
theorem Inv.change {content content' : Nat → List Nat} {m : Map Nat V}
    {f : Spec.FMap (Option (List Nat)) V} {g : Spec.FMap (Option (List Nat)) Nat}
    (i : Inv content m f g) (hk : Keeps content' g) : Inv content' m f g := by
  have hcls : ∀ t ∈ m.mem, t.key ≠ 0 →
      (strKind content').cls t.key = (strKind content).cls t.key := by
    intro t ht hne
    obtain ⟨c, hc⟩ := i.own t ht hne
    exact (hk c _ hc).trans (i.keeps c _ hc).symm
  have r := i.rep
  refine ⟨⟨r.cap, r.len, ⟨r.good.pos, ?_, ?_, ?_⟩, r.size, r.mem1, r.lf, r.shape, r.bound, ?_⟩,
    hk, i.own, i.dom⟩
  · intro x t ht hne d h0 hd
    refine r.good.chain x t ht hne d h0 ?_
    unfold disp at hd ⊢
    rw [hcls t (cell_mem ht) hne] at hd
    exact hd
  · intro x y a b ha hb hna hnb hab
    rw [hcls a (cell_mem ha) hna, hcls b (cell_mem hb) hnb] at hab
    exact r.good.uniq x y a b ha hb hna hnb hab
  · intro x t ht hne
    have := r.good.hashOk x t ht hne
    rw [hcls t (cell_mem ht) hne]
    exact this
  · intro c v
    rw [r.rep c v]
    have hhas : Has (strKind content) m.mem c v ↔ Has (strKind content') m.mem c v := by
      constructor
      · rintro ⟨x, t, ht, hne, hc, hv⟩
        exact ⟨x, t, ht, hne, (hcls t (cell_mem ht) hne).trans hc, hv⟩
      · rintro ⟨x, t, ht, hne, hc, hv⟩
        exact ⟨x, t, ht, hne, (hcls t (cell_mem ht) hne).symm.trans hc, hv⟩
    rw [hhas]
    rfl

theorem mem_cell {T : List (Item Nat V)} {t : Item Nat V} (h : t ∈ T) :
    ∃ x : Int, cell T x = some t := by
  obtain ⟨i, hi, he⟩ := List.getElem_of_mem h
  refine ⟨i, ?_⟩
  unfold cell
  have : ((i : Int) % (T.length : Int)).toNat = i := by
    rw [Int.emod_eq_of_lt (by omega) (by omega)]; simp
  rw [this, List.getElem?_eq_getElem hi, he]

/-- A key in the table is a key of the abstract map. -/
theorem Inv.entry {content : Nat → List Nat} {m : Map Nat V}
    {f : Spec.FMap (Option (List Nat)) V} (r : Rep (strKind content) m f) {t : Item Nat V}
    (ht : t ∈ m.mem) (hne : t.key ≠ 0) : f (text content t.key) = some t.value := by
  obtain ⟨x, hx⟩ := mem_cell ht
  exact (r.rep _ _).2 (Or.inr ⟨x, t, hx, hne, rfl, rfl⟩)

theorem Inv.step {content : Nat → List Nat} {v0 : V} {m : Map Nat V}
    {f : Spec.FMap (Option (List Nat)) V} {g : Spec.FMap (Option (List Nat)) Nat}
    (i : Inv content m f g) (op : Op Nat V) :
    ∃ m' o, Map.step (strKind content) v0 m op = .ok (m', o) ∧
      Spec.Step (text content) v0 f op o (entriesAfter content f op o) ∧
      Inv content m' (entriesAfter content f op o) (heldAfter content g op o) := by
  have r := i.rep
  have hz := strKind_ok content
  cases op with
  | put p v al =>
    rcases put_spec (v0 := v0) (al := al) r hz p v with ⟨m', hp, r', ho, hf⟩ | ⟨hp, hwhy⟩
    · refine ⟨m', _, by simp only [Map.step, hp, Res.ok_bind]; rfl, ?_, ?_⟩
      · unfold entriesAfter
        rw [ho, hf]; exact .put f p v al
      · obtain ⟨hsub, hnew⟩ := put_mem hp ho
        simp only [entriesAfter, heldAfter, ho, Bool.false_eq_true, if_false]
        refine ⟨r', ?_, ?_, ?_⟩
        · intro c q hq
          unfold Spec.upd at hq
          split at hq
          · next hc => cases hq; exact hc.symm
          · exact i.keeps c q hq
        · intro t ht hne
          by_cases hc : text content t.key = text content p
          · refine ⟨text content p, ?_⟩
            have hp0 : p ≠ 0 := by
              rintro rfl
              simp [text, hne] at hc
            obtain ⟨s, hs, hsk⟩ := hnew hp0
            obtain ⟨x, hx⟩ := mem_cell ht
            obtain ⟨y, hy⟩ := mem_cell hs
            have hxy := r'.good.uniq x y t s hx hy hne (by rw [hsk]; exact hp0)
              (by rw [hsk]; exact hc)
            have : t = s := by
              unfold cell at hx hy
              rw [hxy] at hx
              rw [hx] at hy
              exact Option.some.inj hy
            rw [this, hsk]
            simp [Spec.upd]
          · rcases hsub t ht hne with hold | hk
            · obtain ⟨c, hg⟩ := i.own t hold hne
              have hct := i.keeps c _ hg
              refine ⟨c, ?_⟩
              unfold Spec.upd
              rw [if_neg (by rw [← hct]; exact hc), hg]
            · exact absurd (by rw [hk]) hc
        · intro c
          unfold Spec.upd
          show _ = (if c = text content p then some v else f c).isSome
          split
          · rfl
          · exact i.dom c
    · refine ⟨{ m with oom := true }, _, by simp only [Map.step, hp, Res.ok_bind]; rfl, ?_, ?_⟩
      · exact .put_oom f p v al _ (hwhy.imp id (r.atLeast hz))
      · exact ⟨⟨r.cap, r.len, r.good, r.size, r.mem1, r.lf, r.shape, r.bound, r.rep⟩, i.keeps,
          i.own, i.dom⟩
  | get p =>
    exact ⟨{ m with found := (f (text content p)).isSome }, _,
      by simp only [Map.step, get_spec r hz, Res.ok_bind]; rfl, .get f p _,
      ⟨⟨r.cap, r.len, r.good, r.size, r.mem1, r.lf, r.shape, r.bound, r.rep⟩, i.keeps,
        i.own, i.dom⟩⟩
  | del p =>
    obtain ⟨m', hp, r', ho, hf⟩ := del_spec (v0 := v0) r hz p
    refine ⟨m', _, by simp only [Map.step, hp, Res.ok_bind]; rfl, ?_, r', ?_, ?_, ?_⟩
    · rw [hf]; exact .del f p _
    · intro c q hq
      simp only [heldAfter, Spec.rem] at hq
      split at hq
      · cases hq
      · exact i.keeps c q hq
    · intro t ht hne
      have he := Inv.entry r' ht hne
      obtain ⟨c, hg⟩ := i.own t (del_mem hp t ht hne) hne
      have hct := i.keeps c _ hg
      refine ⟨c, ?_⟩
      simp only [heldAfter, Spec.rem]
      rw [if_neg, hg]
      rintro rfl
      rw [hct] at he
      have : (strKind content).cls p = text content p := rfl
      simp [Spec.rem, this] at he
    · intro c
      simp only [heldAfter, entriesAfter, Spec.rem]
      split
      · rfl
      · exact i.dom c
  | clear =>
    obtain ⟨r', _, _⟩ := clear_spec r
    refine ⟨_, _, rfl, .clear f _ _, r', ?_, ?_, fun _ => rfl⟩
    · intro c q hq; cases hq
    · intro t ht hne
      have := Inv.entry r' ht hne
      cases this

theorem History.inv {v0 : V} {m : Map Nat V} {f : Spec.FMap (Option (List Nat)) V}
    {g : Spec.FMap (Option (List Nat)) Nat} (h : History v0 m f g)
    {content : Nat → List Nat} (hk : Keeps content g) : Inv content m f g := by
  induction h generalizing content with
  | @start content0 m h =>
    obtain ⟨al, gg, cap, lf, hcap, hinit⟩ := h
    have r := init_rep hinit hcap
    have i0 : Inv content0 m Spec.empty Spec.empty :=
      ⟨r, (fun c p h => by cases h), (fun t ht hne => by cases Inv.entry r ht hne), fun _ => rfl⟩
    exact i0.change hk
  | @call m f g content0 op m' o h hk0 hs ih =>
    obtain ⟨m1, o1, h1, _, i1⟩ := (ih hk0).step (v0 := v0) op
    rw [hs] at h1; cases h1
    exact i1.change hk

/-! ## C154 -/

/-- C154. Take any history of calls on a string map, with allocation failures, in which the
memory may change arbitrarily between the calls except for the keys the map holds: for every
text, the pointer given to the last put of this text that succeeded, until the text is deleted
or the map is cleared. Then in every memory that keeps these keys

* every further call returns and does what it has to do on a finite map of texts, and
* `sc_map_foreach` visits exactly the pairs of a held pointer and the value of its text, each
  pointer once: not an older pointer with the same text. -/
theorem str_map_keys {v0 : V} {m : Map Nat V} {f : Spec.FMap (Option (List Nat)) V}
    {g : Spec.FMap (Option (List Nat)) Nat} (h : History v0 m f g)
    {content : Nat → List Nat} (hk : Keeps content g) :
    (∀ op, ∃ m' o, step (strKind content) v0 m op = .ok (m', o) ∧
      Spec.Step (text content) v0 f op o (entriesAfter content f op o)) ∧
    (∃ l : List (Nat × V), (l.map Prod.fst).Nodup ∧
      (∀ p v, (p, v) ∈ l ↔ ∃ c, g c = some p ∧ f c = some v) ∧
      ∀ (σ : Type) (body : σ → Nat → V → σ × Bool) (s : σ),
        foreach (strKind content) m body s = .ok (Spec.walk body s l)) := by
  have i := h.inv hk
  refine ⟨fun op => ?_, ?_⟩
  · obtain ⟨m', o, h1, h2, _⟩ := i.step (v0 := v0) op
    exact ⟨m', o, h1, h2⟩
  · obtain ⟨⟨hn, he⟩, _⟩ := i.rep.entries (strKind_ok content)
    have hfor := fun (σ : Type) (body : σ → Nat → V → σ × Bool) (s : σ) =>
      foreach_eq i.rep body s
    have hin : ∀ p v, (p, v) ∈ (((if m.used then [m.mem1] else []) ++
        m.mem.filter (fun t => decide (t.key ≠ (strKind content).zero))).map
        (fun t => (t.key, t.value))) →
        f (text content p) = some v ∧ g (text content p) = some p := by
      intro p v hm
      obtain ⟨t, ht, hpv⟩ := List.mem_map.1 hm
      cases hpv
      rcases List.mem_append.1 ht with ht | ht
      · split at ht
        · next hu =>
          rw [List.mem_singleton.1 ht, i.rep.mem1]
          have hf0 : f none = some m.mem1.value :=
            (i.rep.rep none _).2 (Or.inl ⟨rfl, hu, rfl⟩)
          have hd := i.dom none
          rw [hf0] at hd
          obtain ⟨q, hq⟩ := Option.isSome_iff_exists.1 hd
          have hq0 : q = 0 := by
            have := i.keeps none q hq
            unfold text at this
            split at this
            · assumption
            · cases this
          subst hq0
          exact ⟨hf0, hq⟩
        · cases ht
      · obtain ⟨ht, hne⟩ := List.mem_filter.1 ht
        have hne : t.key ≠ 0 := of_decide_eq_true hne
        refine ⟨Inv.entry i.rep ht hne, ?_⟩
        obtain ⟨c, hc⟩ := i.own t ht hne
        rw [i.keeps c _ hc]; exact hc
    generalize hl : (((if m.used then [m.mem1] else []) ++
        m.mem.filter (fun t => decide (t.key ≠ (strKind content).zero))).map
        (fun t => (t.key, t.value))) = l at hin hfor
    refine ⟨l, ?_, ?_, hfor⟩
    · have hmap : ((l.map Prod.fst).map (text content)).Nodup := by
        rw [← hl]
        have hn' := hn
        rw [List.map_map] at hn'
        rw [List.map_map, List.map_map]
        exact hn'
      unfold List.Nodup at hmap ⊢
      rw [List.pairwise_map] at hmap
      exact hmap.imp (fun h he => h (by rw [he]))
    · intro p v
      constructor
      · intro hm
        obtain ⟨h1, h2⟩ := hin p v hm
        exact ⟨_, h2, h1⟩
      · rintro ⟨c, hg, hf⟩
        have := (he c v).2 hf
        have hm : ∃ q, (q, v) ∈ l ∧ text content q = c := by
          rw [← hl]
          obtain ⟨t, ht, hcv⟩ := List.mem_map.1 this
          cases hcv
          exact ⟨t.key, List.mem_map.2 ⟨t, ht, rfl⟩, rfl⟩
        obtain ⟨q, hq, hqc⟩ := hm
        obtain ⟨_, h2⟩ := hin q v hq
        rw [hqc, hg] at h2
        cases h2
        exact hq

/-! ## Concrete cases -/

/-- A memory: the pointers 10 and 20 hold "ab", every other one "z". -/
def mem1 : Nat → List Nat := fun p => if p = 10 ∨ p = 20 then [97, 98] else [122]

/-- The same after the memory at 10 was given back and used for something else. -/
def mem2 : Nat → List Nat := fun p => if p = 20 then [97, 98] else [120]

/-- A map that `init` made. -/
def fresh : Map Nat Nat :=
  (init (strKind mem1) 0 true (false, false) 8 0).getD (emptyMap (strKind mem1) 0)

/-- Puts through the two pointers, and what `sc_map_foreach` gives then: the second pointer. -/
example : (run (strKind mem1) 0 fresh [.put 10 1 true, .put 20 2 true]).bind (fun r =>
    (foreach (strKind mem1) r.1 (fun l p v => (l ++ [(p, v)], false)) []).bind (fun l =>
      .ok (r.2.map fun o => (o.value, o.found), l))) =
    .ok ([(some 0, false), (some 1, true)], [(20, 2)]) := by decide

/-- The memory at 10 may change then: the held key is the one at 20. -/
example : Keeps mem2 (heldAfter mem1 (heldAfter mem1 Spec.empty (.put 10 1 true)
    ⟨some 0, false, false⟩) (.put 20 2 true) ⟨some 1, true, false⟩) := by
  intro c p h
  simp only [heldAfter, Spec.upd, Bool.false_eq_true, if_false] at h
  split at h
  · next hc => cases h; rw [hc]; decide
  · next hc =>
    split at h
    · next hc' => exact absurd (hc'.trans (by decide)) hc
    · cases h

/-- The history of these two calls, and the lookup of "ab" at 20 in the changed memory. -/
example : ∃ m f g, History 0 m f g ∧ g (some [97, 98]) = some 20 ∧
    (step (strKind mem2) 0 m (.get 20)).bind (fun r => .ok r.2) =
      .ok ⟨some 2, true, false⟩ := by
  have h0 : History 0 fresh Spec.empty Spec.empty :=
    .start (content := mem1) ⟨true, (false, false), 8, 0, by decide, rfl⟩
  have h1 := History.call (content := mem1) (op := .put 10 1 true) h0 (fun c p h => by cases h) rfl
  have h2 := History.call (content := mem1) (op := .put 20 2 true) h1 (by
    intro c p h
    simp only [heldAfter] at h
    split at h
    · cases h
    · unfold Spec.upd at h
      split at h
      · next hc => cases h; exact hc.symm
      · cases h) rfl
  exact ⟨_, _, _, h2, by decide, by decide⟩

/-- What was required is needed: when the text of a held key is overwritten, the entry is not
found under the old text, and a second put of the new text makes a second entry for it. -/
example : (run (strKind mem1) 0 fresh [.put 10 1 true]).bind (fun r =>
    (run (strKind mem2) 0 r.1 [.get 20, .get 10, .put 30 3 true]).bind (fun q =>
      .ok (q.2.map fun o => o.found, q.1.size))) =
    .ok ([false, false, false], 2) := by decide

end Verif.Map.Keys
