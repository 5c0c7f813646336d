import Verif.Map.Props

/-! # `sc_map_foreach` with a body that changes the map -/

namespace Verif.Map

variable {K C V σ : Type} [DecidableEq K] [DecidableEq C]

/-- `sc_map_foreach`, map/sc_map.h:176-180, from `_i = i - 1` with flag `_b`: the entries visited, and the outcome, `none` if it is undefined. `body s key value`
is the new state of the program, the calls made and whether it ends with `break`. -/
inductive Loop (k : Kind K C) (v0 : V) (body : σ → K → V → σ × List (Op K V) × Bool) :
    Bool → Nat → σ → Map K V → List (K × V) → Option (σ × Map K V) → Prop
  | stop {b i s m} : (!b && decide (i < m.cap + 1)) = false → Loop k v0 body b i s m [] (some (s, m))
  | over {b i s m} : (!b && decide (i < m.cap + 1)) = true → cellAt m i = .ub → Loop k v0 body b i s m [] none
  | skip {b i s m t vs out} : (!b && decide (i < m.cap + 1)) = true → cellAt m i = .ok t → ((decide (i = 0) && m.used) || decide (t.key ≠ k.zero)) = false →
      Loop k v0 body false (i + 1) s m vs out → Loop k v0 body b i s m vs out
  | bad {b i s m t} : (!b && decide (i < m.cap + 1)) = true → cellAt m i = .ok t → ((decide (i = 0) && m.used) || decide (t.key ≠ k.zero)) = true →
      run k v0 m (body s t.key t.value).2.1 = .ub → Loop k v0 body b i s m [(t.key, t.value)] none
  | visit {b i s m t m' os vs out} : (!b && decide (i < m.cap + 1)) = true → cellAt m i = .ok t →
      ((decide (i = 0) && m.used) || decide (t.key ≠ k.zero)) = true → run k v0 m (body s t.key t.value).2.1 = .ok (m', os) →
      Loop k v0 body (body s t.key t.value).2.2 (i + 1) (body s t.key t.value).1 m' vs out → Loop k v0 body b i s m ((t.key, t.value) :: vs) out

/-- The body only looks up keys, and only replaces values of keys the map has. -/
def Replaces (k : Kind K C) (f : Spec.FMap C V) (body : σ → K → V → σ × List (Op K V) × Bool) : Prop :=
  ∀ s key v, ∀ op ∈ (body s key v).2.1, (∃ key', op = .get key') ∨ ∃ key' v' al, op = .put key' v' al ∧ (f (k.cls key')).isSome = true

/-- The same keys at the same places -/
structure Same (k : Kind K C) (m m' : Map K V) : Prop where
  cap : m'.cap = m.cap
  size : m'.size = m.size
  remap : m'.remap = m.remap
  used : m'.used = m.used
  cls : m'.mem.map (fun t => k.cls t.key) = m.mem.map fun t => k.cls t.key

theorem put_same {k : Kind K C} {v0 : V} {al : Bool} {m : Map K V} {f : Spec.FMap C V} (r : Rep k m f) (hz : ZeroOk k) (hr : m.size < m.remap) {key : K} {v : V}
    (hf : (f (k.cls key)).isSome = true) : ∃ m' ret, put k v0 al m key v = .ok (m', ret) ∧ Same k m m' := by
  unfold put
  simp only [remap, hr, if_true, Res.ok_bind, Bool.not_true, Bool.false_eq_true, if_false, Res.pure_eq]
  by_cases h0 : key = k.zero
  · subst h0
    rw [r.zero hz] at hf
    have hu : m.used = true := by
      cases h : m.used <;> simp [h] at hf ⊢
    simp only [if_true, hu]
    refine ⟨_, _, rfl, rfl, ?_, rfl, hu.symm, rfl⟩
    have := r.remap_lt
    show add32 m.size 0 = m.size
    unfold add32
    omega
  · simp only [if_neg h0]
    obtain ⟨z, t, h1, h2, h3⟩ := r.lookup key
    have hc0 : k.cls key ≠ k.cls k.zero := fun h => h0 (hz _ h)
    rcases h3 with ⟨hne, hcl⟩ | ⟨_, hno, _⟩
    · simp only [h1, Res.ok_bind]
      have hg : m.mem[idx m.mem.length z]? = some t := h2
      obtain ⟨hlt, hge⟩ := List.getElem?_eq_some_iff.1 hg
      rw [rd_eq_ok.2 hg]
      simp only [Res.ok_bind, hne, if_false, wr_lt hlt]
      refine ⟨_, _, rfl, rfl, rfl, rfl, rfl, ?_⟩
      simp only [List.map_set]
      apply List.ext_getElem?
      intro n
      rw [List.getElem?_set]
      split
      · next h =>
        subst h
        rw [(assign_key k t key v _).1]
        simp only [List.length_map, hlt, if_true, List.getElem?_map, hg, Option.map_some, hcl]
      · rfl
    · exfalso
      rw [r.absent hc0 hno] at hf
      simp at hf

theorem run_same {k : Kind K C} {v0 : V} (hz : ZeroOk k) (ops : List (Op K V)) : ∀ {m₀ m : Map K V} {f : Spec.FMap C V} {d : C → Bool}, Rep k m f →
    (∀ c, (f c).isSome = d c) → m₀.size < m₀.remap → Same k m₀ m →
    (∀ op ∈ ops, (∃ key', op = .get key') ∨ ∃ key' v' al, op = .put key' v' al ∧ d (k.cls key') = true) →
    ∃ m' os f', run k v0 m ops = .ok (m', os) ∧ Rep k m' f' ∧ (∀ c, (f' c).isSome = d c) ∧ Same k m₀ m' := by
  induction ops with
  | nil => intro m₀ m f d r hd _ hs _; exact ⟨m, [], f, rfl, r, hd, hs⟩
  | cons op ops ih =>
    intro m₀ m f d r hd hr hs ha
    have hr' : m.size < m.remap := by rw [hs.size, hs.remap]; exact hr
    have key : ∃ m1 o f1, step k v0 m op = .ok (m1, o) ∧ Rep k m1 f1 ∧ (∀ c, (f1 c).isSome = d c) ∧ Same k m₀ m1 := by
      rcases ha op (by simp) with ⟨key, rfl⟩ | ⟨key, v, al, rfl, hk⟩
      · refine ⟨_, _, f, by simp only [step, get_spec r hz, Res.ok_bind, Res.pure_eq]; rfl, ?_, hd, ?_⟩
        · exact ⟨r.cap, r.len, r.good, r.size, r.mem1, r.lf, r.shape, r.bound, r.rep⟩
        · exact ⟨hs.cap, hs.size, hs.remap, hs.used, hs.cls⟩
      · obtain ⟨m1, ret, h1, h2⟩ := put_same (v0 := v0) (al := al) (v := v) r hz hr' (key := key) (by rw [hd]; exact hk)
        have hs1 : Same k m₀ m1 := ⟨h2.cap.trans hs.cap, h2.size.trans hs.size, h2.remap.trans hs.remap, h2.used.trans hs.used, h2.cls.trans hs.cls⟩
        rcases put_spec (v0 := v0) (al := al) r hz key v with ⟨m2, e2, r2, _, _⟩ | ⟨e2, _⟩
        · rw [e2] at h1; cases h1
          refine ⟨m1, _, _, by simp only [step, e2, Res.ok_bind, Res.pure_eq]; rfl, r2, ?_, hs1⟩
          intro c
          unfold Spec.upd
          split
          · next h => rw [h, hk]; rfl
          · exact hd c
        · rw [e2] at h1; cases h1
          exact ⟨{ m with oom := true }, _, f, by simp only [step, e2, Res.ok_bind, Res.pure_eq]; rfl,
            ⟨r.cap, r.len, r.good, r.size, r.mem1, r.lf, r.shape, r.bound, r.rep⟩, hd, ⟨hs1.cap, hs1.size, hs1.remap, hs1.used, hs1.cls⟩⟩
    obtain ⟨m1, o, f1, e1, r1, hd1, hs1⟩ := key
    obtain ⟨m2, os, f2, e2, r2, hd2, hs2⟩ := ih r1 hd1 hr hs1 (fun op ho => ha op (by simp [ho]))
    refine ⟨m2, o :: os, f2, ?_, r2, hd2, hs2⟩
    rw [run, e1, Res.ok_bind]
    simp only [e2, Res.ok_bind, Res.pure_eq]

/-- The keys from a place on -/
def rest (k : Kind K C) (m : Map K V) : Nat → List C
  | 0 => (if m.used then [k.cls k.zero] else []) ++ (m.mem.map fun t => k.cls t.key).filter (fun c => decide (c ≠ k.cls k.zero))
  | i + 1 => ((m.mem.map fun t => k.cls t.key).drop i).filter fun c => decide (c ≠ k.cls k.zero)

omit [DecidableEq K] in
theorem Same.rest {k : Kind K C} {m m' : Map K V} (h : Same k m m') (i : Nat) : rest k m' i = rest k m i := by
  cases i with
  | zero => simp only [Map.rest, h.used, h.cls]
  | succ i => simp only [Map.rest, h.cls]

theorem rest_step {k : Kind K C} (hz : ZeroOk k) {m : Map K V} {f : Spec.FMap C V} (r : Rep k m f) {i : Nat} (hi : i < m.cap + 1) :
    ∃ t, cellAt m i = .ok t ∧
      rest k m i = (if ((decide (i = 0) && m.used) || decide (t.key ≠ k.zero)) then [k.cls t.key] else []) ++ rest k m (i + 1) := by
  cases i with
  | zero =>
    refine ⟨m.mem1, rfl, ?_⟩
    rw [r.mem1]
    simp [Map.rest]
  | succ i =>
    have hl : i < m.mem.length := by rw [r.len]; omega
    refine ⟨m.mem[i], rd_lt hl, ?_⟩
    have hd : (m.mem.map fun t => k.cls t.key).drop i = k.cls m.mem[i].key :: (m.mem.map fun t => k.cls t.key).drop (i + 1) := by
      rw [List.drop_eq_getElem_cons (by simpa using hl)]
      simp
    simp only [Map.rest, hd, List.filter_cons]
    by_cases hk : m.mem[i].key = k.zero
    · simp [hk]
    · have : k.cls m.mem[i].key ≠ k.cls k.zero := fun h => hk (hz _ h)
      simp [hk, this]

theorem loop_replaces {k : Kind K C} {v0 : V} (hz : ZeroOk k) {m₀ : Map K V} (hr : m₀.size < m₀.remap) {d : C → Bool}
    {body : σ → K → V → σ × List (Op K V) × Bool}
    (hb : ∀ s key v, ∀ op ∈ (body s key v).2.1, (∃ key', op = .get key') ∨ ∃ key' v' al, op = .put key' v' al ∧ d (k.cls key') = true)
    {b : Bool} {i : Nat} {s : σ} {m : Map K V} {vs : List (K × V)} {out : Option (σ × Map K V)} (h : Loop k v0 body b i s m vs out) :
    ∀ {f : Spec.FMap C V}, Rep k m f → (∀ c, (f c).isSome = d c) → Same k m₀ m →
    (vs.map fun p => k.cls p.1) <+: rest k m₀ i ∧ (∃ s' m' f', out = some (s', m') ∧ Rep k m' f' ∧ (∀ c, (f' c).isSome = d c)) ∧
      (b = false → (∀ s key v, (body s key v).2.2 = false) → (vs.map fun p => k.cls p.1) = rest k m₀ i) := by
  induction h with
  | @stop b i s m hg =>
    intro f r hd hs
    refine ⟨by simp, ⟨s, m, f, rfl, r, hd⟩, ?_⟩
    rintro rfl _
    have hi : m.cap + 1 ≤ i := by simpa using hg
    obtain ⟨j, rfl⟩ : ∃ j, i = j + 1 := ⟨i - 1, by omega⟩
    rw [← hs.rest]
    have : m.mem.length ≤ j := by rw [r.len]; omega
    simp only [Map.rest, List.map_nil]
    rw [List.drop_eq_nil_of_le (by simpa using this)]
    rfl
  | @over b i s m hg hu =>
    intro f r hd hs
    obtain ⟨t, h1, _⟩ := rest_step hz r (i := i) (by simp at hg; omega)
    rw [h1] at hu; cases hu
  | @skip b i s m t vs out hg hc hk _ ih =>
    intro f r hd hs
    obtain ⟨t', h1, h2⟩ := rest_step hz r (i := i) (by simp at hg; omega)
    rw [h1] at hc; cases hc
    rw [hk, hs.rest, hs.rest] at h2
    obtain ⟨h3, h4, h5⟩ := ih r hd hs
    simp only [Bool.false_eq_true, if_false, List.nil_append] at h2
    rw [h2]
    exact ⟨h3, h4, fun _ hb' => h5 rfl hb'⟩
  | @bad b i s m t hg hc hk hu =>
    intro f r hd hs
    obtain ⟨m1, os, f1, e1, _⟩ := run_same (v0 := v0) hz _ r hd hr hs (hb s t.key t.value)
    rw [e1] at hu; cases hu
  | @visit b i s m t m' os vs out hg hc hk hu _ ih =>
    intro f r hd hs
    obtain ⟨t', h1, h2⟩ := rest_step hz r (i := i) (by simp at hg; omega)
    rw [h1] at hc; cases hc
    rw [hk, hs.rest, hs.rest] at h2
    obtain ⟨m1, os1, f1, e1, r1, hd1, hs1⟩ := run_same (v0 := v0) hz _ r hd hr hs (hb s t.key t.value)
    rw [e1] at hu; cases hu
    obtain ⟨h3, h4, h5⟩ := ih r1 hd1 hs1
    simp only [if_true, List.singleton_append] at h2
    rw [h2]
    refine ⟨?_, h4, ?_⟩
    · rw [List.map_cons]; exact List.cons_prefix_cons.2 ⟨rfl, h3⟩
    · intro _ hb'
      rw [List.map_cons, h5 (hb' _ _ _) hb']

/-- **C128 (part).** A loop whose body looks up keys and replaces values of keys the map has is defined and visits no key twice and none the map does not have, and
every key if it does not break; the map has the same keys afterwards. Missing: bodies that add or delete keys, and maps that are full. -/
theorem map_loop_partial {k : Kind K C} {v0 : V} (hz : ZeroOk k) {m : Map K V} {f : Spec.FMap C V} (r : Rep k m f) (hr : m.size < m.remap)
    {body : σ → K → V → σ × List (Op K V) × Bool} (hb : Replaces k f body) {s : σ} {vs : List (K × V)} {out : Option (σ × Map K V)}
    (h : Loop k v0 body false 0 s m vs out) :
    (vs.map fun p => k.cls p.1).Nodup ∧ (∀ p ∈ vs, (f (k.cls p.1)).isSome = true) ∧
      ((∀ s key v, (body s key v).2.2 = false) → ∀ c, (f c).isSome = true → ∃ p ∈ vs, k.cls p.1 = c) ∧
      ∃ s' m' f', out = some (s', m') ∧ Rep k m' f' ∧ ∀ c, (f' c).isSome = (f c).isSome := by
  obtain ⟨h1, h2, h3⟩ := loop_replaces (d := fun c => (f c).isSome) hz hr hb h r (fun _ => rfl) ⟨rfl, rfl, rfl, rfl, rfl⟩
  have he := (r.entries hz).1
  have hrest : rest k m 0 = (((if m.used then [m.mem1] else []) ++ m.mem.filter (fun t => decide (t.key ≠ k.zero))).map
        (fun t => (k.cls t.key, t.value))).map Prod.fst := by
    have hp : ((fun c => decide (c ≠ k.cls k.zero)) ∘ fun t : Item K V => k.cls t.key) = fun t => decide (t.key ≠ k.zero) := by
      funext t
      by_cases hk : t.key = k.zero
      · simp [hk]
      · have : k.cls t.key ≠ k.cls k.zero := fun h => hk (hz _ h)
        simp [hk, this]
    simp only [Map.rest, List.filter_map, hp, List.map_append, List.map_map]
    congr 1
    cases m.used
    · rfl
    · simp [r.mem1]
  have hmem : ∀ c, c ∈ rest k m 0 ↔ (f c).isSome = true := by
    intro c
    rw [hrest, List.mem_map]
    constructor
    · rintro ⟨⟨c', v⟩, hm, rfl⟩
      rw [(he.2 _ _).1 hm]; rfl
    · intro hc
      obtain ⟨v, hv⟩ := Option.isSome_iff_exists.1 hc
      exact ⟨(c, v), (he.2 _ _).2 hv, rfl⟩
  refine ⟨h1.sublist.nodup (by rw [hrest]; exact he.1), ?_, ?_, h2⟩
  · intro p hp
    exact (hmem _).1 (h1.subset (List.mem_map.2 ⟨p, hp, rfl⟩))
  · intro hn c hc
    have hc' := (hmem c).2 hc
    rw [← h3 rfl hn] at hc'
    obtain ⟨p, hp, e⟩ := List.mem_map.1 hc'
    exact ⟨p, hp, e⟩

/-! ## Bodies that do not keep the keys -/

/-- The loop, computed, for at most so many turns -/
def loop (k : Kind K C) (v0 : V) (body : σ → K → V → σ × List (Op K V) × Bool) : Nat → Bool → Nat → σ → Map K V → Option (List (K × V) × σ × Map K V)
  | 0, _, _, _, _ => none
  | n + 1, b, i, s, m =>
    if !b && decide (i < m.cap + 1) then
      match cellAt m i with
      | .ub => none
      | .ok t =>
        if (decide (i = 0) && m.used) || decide (t.key ≠ k.zero) then
          match run k v0 m (body s t.key t.value).2.1 with
          | .ub => none
          | .ok (m', _) => (loop k v0 body n (body s t.key t.value).2.2 (i + 1) (body s t.key t.value).1 m').map fun r => ((t.key, t.value) :: r.1, r.2)
        else loop k v0 body n false (i + 1) s m
    else some ([], s, m)

theorem loop_sound {k : Kind K C} {v0 : V} {body : σ → K → V → σ × List (Op K V) × Bool} : ∀ {n : Nat} {b : Bool} {i : Nat} {s : σ} {m : Map K V}
    {vs : List (K × V)} {o : σ × Map K V}, loop k v0 body n b i s m = some (vs, o) → Loop k v0 body b i s m vs (some o) := by
  intro n
  induction n with
  | zero => intro b i s m vs o h; cases h
  | succ n ih =>
    intro b i s m vs o h
    rw [loop] at h
    split at h
    · next hg =>
      split at h
      · cases h
      · next t hc =>
        split at h
        · next hk =>
          split at h
          · cases h
          · next m' os hu =>
            obtain ⟨⟨vs', o'⟩, h1, h2⟩ := Option.map_eq_some_iff.1 h
            cases h2
            exact .visit hg hc hk hu (ih h1)
        · next hk => exact .skip hg hc (by simpa using hk) (ih h)
    · next hg => cases h; exact .stop (by simpa using hg)

/-- What a loop visits after some calls on a new map, and how many entries are left -/
def after (ops : List (Op Nat Nat)) (body : Unit → Nat → Nat → Unit × List (Op Nat Nat) × Bool) : Option (List (Nat × Nat) × Nat × Nat) :=
  match init u32Kind 0 true (false, false) 0 0 with
  | none => none
  | some m =>
    match run u32Kind 0 m ops with
    | .ub => none
    | .ok (m', _) => (loop u32Kind 0 body 40 false 0 () m').map fun r => (r.1, m'.size, r.2.2.size)

theorem after_sound {ops : List (Op Nat Nat)} {body : Unit → Nat → Nat → Unit × List (Op Nat Nat) × Bool} {vs : List (Nat × Nat)} {n n' : Nat}
    (h : after ops body = some (vs, n, n')) : ∃ m m' os m'', init u32Kind 0 true (false, false) 0 0 = some m ∧ run u32Kind 0 m ops = .ok (m', os) ∧
    m'.size = n ∧ Loop u32Kind 0 body false 0 () m' vs (some ((), m'')) ∧ m''.size = n' := by
  unfold after at h
  split at h
  · cases h
  · next m hm =>
    split at h
    · cases h
    · next m' os hu =>
      obtain ⟨⟨vs', u, m''⟩, h1, h2⟩ := Option.map_eq_some_iff.1 h
      cases h2
      exact ⟨m, m', os, m'', hm, hu, rfl, loop_sound h1, rfl⟩

/-- A body that deletes the key it is at -/
def delIt (_ : Unit) (key _ : Nat) : Unit × List (Op Nat Nat) × Bool := ((), [.del key], false)

/-- **C128 is violated**: a loop that deletes each key it visits visits one of two, and leaves the other. -/
theorem map_loop_del_violated : ∃ m m' os m'', init u32Kind 0 true (false, false) 0 0 = some m ∧ run u32Kind 0 m [.put 1 10 true, .put 9 90 true] = .ok (m', os) ∧
    m'.size = 2 ∧ Loop u32Kind 0 delIt false 0 () m' [(1, 10)] (some ((), m'')) ∧ m''.size = 1 :=
  after_sound (by decide +kernel)

/-- A body that replaces the value of 9 when it is there -/
def setIt (_ : Unit) (key _ : Nat) : Unit × List (Op Nat Nat) × Bool := ((), if key = 9 then [.put 9 91 true] else [], false)

/-- **C128 is violated**: in a full map, a loop that replaces one value visits that entry twice and another not at all. -/
theorem map_loop_put_violated : ∃ m m' os m'', init u32Kind 0 true (false, false) 0 0 = some m ∧
    run u32Kind 0 m [.put 1 10 true, .put 9 90 true, .put 17 170 true, .put 4 40 true, .put 5 50 true, .put 6 60 true] = .ok (m', os) ∧ m'.size = 6 ∧
    Loop u32Kind 0 setIt false 0 () m' [(1, 10), (9, 90), (4, 40), (5, 50), (6, 60), (9, 91)] (some ((), m'')) ∧ m''.size = 6 :=
  after_sound (by decide +kernel)

/-! ## An example

The same loop when the map is not full -/

example : ∃ m m' os m'', init u32Kind 0 true (false, false) 0 0 = some m ∧
    run u32Kind 0 m [.put 1 10 true, .put 9 90 true, .put 17 170 true] = .ok (m', os) ∧ m'.size = 3 ∧
    Loop u32Kind 0 setIt false 0 () m' [(1, 10), (9, 90), (17, 170)] (some ((), m'')) ∧ m''.size = 3 :=
  after_sound (by decide +kernel)

example (f : Spec.FMap Nat Nat) (h : f 9 = some 90) : Replaces u32Kind f setIt := by
  intro s key v op ho
  simp only [setIt] at ho
  split at ho
  · exact .inr ⟨9, 91, true, by simpa using ho, by show (f 9).isSome = true; rw [h]; rfl⟩
  · simp at ho

end Verif.Map
