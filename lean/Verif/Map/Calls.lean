import Verif.Map.Lemmas

/-! # The effect of put, get, del, clear and foreach -/

set_option linter.unusedSectionVars false
set_option linter.unusedVariables false

namespace Verif.Map

variable {K C V : Type} [DecidableEq K] [DecidableEq C]

theorem assign_key (k : Kind K C) (t : Item K V) (key : K) (v : V) (h : Nat) :
    (k.assign t key v h).key = key ∧ (k.assign t key v h).value = v := by
  unfold Kind.assign; split <;> exact ⟨rfl, rfl⟩

theorem assign_hash (k : Kind K C) (t : Item K V) (key : K) (v : V) :
    k.hashof (k.assign t key v (k.hash (k.cls key))) = k.hash (k.cls key) := by
  unfold Kind.assign Kind.hashof
  by_cases hc : k.cached = true <;> simp [hc]

theorem Rep.remap_lt {k : Kind K C} {m : Map K V} {f : Spec.FMap C V} (r : Rep k m f) :
    m.remap < 2147483648 := by
  have hb := r.cap.bounds
  rcases r.shape with ⟨_, _, h⟩ | ⟨_, _, h⟩
  · omega
  · rw [h]; unfold remapOf
    have : m.cap * m.loadFac ≤ m.cap * 95 := Nat.mul_le_mul_left _ r.lf.2
    omega

/-- The keys of the abstract map can be listed, as many as `size`. -/
theorem Rep.entries {k : Kind K C} {m : Map K V} {f : Spec.FMap C V} (r : Rep k m f)
    (hz : ZeroOk k) :
    Spec.Enumerates f
      (((if m.used then [m.mem1] else []) ++ m.mem.filter (fun t => decide (t.key ≠ k.zero))).map
        (fun t => (k.cls t.key, t.value))) ∧
    ((if m.used then [m.mem1] else []) ++ m.mem.filter (fun t => decide (t.key ≠ k.zero))).length
      = m.size := by
  have hmem : ∀ t, t ∈ m.mem.filter (fun t => decide (t.key ≠ k.zero)) ↔
      t ∈ m.mem ∧ t.key ≠ k.zero := by intro t; rw [List.mem_filter]; simp
  have hpw : (m.mem.filter (fun t => decide (t.key ≠ k.zero))).Pairwise
      (fun a b => k.cls a.key ≠ k.cls b.key) := by
    rw [List.pairwise_filter]
    refine (pairwise_of_uniq r.good.uniq).imp ?_
    intro a b h ha hb
    exact h (by simpa using ha) (by simpa using hb)
  refine ⟨⟨?_, ?_⟩, ?_⟩
  · rw [List.map_map, List.map_append, List.nodup_append]
    refine ⟨?_, ?_, ?_⟩
    · split <;> simp
    · rw [List.Nodup, List.pairwise_map]
      exact hpw
    · intro a ha b hb
      split at ha
      · simp only [List.map_cons, List.map_nil, List.mem_singleton, Function.comp] at ha
        obtain ⟨t, ht, rfl⟩ := List.mem_map.1 hb
        intro he
        simp only [Function.comp] at he
        rw [ha, r.mem1] at he
        exact ((hmem t).1 ht).2 (hz _ he.symm)
      · simp at ha
  · intro c v
    rw [r.rep, List.mem_map]
    constructor
    · rintro ⟨t, ht, he⟩
      cases he
      rcases List.mem_append.1 ht with ht | ht
      · split at ht
        · next hu =>
          simp only [List.mem_singleton] at ht
          subst ht
          exact Or.inl ⟨by rw [r.mem1], hu, rfl⟩
        · simp at ht
      · obtain ⟨h1, h2⟩ := (hmem t).1 ht
        obtain ⟨x, hx⟩ := (mem_iff_cell r.good.pos).1 h1
        exact Or.inr ⟨x, t, hx, h2, rfl, rfl⟩
    · rintro (⟨rfl, hu, rfl⟩ | ⟨x, t, hx, hne, rfl, rfl⟩)
      · exact ⟨m.mem1, by simp [hu], by rw [r.mem1]⟩
      · exact ⟨t, List.mem_append_right _ ((hmem t).2 ⟨List.mem_of_getElem? hx, hne⟩), rfl⟩
  · rw [r.size, List.length_append, ← List.countP_eq_length_filter]
    unfold occupied
    split <;> simp [Nat.add_comm]

theorem Rep.atLeast {k : Kind K C} {m : Map K V} {f : Spec.FMap C V} (r : Rep k m f)
    (hz : ZeroOk k) {n : Nat} (h : n ≤ m.size) : Spec.AtLeast f n := by
  obtain ⟨⟨h1, h2⟩, h3⟩ := r.entries hz
  refine ⟨_, h1, ?_, ?_⟩
  · rw [List.length_map, List.length_map, h3]; exact h
  · intro c hc
    obtain ⟨⟨c', v⟩, hm, rfl⟩ := List.mem_map.1 hc
    rw [(h2 c' v).1 hm]; rfl

theorem getD_used (b : Bool) (a v0 : V) :
    (if b then some a else none).getD v0 = (if b then a else v0) := by cases b <;> rfl

theorem isSome_used (b : Bool) (a : V) : (if b then some a else none).isSome = b := by
  cases b <;> rfl

theorem get_spec {k : Kind K C} {v0 : V} {m : Map K V} {f : Spec.FMap C V} (r : Rep k m f)
    (hz : ZeroOk k) (key : K) :
    get k v0 m key = .ok ({ m with found := (f (k.cls key)).isSome }, (f (k.cls key)).getD v0) := by
  unfold get
  by_cases h0 : key = k.zero
  · subst h0
    simp only [if_true]
    rw [r.zero hz]
    cases m.used <;> simp
  · simp only [h0, if_false]
    have hc : k.cls key ≠ k.cls k.zero := fun h => h0 (hz _ h)
    obtain ⟨z, t, hp, ht, hcase⟩ := r.lookup key
    rw [hp, Res.ok_bind, rd_cell ht, Res.ok_bind]
    rcases hcase with ⟨hne, htc⟩ | ⟨hzero, habs, _⟩
    · rw [if_neg hne, r.present hc ht hne htc]; simp
    · rw [if_pos hzero, r.absent hc habs]; simp

theorem put_spec {k : Kind K C} {v0 : V} {al : Bool} {m : Map K V} {f : Spec.FMap C V}
    (r : Rep k m f) (hz : ZeroOk k) (key : K) (v : V) :
    (∃ m', put k v0 al m key v = .ok (m', (f (k.cls key)).getD v0) ∧
      Rep k m' (Spec.upd f (k.cls key) v) ∧ m'.oom = false ∧
      m'.found = (f (k.cls key)).isSome) ∨
    (put k v0 al m key v = .ok ({ m with oom := true }, v0) ∧
      (al = false ∨ 536870912 ≤ m.size)) := by
  have r0 : Rep k { m with oom := false } f :=
    ⟨r.cap, r.len, r.good, r.size, r.mem1, r.lf, r.shape, r.bound, r.rep⟩
  unfold put
  dsimp only
  rcases remap_spec (v0 := v0) (al := al) r0 with ⟨m1, hm1, r1, hlt, hst, hoom⟩ | ⟨hm1, hwhy⟩
  · left
    rw [hm1, Res.ok_bind]
    simp only [Bool.not_true, Bool.false_eq_true, if_false]
    have hrl := r1.remap_lt
    have hbnd := r1.bound
    have hshape : m1.static = false ∧ 8 ≤ m1.cap ∧ m1.remap = remapOf m1.cap m1.loadFac := by
      rcases r1.shape with ⟨h, _⟩ | h
      · rw [hst] at h; cases h
      · exact h
    by_cases h0 : key = k.zero
    · subst h0
      simp only [if_true]
      refine ⟨{ m1 with
        found := m1.used
        size := add32 m1.size (if m1.used then 0 else 1)
        used := true
        mem1 := { m1.mem1 with value := v } }, ?_,
        ⟨r1.cap, r1.len, r1.good, ?_, r1.mem1, r1.lf, Or.inr hshape, ?_, ?_⟩, hoom, ?_⟩
      · simp only [Res.pure_eq]
        rw [r1.zero hz]
        first
        | rw [getD_used]
        | rw [isSome_used]
      · dsimp only
        rw [r1.size]
        have := r1.size
        unfold add32
        cases hu : m1.used <;> simp [hu] at this ⊢ <;> omega
      · dsimp only
        unfold add32
        cases hu : m1.used <;> simp <;> omega
      · intro c w
        have hno : ∀ w, ¬ Has k m1.mem (k.cls k.zero) w := by
          rintro w ⟨x, t, _, hne, hcc, _⟩; exact hne (hz _ hcc)
        unfold Spec.upd
        by_cases hc : c = k.cls k.zero
        · subst hc; simp [hno]
        · rw [if_neg hc, r1.other hc]; simp [hc]
      · dsimp only
        rw [r1.zero hz]
        first
        | rw [getD_used]
        | rw [isSome_used]
    · simp only [h0, if_false]
      have hc : k.cls key ≠ k.cls k.zero := fun h => h0 (hz _ h)
      obtain ⟨z, t, hp, ht, hcase⟩ := r1.lookup key
      rw [hp, Res.ok_bind, rd_cell ht, Res.ok_bind, wr_cell r1.good.pos, Res.ok_bind]
      obtain ⟨hak, hav⟩ := assign_key k t key v (k.hash (k.cls key))
      have hah := assign_hash k t key v
      rcases hcase with ⟨hne, htc⟩ | ⟨hzero, habs, hz1, hz2, hfull⟩
      · obtain ⟨g', ho', hh'⟩ := r1.good.overwrite (t := k.assign t key v (k.hash (k.cls key)))
          (by rw [hak]; exact h0) (by rw [hah, hak]) ht hne (by rw [hak]; exact htc)
        have hf := r1.present hc ht hne htc
        rw [hf]
        refine ⟨{ m1 with
          mem := m1.mem.set (idx m1.mem.length z) (k.assign t key v (k.hash (k.cls key)))
          found := true }, ?_,
          ⟨r1.cap, ?_, g', ?_, r1.mem1, r1.lf, Or.inr hshape, hbnd, ?_⟩, hoom, rfl⟩
        · simp [hne]
        · simpa using r1.len
        · dsimp only; rw [ho']; exact r1.size
        · intro c w
          rw [hh', hak, hav]
          unfold Spec.upd
          by_cases hcc : c = k.cls key
          · rw [if_pos hcc, if_pos hcc]
            have : c ≠ k.cls k.zero := by rw [hcc]; exact hc
            simp only [this, false_and, false_or, Option.some.injEq]
            exact eq_comm
          · rw [if_neg hcc, if_neg hcc]
            exact r1.rep c w
      · obtain ⟨g', ho', hh'⟩ := r1.good.insert (t := k.assign t key v (k.hash (k.cls key)))
          (by rw [hak]; exact h0) (by rw [hah, hak]) (by rw [hak]; exact hz1)
          (by rw [hak]; exact hz2) (by rw [hak]; exact hfull) ((not_full_iff ht).2 hzero)
          (by rw [hak]; exact habs)
        have hf := r1.absent hc habs
        rw [hf]
        have hsz := r1.size
        refine ⟨{ m1 with
          mem := m1.mem.set (idx m1.mem.length z) (k.assign t key v (k.hash (k.cls key)))
          size := add32 m1.size 1
          found := false }, ?_,
          ⟨r1.cap, ?_, g', ?_, r1.mem1, r1.lf, Or.inr hshape, ?_, ?_⟩, hoom, rfl⟩
        · simp [hzero]
        · simpa using r1.len
        · dsimp only
          rw [ho']
          unfold add32
          omega
        · dsimp only
          unfold add32
          omega
        · intro c w
          rw [hh', hak, hav]
          unfold Spec.upd
          by_cases hcc : c = k.cls key
          · subst hcc
            rw [if_pos rfl]
            have hno : ¬ Has k m1.mem (k.cls key) w := by
              rintro ⟨x, a, ha, hane, hac, _⟩
              exact habs ⟨x, a, ha, hane, hac⟩
            simp only [hc, hno, false_and, false_or, Option.some.injEq, or_false, true_and]
            exact eq_comm
          · rw [if_neg hcc]
            simp only [hcc, false_and, false_or]
            exact r1.rep c w
  · right
    rw [hm1, Res.ok_bind]
    exact ⟨by simp, hwhy⟩

theorem del_spec {k : Kind K C} {v0 : V} {m : Map K V} {f : Spec.FMap C V}
    (r : Rep k m f) (hz : ZeroOk k) (key : K) :
    ∃ m', del k v0 m key = .ok (m', (f (k.cls key)).getD v0) ∧
      Rep k m' (Spec.rem f (k.cls key)) ∧ m'.oom = m.oom ∧
      m'.found = (f (k.cls key)).isSome := by
  have hrl := r.remap_lt
  have hbnd := r.bound
  have hsz := r.size
  unfold del
  by_cases h0 : key = k.zero
  · subst h0
    simp only [if_true]
    have hno : ∀ w, ¬ Has k m.mem (k.cls k.zero) w := by
      rintro w ⟨x, t, _, hne, hcc, _⟩; exact hne (hz _ hcc)
    refine ⟨{ m with
      found := m.used
      size := sub32 m.size (if m.used then 1 else 0)
      used := false }, ?_, ⟨r.cap, r.len, r.good, ?_, r.mem1, r.lf, r.shape, ?_, ?_⟩, rfl, ?_⟩
    · try simp only [Res.pure_eq]
      rw [r.zero hz]
      first
      | rw [getD_used]
      | rw [isSome_used]
    · dsimp only
      unfold sub32
      cases hu : m.used <;> rw [hu] at hsz <;>
        simp only [Bool.false_eq_true, if_false, if_true] at hsz ⊢ <;> omega
    · dsimp only
      unfold sub32
      cases hu : m.used <;> rw [hu] at hsz <;>
        simp only [Bool.false_eq_true, if_false, if_true] at hsz ⊢ <;> omega
    · intro c w
      unfold Spec.rem
      by_cases hc : c = k.cls k.zero
      · subst hc; simp [hno]
      · rw [if_neg hc, r.other hc]; simp [hc]
    · try simp only
      rw [r.zero hz]
      first
      | rw [getD_used]
      | rw [isSome_used]
  · simp only [h0, if_false]
    have hc : k.cls key ≠ k.cls k.zero := fun h => h0 (hz _ h)
    obtain ⟨z, t, hp, ht, hcase⟩ := r.lookup key
    rw [hp, Res.ok_bind, rd_cell ht, Res.ok_bind]
    rcases hcase with ⟨hne, htc⟩ | ⟨hzero, habs, _⟩
    · rw [if_neg hne, r.present hc ht hne htc, wr_cell r.good.pos, Res.ok_bind]
      obtain ⟨T', hs, g', hl', ho', hh'⟩ := delete_spec (by rw [r.len]; exact r.cap) r.good r.room
        ht hne
      rw [r.len] at hs
      rw [r.len, hs, Res.ok_bind]
      refine ⟨{ m with found := true, size := sub32 m.size 1, mem := T' }, ?_,
        ⟨r.cap, by rw [← r.len]; exact hl', g', ?_, r.mem1, r.lf, r.shape, ?_, ?_⟩, rfl, rfl⟩
      · simp only [Res.pure_eq, Option.getD_some]
      · dsimp only; unfold sub32; omega
      · dsimp only; unfold sub32; omega
      · intro c w
        rw [hh', htc]
        unfold Spec.rem
        by_cases hcc : c = k.cls key
        · subst hcc
          rw [if_pos rfl]
          simp [hc]
        · rw [if_neg hcc]
          simp only [ne_eq, hcc, not_false_iff, true_and]
          exact r.rep c w
    · rw [if_pos hzero, r.absent hc habs]
      refine ⟨{ m with found := false }, by simp only [Res.pure_eq, Option.getD_none],
        ⟨r.cap, r.len, r.good, r.size, r.mem1, r.lf, r.shape, r.bound, ?_⟩, rfl, rfl⟩
      intro c w
      unfold Spec.rem
      by_cases hcc : c = k.cls key
      · subst hcc
        rw [if_pos rfl]
        constructor
        · intro h; cases h
        · intro h
          have := (r.rep _ _).2 h
          rw [r.absent hc habs] at this; cases this
      · rw [if_neg hcc]; exact r.rep c w

theorem clear_spec {k : Kind K C} {m : Map K V} {f : Spec.FMap C V} (r : Rep k m f) :
    Rep k (clear k m) Spec.empty ∧ (clear k m).oom = m.oom ∧ (clear k m).found = m.found := by
  unfold clear
  split
  · next h =>
    obtain ⟨hg, ho, hh⟩ := good_of_empty (k := k)
      (T := m.mem.map (fun t => { t with key := k.zero })) (by simpa using r.good.pos)
      (by intro t ht; obtain ⟨a, _, rfl⟩ := List.mem_map.1 ht; rfl)
    refine ⟨⟨r.cap, by simpa using r.len, hg, by simp [ho], r.mem1, r.lf, ?_, Nat.zero_le _, ?_⟩,
      rfl, rfl⟩
    · exact r.shape
    · intro c v
      constructor
      · intro h; cases h
      · rintro (⟨_, h, _⟩ | h)
        · cases h
        · exact absurd h (hh c v)
  · next h =>
    refine ⟨⟨r.cap, r.len, r.good, r.size, r.mem1, r.lf, r.shape, r.bound, ?_⟩, rfl, rfl⟩
    have hs := r.size
    have hu : m.used = false := by
      cases hu : m.used with
      | false => rfl
      | true => rw [hu] at hs; simp at hs; omega
    have ho : occupied k m.mem = 0 := by omega
    intro c v
    constructor
    · intro h; cases h
    · rintro (⟨_, h, _⟩ | ⟨x, t, ht, hne, _⟩)
      · rw [hu] at h; cases h
      · unfold occupied at ho
        rw [List.countP_eq_zero] at ho
        exact absurd (by simpa using hne) (ho t (List.mem_of_getElem? ht))

/-! ## foreach -/

theorem walk_append (body : σ → K → V → σ × Bool) :
    ∀ (l : List (K × V)) (key : K) (v : V) (s : σ),
      Spec.walk body s ((key, v) :: l) =
        if (body s key v).2 then (body s key v).1 else Spec.walk body (body s key v).1 l := by
  intro l key v s; rfl

/-- Once `b` is set the loop stops. -/
theorem foreachLoop_stop (k : Kind K C) (m : Map K V) (body : σ → K → V → σ × Bool)
    (fuel i : Nat) (s : σ) : foreachLoop k m body (fuel + 1) true i s = .ok s := by
  simp [foreachLoop]

theorem foreachLoop_zero (k : Kind K C) (m : Map K V) (body : σ → K → V → σ × Bool)
    (fuel : Nat) (s : σ) :
    foreachLoop k m body (fuel + 1) false 0 s =
      if m.used || decide (m.mem1.key ≠ k.zero) then
        foreachLoop k m body fuel (body s m.mem1.key m.mem1.value).2 1
          (body s m.mem1.key m.mem1.value).1
      else foreachLoop k m body fuel false 1 s := by
  conv => lhs; unfold foreachLoop
  simp [cellAt]

theorem foreachLoop_cells (k : Kind K C) (m : Map K V) (hl : m.mem.length = m.cap)
    (body : σ → K → V → σ × Bool) :
    ∀ (n i : Nat) (s : σ), i + n = m.cap → ∀ fuel, n + 1 ≤ fuel →
      foreachLoop k m body fuel false (i + 1) s =
        .ok (Spec.walk body s (((m.mem.drop i).filter (fun t => decide (t.key ≠ k.zero))).map
          (fun t => (t.key, t.value)))) := by
  intro n
  induction n with
  | zero =>
    intro i s hi fuel hf
    obtain ⟨fuel, rfl⟩ : ∃ f, fuel = f + 1 := ⟨fuel - 1, by omega⟩
    rw [List.drop_of_length_le (by omega)]
    simp only [foreachLoop]
    rw [if_neg (by simp; omega)]
    rfl
  | succ n ih =>
    intro i s hi fuel hf
    obtain ⟨fuel, rfl⟩ : ∃ f, fuel = f + 1 := ⟨fuel - 1, by omega⟩
    have hil : i < m.mem.length := by omega
    rw [List.drop_eq_getElem_cons hil, List.filter_cons]
    simp only [foreachLoop]
    rw [if_pos (by simp; omega)]
    simp only [cellAt, rd_lt hil, Res.ok_bind]
    rw [show (decide (i + 1 = 0)) = false by simp, Bool.false_and, Bool.false_or]
    by_cases hz : m.mem[i].key = k.zero
    · simp only [hz, ne_eq, not_true, decide_false, Bool.false_eq_true, if_false]
      exact ih (i + 1) s (by omega) fuel (by omega)
    · simp only [hz, ne_eq, not_false_iff, decide_true, if_true, List.map_cons]
      rw [walk_append]
      obtain ⟨fuel, rfl⟩ : ∃ f, fuel = f + 1 := ⟨fuel - 1, by omega⟩
      cases hb : (body s m.mem[i].key m.mem[i].value).2 with
      | true =>
        rw [foreachLoop_stop]; simp
      | false =>
        have := ih (i + 1) (body s m.mem[i].key m.mem[i].value).1 (by omega) (fuel + 1) (by omega)
        simpa using this

theorem foreach_eq {k : Kind K C} {m : Map K V} {f : Spec.FMap C V} (r : Rep k m f)
    (body : σ → K → V → σ × Bool) (s : σ) :
    foreach k m body s = .ok (Spec.walk body s
      (((if m.used then [m.mem1] else []) ++ m.mem.filter (fun t => decide (t.key ≠ k.zero))).map
        (fun t => (t.key, t.value)))) := by
  unfold foreach
  have hl := r.len
  have hcells := foreachLoop_cells k m hl body m.cap 0
  rw [foreachLoop_zero, r.mem1, show (decide (k.zero ≠ k.zero)) = false by simp, Bool.or_false]
  by_cases hu : m.used = true
  · simp only [hu, if_true, List.singleton_append, List.map_cons, r.mem1]
    rw [walk_append]
    cases hb : (body s k.zero m.mem1.value).2 with
    | true => rw [foreachLoop_stop]; simp
    | false =>
      have := hcells (body s k.zero m.mem1.value).1 (by omega) (m.cap + 1) (by omega)
      simpa using this
  · simp only [hu]
    have := hcells s (by omega) (m.cap + 1) (by omega)
    simpa using this

end Verif.Map
