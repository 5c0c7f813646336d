import Verif.Map.Calls
import Verif.Map.Murmur

/-! # Properties C11-C17 of `sc_map` -/

set_option linter.unusedSectionVars false
set_option linter.unusedVariables false

namespace Verif.Map

variable {K C V : Type} [DecidableEq K] [DecidableEq C]

/-- What the API shows of a map agrees with the finite map `f`: `sc_map_size`, what a get
of any key would return, and `sc_map_foreach`, which visits a list `l` of pairs that
enumerates `f`. -/
structure Observes (k : Kind K C) (v0 : V) (m : Map K V) (f : Spec.FMap C V) : Prop where
  size : ∃ l, Spec.Enumerates f l ∧ m.size = l.length
  get : ∀ key, ∃ m', get k v0 m key = .ok (m', (f (k.cls key)).getD v0) ∧
    m'.found = (f (k.cls key)).isSome
  each : ∃ l : List (K × V), Spec.Enumerates f (l.map fun p => (k.cls p.1, p.2)) ∧
    ∀ (σ : Type) (body : σ → K → V → σ × Bool) (s : σ),
      foreach k m body s = .ok (Spec.walk body s l)

theorem Rep.observes {k : Kind K C} {v0 : V} {m : Map K V} {f : Spec.FMap C V}
    (r : Rep k m f) (hz : ZeroOk k) : Observes k v0 m f := by
  obtain ⟨h1, h2⟩ := r.entries hz
  refine ⟨⟨_, h1, ?_⟩, ?_, ⟨_, ?_, fun σ body s => foreach_eq r body s⟩⟩
  · rw [List.length_map, h2]
  · intro key; exact ⟨_, get_spec r hz key, rfl⟩
  · rw [List.map_map]; exact h1

theorem step_spec {k : Kind K C} {v0 : V} {m : Map K V} {f : Spec.FMap C V} (r : Rep k m f)
    (hz : ZeroOk k) (op : Op K V) :
    ∃ m' o f', step k v0 m op = .ok (m', o) ∧ Spec.Step k.cls v0 f op o f' ∧ Rep k m' f' := by
  cases op with
  | put key v al =>
    rcases put_spec (v0 := v0) (al := al) r hz key v with ⟨m', hp, r', ho, hf⟩ | ⟨hp, hwhy⟩
    · refine ⟨m', _, _, by simp only [step, hp, Res.ok_bind]; rfl, ?_, r'⟩
      rw [ho, hf]; exact .put f key v al
    · refine ⟨{ m with oom := true }, _, f, by simp only [step, hp, Res.ok_bind]; rfl, ?_,
        ⟨r.cap, r.len, r.good, r.size, r.mem1, r.lf, r.shape, r.bound, r.rep⟩⟩
      exact .put_oom f key v al _ (hwhy.imp id (r.atLeast hz))
  | get key =>
    refine ⟨{ m with found := (f (k.cls key)).isSome }, _, f,
      by simp only [step, get_spec r hz, Res.ok_bind]; rfl, .get f key _,
      ⟨r.cap, r.len, r.good, r.size, r.mem1, r.lf, r.shape, r.bound, r.rep⟩⟩
  | del key =>
    obtain ⟨m', hp, r', ho, hf⟩ := del_spec (v0 := v0) r hz key
    refine ⟨m', _, _, by simp only [step, hp, Res.ok_bind]; rfl, ?_, r'⟩
    rw [hf]; exact .del f key _
  | clear =>
    obtain ⟨r', _, _⟩ := clear_spec r
    exact ⟨_, _, Spec.empty, rfl, .clear f _ _, r'⟩

theorem run_spec {k : Kind K C} {v0 : V} (hz : ZeroOk k) (ops : List (Op K V)) :
    ∀ {m : Map K V} {f : Spec.FMap C V}, Rep k m f →
    ∃ m' outs f', run k v0 m ops = .ok (m', outs) ∧ Spec.Run k.cls v0 f ops outs f' ∧
      Rep k m' f' := by
  induction ops with
  | nil => intro m f r; exact ⟨m, [], f, rfl, .nil f, r⟩
  | cons op ops ih =>
    intro m f r
    obtain ⟨m1, o, f1, h1, s1, r1⟩ := step_spec (v0 := v0) r hz op
    obtain ⟨m2, os, f2, h2, s2, r2⟩ := ih r1
    exact ⟨m2, o :: os, f2, by simp only [run, h1, h2, Res.ok_bind]; rfl, .cons s1 s2, r2⟩

/-- The initial map is usable: init succeeded, for a capacity up to 2^31. -/
def Started (k : Kind K C) (v0 : V) (m : Map K V) : Prop :=
  ∃ al g cap lf, cap ≤ 2147483648 ∧ init k v0 al g cap lf = some m

/-- C11, C12, C13, C14, C15. After every history of put/get/del/clear on a map that `init`
made, with any hash function, any collisions, any load factor the API allows and any
allocation failures: every call returned (all probe loops ended, no cell outside the table
was touched), the results are those of a finite map — a put fails only when the allocator
fails or the map has 2^29 entries, and then changes nothing —, and size, lookups and
foreach agree with that finite map. -/
theorem map_refines_finite_map {k : Kind K C} {v0 : V} (hz : ZeroOk k) {m : Map K V}
    (hm : Started k v0 m) (ops : List (Op K V)) :
    ∃ m' outs f, run k v0 m ops = .ok (m', outs) ∧
      Spec.Run k.cls v0 Spec.empty ops outs f ∧ Observes k v0 m' f := by
  obtain ⟨al, g, cap, lf, hcap, hinit⟩ := hm
  obtain ⟨m', outs, f, h1, h2, h3⟩ := run_spec (v0 := v0) hz ops (init_rep hinit hcap)
  exact ⟨m', outs, f, h1, h2, h3.observes hz⟩

/-- C12. After every history the reported size is the number of distinct keys. -/
theorem map_size_counts_keys {k : Kind K C} {v0 : V} (hz : ZeroOk k) {m m' : Map K V}
    (hm : Started k v0 m) {ops : List (Op K V)} {outs : List (Out V)}
    (hr : run k v0 m ops = .ok (m', outs)) :
    ∃ f, Spec.Run k.cls v0 Spec.empty ops outs f ∧
      ∀ keys : List C, keys.Nodup → (∀ c, c ∈ keys ↔ (f c).isSome = true) →
        m'.size = keys.length := by
  obtain ⟨m1, outs1, f, h1, h2, h3⟩ := map_refines_finite_map (v0 := v0) hz hm ops
  rw [hr] at h1; cases h1
  refine ⟨f, h2, ?_⟩
  intro keys hnd hmem
  obtain ⟨l, ⟨hl1, hl2⟩, hsz⟩ := h3.size
  rw [hsz, ← List.length_map (f := Prod.fst)]
  apply List.Perm.length_eq
  rw [List.perm_ext_iff_of_nodup hl1 hnd]
  intro c
  rw [hmem, List.mem_map]
  constructor
  · rintro ⟨⟨c', v⟩, hin, rfl⟩
    rw [(hl2 c' v).1 hin]; rfl
  · intro h
    obtain ⟨v, hv⟩ := Option.isSome_iff_exists.1 h
    exact ⟨(c, v), (hl2 c v).2 hv, rfl⟩

/-- C13. No call of any history runs a probe loop more than `cap + 1` times (the fuel of
the model) or reads outside the table. -/
theorem map_calls_terminate {k : Kind K C} {v0 : V} (hz : ZeroOk k) {m : Map K V}
    (hm : Started k v0 m) (ops : List (Op K V)) : run k v0 m ops ≠ .ub := by
  obtain ⟨m', outs, f, h, _⟩ := map_refines_finite_map (v0 := v0) hz hm ops
  rw [h]; intro h; cases h

/-- C14. foreach visits each entry of the map exactly once, and stops at a `break`. -/
theorem map_foreach_visits_each_once {k : Kind K C} {v0 : V} (hz : ZeroOk k) {m m' : Map K V}
    (hm : Started k v0 m) {ops : List (Op K V)} {outs : List (Out V)}
    (hr : run k v0 m ops = .ok (m', outs)) :
    ∃ f, Spec.Run k.cls v0 Spec.empty ops outs f ∧
      ∃ l : List (K × V), Spec.Enumerates f (l.map fun p => (k.cls p.1, p.2)) ∧
        ∀ (σ : Type) (body : σ → K → V → σ × Bool) (s : σ),
          foreach k m' body s = .ok (Spec.walk body s l) := by
  obtain ⟨m1, outs1, f, h1, h2, h3⟩ := map_refines_finite_map (v0 := v0) hz hm ops
  rw [hr] at h1; cases h1
  exact ⟨f, h2, h3.each⟩

/-- C15. In any state reached by a history, a put either reports `oom = false` and takes
effect, or reports `oom = true`, returns 0 and leaves every lookup, the size and the
iteration as they were. -/
theorem map_put_atomic {k : Kind K C} {v0 : V} (hz : ZeroOk k) {m m' : Map K V}
    (hm : Started k v0 m) {ops : List (Op K V)} {outs : List (Out V)}
    (hr : run k v0 m ops = .ok (m', outs)) (key : K) (v : V) (al : Bool) :
    ∃ m'' r, put k v0 al m' key v = .ok (m'', r) ∧
      ∃ f, Spec.Run k.cls v0 Spec.empty ops outs f ∧
        ((m''.oom = false ∧ Observes k v0 m'' (Spec.upd f (k.cls key) v)) ∨
         (m''.oom = true ∧ r = v0 ∧ m'' = { m' with oom := true } ∧ Observes k v0 m'' f)) := by
  obtain ⟨al0, g, cap, lf, hcap, hinit⟩ := hm
  obtain ⟨m1, outs1, f, h1, h2, h3⟩ := run_spec (v0 := v0) hz ops (init_rep hinit hcap)
  rw [hr] at h1; cases h1
  rcases put_spec (v0 := v0) (al := al) h3 hz key v with ⟨m2, hp, r', ho, hf⟩ | ⟨hp, hwhy⟩
  · exact ⟨m2, _, hp, f, h2, Or.inl ⟨ho, r'.observes hz⟩⟩
  · refine ⟨_, _, hp, f, h2, Or.inr ⟨rfl, rfl, rfl, ?_⟩⟩
    exact Rep.observes ⟨h3.cap, h3.len, h3.good, h3.size, h3.mem1, h3.lf, h3.shape, h3.bound,
      h3.rep⟩ hz

/-! ## C16: initial capacities -/

/-- C16, the part that holds: init with any capacity up to 2^31 gives a map with room for
at least that many cells, and the map is usable (`map_refines_finite_map`). -/
theorem map_init_partial {k : Kind K C} {v0 : V} {al : Bool} {g : Bool × Bool} {cap lf : Nat}
    {m : Map K V} (h : init k v0 al g cap lf = some m) (hcap : cap ≤ 2147483648)
    (hz : ZeroOk k) (ops : List (Op K V)) :
    cap ≤ m.cap ∧ run k v0 m ops ≠ .ub := by
  refine ⟨?_, map_calls_terminate hz ⟨al, g, cap, lf, hcap, h⟩ ops⟩
  unfold init at h
  dsimp only at h
  generalize (if lf = 0 then 75 else lf) = f' at h
  by_cases h1 : f' > 95 ∨ f' < 25
  · rw [if_pos h1] at h; cases h
  · rw [if_neg h1] at h
    by_cases h2 : cap = 0
    · omega
    · rw [if_neg h2] at h
      unfold alloc allocCap at h
      rw [Nat.div_one, if_neg (by omega), Nat.mul_one, Nat.mod_eq_of_lt (by omega)] at h
      dsimp only at h
      obtain ⟨e, he, hv, he31, hmin⟩ := nextPow2_spec (v := if cap < 8 then 8 else cap)
        (by split <;> omega) (by split <;> omega)
      rw [he] at h
      cases al with
      | false => simp at h
      | true =>
        simp only [if_true, Option.some.injEq] at h
        subst h
        dsimp only
        split at hv <;> omega

/-- C16 does not hold: for every capacity above 2^31 that fits `uint32_t`, `init` succeeds
with a table of no cells, and the first lookup or deletion of a key reads outside of it. -/
theorem map_init_violated {k : Kind K C} {v0 : V} {g : Bool × Bool} {cap lf : Nat}
    (hcap : 2147483648 < cap) (hcap2 : cap < 4294967296) (hlf : lf = 0 ∨ (25 ≤ lf ∧ lf ≤ 95)) :
    ∃ m, init k v0 true g cap lf = some m ∧ m.cap = 0 ∧
      (∀ key, key ≠ k.zero → get k v0 m key = .ub) ∧
      (∀ key, key ≠ k.zero → del k v0 m key = .ub) := by
  have ha : alloc k v0 true cap 1 = some (0, []) := by
    unfold alloc allocCap
    rw [Nat.div_one, if_neg (by omega), Nat.mul_one, Nat.mod_eq_of_lt hcap2, if_neg (by omega),
      nextPow2_big hcap hcap2]
    rfl
  refine ⟨_, by
    unfold init
    dsimp only
    rw [if_neg (by split <;> omega), if_neg (by omega), ha], rfl, ?_, ?_⟩
  · intro key hk
    simp [get, hk, probe, rd]
  · intro key hk
    simp [del, hk, probe, rd]

/-! ## C17 and the instances -/

/-- `sc_map_hash_32`, map/sc_map.c:341-344, and `sc_map_eq`: the map `32`. -/
def u32Kind : Kind Nat Nat := { zero := 0, cls := id, hash := fun a => a % W32, cached := false }

/-- `sc_map_hash_64`, map/sc_map.c:346-349. -/
def hash64 (a : Nat) : Nat := (a % W32) ^^^ ((a >>> 32) % W32)

/-- The maps `64`, `64v`, `64s`. -/
def u64Kind : Kind Nat Nat := { zero := 0, cls := id, hash := hash64, cached := false }

/-- The maps `int`, `intv`, `ints`, `ll`, `llv`, `lls`: the key is converted to `uint64_t`
before hashing. -/
def intKind : Kind Int Int :=
  { zero := 0, cls := id, hash := fun a => hash64 (a % (W64 : Int)).toNat, cached := false }

/-- The maps `str`, `sv`, `s64`, `sll` in a memory where the pointer `p` holds the string
`content p`; `NULL` is its own class. -/
def strKind (content : Nat → List Nat) : Kind Nat (Option (List Nat)) :=
  { zero := 0
    cls := fun p => if p = 0 then none else some (content p)
    hash := fun c => match c with | none => 0 | some s => murmurOf s
    cached := true }

theorem u32Kind_ok : ZeroOk u32Kind := fun _ h => h
theorem u64Kind_ok : ZeroOk u64Kind := fun _ h => h
theorem intKind_ok : ZeroOk intKind := fun _ h => h
theorem strKind_ok (content : Nat → List Nat) : ZeroOk (strKind content) := by
  intro p h
  by_cases hp : p = 0
  · exact hp
  · simp [strKind, hp] at h

/-- C17. `murmurhash` reads only the string and its terminator and depends only on its
bytes, wherever it is stored; the comparison of the map tells exactly whether the bytes are
equal. -/
theorem map_string_hash_and_eq {mem mem' : List Nat} {p p' q : Nat} {s t : List Nat}
    (hp : CStr mem p s) (hp' : CStr mem' p' s) (hq : CStr mem q t) :
    (∃ h, h < W32 ∧ murmur mem p = .ok h ∧ murmur mem' p' = .ok h) ∧
    streq mem p q = .ok (decide (s = t)) :=
  ⟨murmur_agree hp hp', streq_eq hp hq⟩

/-- C17. The hash and comparison the map model uses for string keys are the ones computed
by the C functions. -/
theorem map_string_kind_faithful {mem : List Nat} {content : Nat → List Nat}
    (hc : ∀ p, p ≠ 0 → CStr mem p (content p)) (p q : Nat) (hp : p ≠ 0) (hq : q ≠ 0) :
    murmur mem p = .ok ((strKind content).hash ((strKind content).cls p)) ∧
    streq mem p q = .ok (decide ((strKind content).cls p = (strKind content).cls q)) := by
  constructor
  · rw [murmur_eq (hc p hp)]; simp [strKind, hp]
  · rw [streq_eq (hc p hp) (hc q hq)]; simp [strKind, hp, hq]

/-- C17. In a string-keyed map two pointers to equal strings are the same key: after every
history they look up the same value; and the map is a finite map on string contents. -/
theorem map_string_keys_by_content {content : Nat → List Nat} {v0 : V} {m : Map Nat V}
    (hm : Started (strKind content) v0 m) (ops : List (Op Nat V)) :
    ∃ m' outs f, run (strKind content) v0 m ops = .ok (m', outs) ∧
      Spec.Run (fun p => if p = 0 then none else some (content p)) v0 Spec.empty ops outs f ∧
      Observes (strKind content) v0 m' f ∧
      ∀ p q, p ≠ 0 → q ≠ 0 → content p = content q →
        get (strKind content) v0 m' p = get (strKind content) v0 m' q := by
  obtain ⟨al, g, cap, lf, hcap, hinit⟩ := hm
  have hz := strKind_ok content
  obtain ⟨m', outs, f, h1, h2, h3⟩ := run_spec (v0 := v0) hz ops (init_rep hinit hcap)
  refine ⟨m', outs, f, h1, h2, h3.observes hz, ?_⟩
  intro p q hp hq hpq
  rw [get_spec h3 hz, get_spec h3 hz]
  have : (strKind content).cls p = (strKind content).cls q := by simp [strKind, hp, hq, hpq]
  rw [this]

/-! ## Concrete cases

The hypotheses are met by a map of initial capacity 8 with keys 1, 9 and 17, which collide
in cell 1, the zero key, a deletion that shifts cells back, and an overwrite. -/

example : Started u32Kind 0 ((init u32Kind 0 true (false, false) 8 0).getD (emptyMap u32Kind 0)) :=
  ⟨true, (false, false), 8, 0, by decide, rfl⟩

example : (run u32Kind 0 ((init u32Kind 0 true (false, false) 8 0).getD (emptyMap u32Kind 0))
    [.put 1 10 true, .put 9 90 true, .put 17 170 true, .put 0 5 true, .del 1, .get 9, .get 17,
     .put 9 91 true, .get 1, .get 0]).bind (fun r => .ok (r.2.map fun o => (o.value, o.found))) =
    .ok [(some 0, false), (some 0, false), (some 0, false), (some 0, false), (some 10, true),
      (some 90, true), (some 170, true), (some 90, true), (some 0, false), (some 5, true)] := by
  decide

/-- Growth: seven puts into a map of eight cells with load factor 75. -/
example : (run u32Kind 0 (emptyMap u32Kind 0 |> fun m => { m with loadFac := 75 })
    ((List.range 7).map fun i => .put (i * 8) i true)).bind
      (fun r => .ok (r.1.cap, r.1.size)) = .ok (16, 7) := by
  decide

/-- A failed growth. -/
example : (run u32Kind 0 (emptyMap u32Kind 0 |> fun m => { m with loadFac := 75 })
    [.put 1 1 false, .get 1]).bind (fun r => .ok (r.2.map fun o => (o.found, o.oom))) =
    .ok [(false, true), (false, true)] := by
  decide

/-- Two copies of the string "ab" and the string "c". -/
example : CStr [97, 98, 0, 97, 98, 0, 99, 0] 0 [97, 98] ∧
    CStr [97, 98, 0, 97, 98, 0, 99, 0] 3 [97, 98] ∧
    CStr [97, 98, 0, 97, 98, 0, 99, 0] 6 [99] := by
  refine ⟨⟨?_, by decide, rfl⟩, ⟨?_, by decide, rfl⟩, ⟨?_, by decide, rfl⟩⟩ <;> decide

end Verif.Map
