import Verif.Cost.Map
import Verif.Cost.Heap
import Verif.Buf.Props

/-! # What an initial capacity is good for

"initial capacity" is what the headers call the number a map, heap or buffer is created with, map/sc_map.h:83, heap/sc_heap.h:62 and
buffer/sc_buf.h:74. A program that reserves room for `n` elements expects to add `n` of them even if no more memory can be had. -/

namespace Verif.Map

variable {K C V : Type} [DecidableEq K] [DecidableEq C]

/-- The load factor that a map is created with, map/sc_map.h:84 -/
def factor (lf : Nat) : Nat := if lf = 0 then 75 else lf

/-- What stays of a new map -/
structure Stays (L c : Nat) (m : Map K V) : Prop where
  lf : m.loadFac = L
  cap : c ≤ m.cap
  /-- if something was reserved, there is a table -/
  table : 1 ≤ c → m.static = false

theorem remap_stays {k : Kind K C} {v0 : V} {al b : Bool} {m m' : Map K V} {f : Spec.FMap C V} {L c : Nat} (r : Rep k m f)
    (hs : Stays L c m) (h : remap k v0 al m = .ok (m', b)) : Stays L c m' := by
  obtain ⟨-, hc⟩ := remap_cap r h
  have hcap : c ≤ m'.cap := by
    have := hs.cap
    omega
  unfold remap at h
  split at h
  · cases h; exact ⟨hs.lf, hcap, hs.table⟩
  · split at h
    · cases h; exact ⟨hs.lf, hcap, hs.table⟩
    · simp only at h
      split at h
      · cases h
      · obtain ⟨n, -, h⟩ := Res.bind_eq_ok.1 h
        cases h
        exact ⟨hs.lf, hcap, fun _ => rfl⟩

theorem put_stays {k : Kind K C} {v0 v x : V} {al : Bool} {m m' : Map K V} {f : Spec.FMap C V} {L c : Nat} (r : Rep k m f)
    (hs : Stays L c m) {key : K} (h : put k v0 al m key v = .ok (m', x)) : Stays L c m' := by
  have r0 : Rep k { m with oom := false } f := ⟨r.cap, r.len, r.good, r.size, r.mem1, r.lf, r.shape, r.bound, r.rep⟩
  unfold put at h
  simp only at h
  obtain ⟨⟨m₁, b⟩, hm, h⟩ := Res.bind_eq_ok.1 h
  have hs₁ : Stays L c m₁ := remap_stays r0 ⟨hs.lf, hs.cap, hs.table⟩ hm
  cases b with
  | false => cases h; exact ⟨hs₁.lf, hs₁.cap, hs₁.table⟩
  | true =>
    simp only [Bool.not_true, Bool.false_eq_true, if_false] at h
    split at h
    · cases h; exact ⟨hs₁.lf, hs₁.cap, hs₁.table⟩
    · obtain ⟨p, -, h⟩ := Res.bind_eq_ok.1 h
      obtain ⟨c, -, h⟩ := Res.bind_eq_ok.1 h
      obtain ⟨mm, -, h⟩ := Res.bind_eq_ok.1 h
      cases h; exact ⟨hs₁.lf, hs₁.cap, hs₁.table⟩

theorem del_stays {k : Kind K C} {v0 x : V} {m m' : Map K V} {L c : Nat} (hs : Stays L c m) {key : K}
    (h : del k v0 m key = .ok (m', x)) : Stays L c m' := by
  obtain ⟨h1, h2, h3⟩ := hs
  unfold del at h
  simp only at h
  split at h
  · cases h; exact ⟨h1, h2, h3⟩
  · obtain ⟨p, -, h⟩ := Res.bind_eq_ok.1 h
    obtain ⟨c, -, h⟩ := Res.bind_eq_ok.1 h
    split at h
    · cases h; exact ⟨h1, h2, h3⟩
    · obtain ⟨m₁, -, h⟩ := Res.bind_eq_ok.1 h
      obtain ⟨m₂, -, h⟩ := Res.bind_eq_ok.1 h
      cases h; exact ⟨h1, h2, h3⟩

theorem step_stays {k : Kind K C} {v0 : V} (hz : ZeroOk k) {m m' : Map K V} {f : Spec.FMap C V} {L c : Nat} (r : Rep k m f)
    (hs : Stays L c m) {op : Op K V} {o : Out V} (h : step k v0 m op = .ok (m', o)) : Stays L c m' := by
  cases op with
  | put key v al =>
    simp only [step] at h
    obtain ⟨⟨m₁, x⟩, hp, h⟩ := Res.bind_eq_ok.1 h
    cases h
    exact put_stays r hs hp
  | get key =>
    simp only [step] at h
    obtain ⟨⟨m₁, x⟩, hp, h⟩ := Res.bind_eq_ok.1 h
    cases h
    rw [get_spec r hz key] at hp
    cases hp
    exact ⟨hs.lf, hs.cap, hs.table⟩
  | del key =>
    simp only [step] at h
    obtain ⟨⟨m₁, x⟩, hp, h⟩ := Res.bind_eq_ok.1 h
    cases h
    exact del_stays hs hp
  | clear =>
    simp only [step] at h
    cases h
    unfold clear
    split <;> exact ⟨hs.lf, hs.cap, hs.table⟩

theorem run_stays {k : Kind K C} {v0 : V} (hz : ZeroOk k) (ops : List (Op K V)) : ∀ {m m' : Map K V} {f : Spec.FMap C V} {L c n : Nat}
    {outs : List (Out V)}, Rep k m f → Stays L c m → m.size ≤ n → run k v0 m ops = .ok (m', outs) →
    (∃ f', Rep k m' f') ∧ Stays L c m' ∧ m'.size ≤ n + puts ops := by
  induction ops with
  | nil =>
    intro m m' f L c n outs r hs hn h
    cases h
    exact ⟨⟨f, r⟩, hs, hn⟩
  | cons op ops ih =>
    intro m m' f L c n outs r hs hn h
    simp only [run] at h
    obtain ⟨⟨m₁, o⟩, h1, h⟩ := Res.bind_eq_ok.1 h
    obtain ⟨⟨m₂, os⟩, h2, h⟩ := Res.bind_eq_ok.1 h
    cases h
    obtain ⟨⟨f', r'⟩, hsz, -⟩ := step_block hz r h1
    obtain ⟨h3, h4, h5⟩ := ih r' (step_stays hz r hs h1) (n := n + puts [op]) (by omega) h2
    refine ⟨h3, h4, ?_⟩
    have := puts_cons op ops
    simp only at *
    omega

theorem init_stays {k : Kind K C} {v0 : V} (hz : ZeroOk k) {al : Bool} {g : Bool × Bool} {cap lf : Nat} {m : Map K V}
    (h : init k v0 al g cap lf = some m) (hcap : cap ≤ 2147483648) : Stays (factor lf) cap m ∧ m.size = 0 := by
  have hc := (map_init_partial h hcap hz []).1
  unfold init at h
  unfold factor
  simp only at h
  generalize (if lf = 0 then 75 else lf) = F at *
  split at h
  · cases h
  · split at h
    · next h0 =>
      cases h
      exact ⟨⟨rfl, hc, fun h => by omega⟩, rfl⟩
    · split at h
      · cases h
      · cases h
        exact ⟨⟨rfl, hc, fun _ => rfl⟩, rfl⟩

/-- **C124.** A map never has more elements than the load factor it was created with allows for its table: with a factor of 75, 100 cells are
there for 75 elements. -/
theorem map_load {k : Kind K C} {v0 : V} (hz : ZeroOk k) {al : Bool} {g : Bool × Bool} {cap lf : Nat} {m m' : Map K V}
    (h : init k v0 al g cap lf = some m) (hcap : cap ≤ 2147483648) {ops : List (Op K V)} {outs : List (Out V)}
    (hr : run k v0 m ops = .ok (m', outs)) : 100 * m'.size ≤ factor lf * m'.mem.length := by
  obtain ⟨hs, h0⟩ := init_stays hz h hcap
  obtain ⟨⟨f', r⟩, hs', -⟩ := run_stays hz ops (init_rep h hcap) hs (Nat.le_of_eq h0) hr
  have hb := r.bound
  rw [r.len]
  rcases r.shape with ⟨_, hc, h1⟩ | ⟨_, hc, h1⟩
  · omega
  · rw [h1, hs'.lf] at hb
    unfold remapOf at hb
    rw [Nat.mul_comm (factor lf)]
    omega

/-- A put that does not need memory does not fail. -/
theorem put_roomy {k : Kind K C} {v0 v x : V} {al : Bool} {m m' : Map K V} {key : K} (hr : m.size < m.remap)
    (h : put k v0 al m key v = .ok (m', x)) : m'.oom = false := by
  unfold put at h
  simp only at h
  obtain ⟨⟨m₁, b⟩, hm, h⟩ := Res.bind_eq_ok.1 h
  unfold remap at hm
  rw [if_pos hr] at hm
  cases hm
  simp only [Bool.not_true, Bool.false_eq_true, if_false] at h
  split at h
  · cases h; rfl
  · obtain ⟨p, -, h⟩ := Res.bind_eq_ok.1 h
    obtain ⟨c, -, h⟩ := Res.bind_eq_ok.1 h
    obtain ⟨mm, -, h⟩ := Res.bind_eq_ok.1 h
    cases h; rfl

/-- **C124 (part).** In a map with the initial capacity `cap`, as many puts succeed as the load factor allows for `cap` cells, whatever the
allocator does and whatever is done between them. Missing: `cap` puts. -/
theorem map_reserved_partial {k : Kind K C} {v0 : V} (hz : ZeroOk k) {al : Bool} {g : Bool × Bool} {cap lf : Nat} {m m₁ m₂ : Map K V}
    (h : init k v0 al g cap lf = some m) (hcap : cap ≤ 2147483648) {ops : List (Op K V)} {outs : List (Out V)}
    (hr : run k v0 m ops = .ok (m₁, outs)) (hn : puts ops < cap * factor lf / 100) {al' : Bool} {key : K} {v x : V}
    (hp : put k v0 al' m₁ key v = .ok (m₂, x)) : m₂.oom = false := by
  obtain ⟨hs, h0⟩ := init_stays hz h hcap
  obtain ⟨⟨f', r⟩, hs', hsz⟩ := run_stays hz ops (init_rep h hcap) hs (Nat.le_of_eq h0) hr
  refine put_roomy ?_ hp
  have hc1 : 1 ≤ cap := by
    refine Nat.one_le_iff_ne_zero.2 fun hc => ?_
    rw [hc, Nat.zero_mul] at hn
    omega
  rcases r.shape with ⟨ht, -, -⟩ | ⟨-, -, h1⟩
  · rw [hs'.table hc1] at ht
    cases ht
  · rw [h1, hs'.lf]
    unfold remapOf
    have := Nat.mul_le_mul_right (factor lf) hs'.cap
    omega

/-- **C124 is violated** by maps: one with the initial capacity 8 takes six elements; the seventh needs memory, and is not stored if there is
none. -/
theorem map_reserved_violated : ∃ m m₁ outs m₂, init u32Kind 0 true (false, false) 8 0 = some m ∧
    run u32Kind 0 m ((List.range 6).map fun i => .put (i + 1) 5 false) = .ok (m₁, outs) ∧ m₁.size = 6 ∧
    put u32Kind 0 false m₁ 7 5 = .ok (m₂, 0) ∧ m₂.oom = true ∧ m₂.size = 6 := by
  refine ⟨_, _, _, _, rfl, rfl, rfl, rfl, rfl, rfl⟩

end Verif.Map

namespace Verif.Heap

variable {δ : Type}

/-- A history of calls on a heap with `c` elements never has more than `n` of them in it. -/
def Within (n : Nat) : Nat → List (Op δ) → Prop
  | c, [] => c ≤ n
  | c, .add _ _ _ :: ops => c < n ∧ Within n (c + 1) ops
  | c, .pop :: ops => Within n (c - 1) ops
  | c, .peek :: ops => Within n c ops
  | _, .clear :: ops => Within n 0 ops

theorem add_roomy {h : Heap δ} (w : WF h) (al : Alloc (Data δ)) (key : Int) (data : δ) (hr : h.size + 1 < h.cap) (hc : h.cap ≤ heapMax) :
    ∃ h', add al h key data = .ok (h', true) ∧ WF h' ∧ h'.size = h.size + 1 ∧ h'.cap = h.cap ∧
      (contents h').Perm (⟨key, data⟩ :: contents h) := by
  unfold heapMax at hc
  obtain ⟨h', h1, h2, h3, h4, h5⟩ := add_spec w al key data (fun h => by omega) (fun h => by omega) (by omega)
  have h6 : h'.cap = h.cap := by
    have hadd : add64 h.size 1 = h.size + 1 := by unfold add64; omega
    unfold add at h1
    simp only [hadd] at h1
    rw [if_neg (by omega)] at h1
    obtain ⟨⟨m, i⟩, -, h1⟩ := Res.bind_eq_ok.1 h1
    obtain ⟨m', -, h1⟩ := Res.bind_eq_ok.1 h1
    cases h1
    rfl
  exact ⟨h', h1, h2, h3, h6, h5⟩

theorem run_roomy (ops : List (Op δ)) : ∀ {h : Heap δ} {n : Nat}, WF h → n + 1 = h.cap → h.cap ≤ heapMax → Within n h.size ops →
    ∃ h' os, run h ops = .ok (h', os) ∧ WF h' ∧ Spec.Run (contents h) ops os (contents h') ∧ h'.cap = h.cap := by
  induction ops with
  | nil => intro h n w _ _ _; exact ⟨h, [], rfl, w, .nil _, rfl⟩
  | cons op ops ih =>
    intro h n w hn hc hin
    have hb : h.cap < 9223372036854775808 := by unfold heapMax at hc; omega
    have key : ∃ h' o, step h op = .ok (h', o) ∧ WF h' ∧ Spec.Step (contents h) op o (contents h') ∧ h'.cap = h.cap ∧ Within n h'.size ops := by
      cases op with
      | add k d al =>
        obtain ⟨h1, h2⟩ := hin
        obtain ⟨h', ha, hw, hsz, hcap, hp⟩ := add_roomy w al k d (by omega) hc
        exact ⟨h', .added true, by simp [step, ha], hw, .add _ _ _ _ _ hp, hcap, hsz ▸ h2⟩
      | pop =>
        have hin : Within n (h.size - 1) ops := hin
        by_cases h0 : h.size = 0
        · have hc0 : contents h = [] := by simp [contents, h0]
          refine ⟨h, .elem none, by simp [step, pop, h0], w, ?_, rfl, ?_⟩
          · rw [hc0]; exact .pop_empty
          · rw [h0] at hin ⊢; exact hin
        · have := w.room
          obtain ⟨h', e, hpop, hw, hsz, hcap, hm, hp⟩ := pop_spec w h0 (by omega)
          refine ⟨h', .elem (some e), by simp [step, hpop], hw, .pop _ _ _ hm hp, hcap, ?_⟩
          rw [show h'.size = h.size - 1 by omega]
          exact hin
      | peek =>
        by_cases h0 : h.size = 0
        · have hc0 : contents h = [] := by simp [contents, h0]
          refine ⟨h, .elem none, by simp [step, peek, h0], w, ?_, rfl, hin⟩
          rw [hc0]; exact .peek_empty
        · obtain ⟨e, hpeek, hm⟩ := peek_spec w h0
          exact ⟨h, .elem (some e), by simp [step, hpeek], w, .peek _ _ hm, rfl, hin⟩
      | clear =>
        refine ⟨clear h, .unit, rfl, ⟨Or.inl rfl, w.cap, ?_⟩, ?_, rfl, hin⟩
        · intro j hj hjn; simp [clear] at hjn; omega
        · have : contents (clear h) = [] := by simp [contents, clear]
          rw [this]; exact .clear _
    obtain ⟨h1, o, hst, hw1, hs1, hc1, hin1⟩ := key
    obtain ⟨h2, os, hr, hw2, hs2, hc2⟩ := ih hw1 (hc1 ▸ hn) (hc1 ▸ hc) hin1
    exact ⟨h2, o :: os, by simp [run, hst, hr], hw2, .cons hs1 hs2, hc2.trans hc1⟩

/-- **C124 (part).** A heap with the initial capacity `n + 1` works as a priority queue as long as it never has more than `n` elements,
whatever the allocator does. Missing: `n + 1` elements. -/
theorem heap_reserved_partial {n : Nat} {fill : Nat → Data δ} (hn : n + 1 ≤ heapMax) {ops : List (Op δ)} (hin : Within n 0 ops) :
    ∃ h os s, (init (n + 1) (some fill)).2 = true ∧ run (init (n + 1) (some fill)).1 ops = .ok (h, os) ∧ Spec.Run [] ops os s ∧
      h.size = s.length ∧ h.cap = n + 1 := by
  have e : init (n + 1) (some fill) =
      ({ cap := n + 1, size := 0, elems := resized [] (mul64 (n + 1) esz / esz) fill }, true) := by
    unfold init
    simp only
    rw [if_neg (by omega), if_neg (by omega)]
  have w := wf_init (n + 1) (some fill)
  rw [e] at w ⊢
  obtain ⟨h, os, h1, hw, h2, h3⟩ := run_roomy ops w rfl hn hin
  have hc0 : contents ({ cap := n + 1, size := 0, elems := resized [] (mul64 (n + 1) esz / esz) fill } : Heap δ) = [] := by simp [contents]
  rw [hc0] at h2
  exact ⟨h, os, contents h, rfl, h1, h2, (length_contents hw).symm, h3⟩

theorem within_adds {k : Int} {d : δ} {al : Alloc (Data δ)} (n : Nat) : ∀ (j c : Nat), c + j ≤ n → Within n c (List.replicate j (.add k d al)) := by
  intro j
  induction j with
  | zero => intro c h; exact h
  | succ j ih => intro c h; exact ⟨by omega, ih (c + 1) (by omega)⟩

theorem adds_length {k : Int} {d : δ} {al : Alloc (Data δ)} : ∀ (j : Nat) {s s' : List (Data δ)} {os : List (Out δ)},
    Spec.Run s (List.replicate j (.add k d al)) os s' → s'.length = s.length + j := by
  intro j
  induction j with
  | zero => intro s s' os h; cases h; rfl
  | succ j ih =>
    intro s s' os h
    cases h with
    | cons h1 h2 =>
      cases h1 with
      | add _ _ _ _ _ hp =>
        have h3 := ih h2
        have h4 := hp.length_eq
        simp only [List.length_cons] at h4
        omega

/-- **C124 is violated** by heaps of every initial capacity `n + 1`: `n` elements can be added without memory, and the next one is not stored if
there is none. -/
theorem heap_reserved_violated {n : Nat} {fill : Nat → Data δ} (hn : n + 1 ≤ heapMax) (key : Int) (data : δ) :
    ∃ h os h', run (init (n + 1) (some fill)).1 (List.replicate n (.add key data none)) = .ok (h, os) ∧ h.size = n ∧
      add none h key data = .ok (h', false) := by
  obtain ⟨h, os, s, -, h1, h2, h3, h4⟩ := heap_reserved_partial (fill := fill) hn (within_adds (k := key) (d := data) (al := none) n n 0 (by omega))
  have h5 := adds_length n h2
  simp only [List.length_nil, Nat.zero_add] at h5
  have h6 : h.size = n := h3.trans h5
  refine ⟨h, os, { h with size := h.size + 1 }, h1, h6, ?_⟩
  unfold heapMax at hn
  have hadd : add64 h.size 1 = h.size + 1 := by unfold add64; omega
  unfold add
  simp only [hadd]
  rw [if_pos (by omega)]
  split <;> rfl

/-- A heap with the initial capacity 1 cannot take one. -/
example : ∃ h', add none (init 1 (some fun _ => (⟨0, 0⟩ : Data Nat))).1 5 6 = .ok (h', false) := ⟨_, rfl⟩

/-- Two elements at a time in a heap with the initial capacity 3, without memory -/
example : Within 2 0 [.add 1 (2 : Nat) none, .add 0 3 none, .pop, .add 7 8 none] := by simp [Within]

end Verif.Heap

namespace Verif.Buf

/-- **C124.** In a buffer with the initial capacity `cap` a message of `cap` bytes can be written, whatever the allocator does. -/
theorem buf_reserved {cap : Nat} {b : B} (h : init true cap = (true, b)) (al : Nat → Nat → Alloc UInt8) {vs : List Val}
    (hv : ∀ v ∈ vs, v.Ok) (hl : (vs.flatMap Val.encode).length ≤ cap) :
    ∃ b', putAll al b 0 vs = .ok b' ∧ b'.err = 0 ∧ written b' = vs.flatMap Val.encode := by
  have r := (Start.init h).inRange
  have e : b.err = 0 ∧ b.cap = cap ∧ b.wpos = 0 ∧ b.rpos = 0 := by
    unfold init at h
    split at h
    · split at h
      · cases h; exact ⟨rfl, rfl, rfl, rfl⟩
      · cases h
    · cases h; exact ⟨rfl, rfl, rfl, rfl⟩
  obtain ⟨e1, e2, e3, e4⟩ := e
  obtain ⟨b', h1, h2, h3⟩ := buf_message_round_trip al r e1 (e4.trans e3.symm) vs hv
  have h4 := h3 (by omega)
  refine ⟨b', h1, h4, ?_⟩
  rw [(h2 h4).1]
  simp [written, e3, slice]

/-- Three bytes and a byte in a buffer with the initial capacity 4 -/
example : ∃ b', putAll (fun _ _ => none) (wrap (List.replicate 4 0) 4 false false) 0 [.int .w8 7, .int .w8 8, .int .w16 300] = .ok b' ∧
    b'.err = 0 ∧ written b' = [7, 8, 44, 1] :=
  buf_reserved (cap := 4) rfl _ (by intro v hv; simp at hv; rcases hv with rfl | rfl | rfl <;> simp [Val.Ok, Width.bytes]) (by decide)

end Verif.Buf
