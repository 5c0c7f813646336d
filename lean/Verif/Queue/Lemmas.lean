import Verif.Queue.Spec

/-! # Helper lemmas for the queue model -/

namespace Verif.Queue

/-- The queue `q` stands for the list `l`: the ring has a power-of-two capacity, `l` is
shorter than it, and element `i` of `l` is `i` cells after `first`. -/
structure Rep (q : Q α) (l : List α) : Prop where
  pow : ∃ k, q.cap = 2 ^ k ∧ 3 ≤ k ∧ k ≤ 63
  len : q.elems.length = q.cap
  first_lt : q.first < q.cap
  short : l.length < q.cap
  last_eq : q.last = (q.first + l.length) % q.cap
  cell : ∀ i (h : i < l.length), q.elems[(q.first + i) % q.cap]? = some l[i]

theorem mod_of_lt_two_mul {x c : Nat} (h : x < 2 * c) :
    x % c = if x < c then x else x - c := by
  split
  · next h' => exact Nat.mod_eq_of_lt h'
  · next h' => rw [Nat.mod_eq_sub_mod (by omega), Nat.mod_eq_of_lt (by omega)]

theorem pow_le_63 {k : Nat} (h : k ≤ 63) : 2 ^ k ≤ 9223372036854775808 :=
  Nat.le_trans (Nat.pow_le_pow_right (by omega) h) (by decide)

theorem mask_eq {c x : Nat} (hc : ∃ k, c = 2 ^ k ∧ 3 ≤ k ∧ k ≤ 63) :
    x &&& sub64 c 1 = x % c := by
  obtain ⟨k, rfl, _, hk⟩ := hc
  have h1 : 0 < 2 ^ k := Nat.two_pow_pos k
  have h2 := pow_le_63 hk
  have : sub64 (2 ^ k) 1 = 2 ^ k - 1 := by unfold sub64; omega
  rw [this, Nat.and_two_pow_sub_one_eq_mod]

theorem w64_eq {c : Nat} (hc : ∃ k, c = 2 ^ k ∧ 3 ≤ k ∧ k ≤ 63) : ∃ m, W64 = c * (m + 1) := by
  obtain ⟨k, rfl, _, hk⟩ := hc
  refine ⟨2 ^ (64 - k) - 1, ?_⟩
  have : 2 ^ (64 - k) - 1 + 1 = 2 ^ (64 - k) := Nat.sub_add_cancel (Nat.two_pow_pos _)
  rw [this, ← Nat.pow_add, show k + (64 - k) = 64 by omega]

theorem add64_mask {c a b : Nat} (hc : ∃ k, c = 2 ^ k ∧ 3 ≤ k ∧ k ≤ 63) :
    add64 a b &&& sub64 c 1 = (a + b) % c := by
  rw [mask_eq hc]
  obtain ⟨m, hm⟩ := w64_eq hc
  unfold add64
  rw [hm, Nat.mod_mul_right_mod]

theorem sub64_mask {c a b : Nat} (hc : ∃ k, c = 2 ^ k ∧ 3 ≤ k ∧ k ≤ 63) (hb : b ≤ c) :
    sub64 a b &&& sub64 c 1 = (a + c - b) % c := by
  rw [mask_eq hc]
  obtain ⟨m, hm⟩ := w64_eq hc
  unfold sub64
  rw [hm, Nat.mod_mul_right_mod, Nat.mul_add, Nat.mul_one]
  have : a + (c * m + c) - b = (a + c - b) + c * m := by omega
  rw [this, Nat.add_mul_mod_self_left]

theorem Rep.pos {q : Q α} {l : List α} (r : Rep q l) : 8 ≤ q.cap ∧ q.cap ≤ 9223372036854775808 := by
  obtain ⟨k, hk, h3, h63⟩ := r.pow
  rw [hk]
  exact ⟨Nat.le_trans (by decide) (Nat.pow_le_pow_right (by omega) h3), pow_le_63 h63⟩

theorem Rep.size {q : Q α} {l : List α} (r : Rep q l) : size q = l.length := by
  have := r.first_lt
  have := r.short
  unfold Queue.size
  rw [sub64_mask r.pow (by omega), r.last_eq,
    mod_of_lt_two_mul (x := q.first + l.length) (by omega)]
  split
  · rw [mod_of_lt_two_mul (by omega), if_neg (by omega)]; omega
  · rw [mod_of_lt_two_mul (by omega), if_pos (by omega)]; omega

theorem Rep.at {q : Q α} {l : List α} (r : Rep q l) {i : Nat} (h : i < l.length) :
    «at» q i = .ok l[i] := by
  unfold Queue.at
  rw [add64_mask r.pow, rd_eq_ok]
  exact r.cell i h

theorem Rep.empty {q : Q α} {l : List α} (r : Rep q l) : empty q = l.isEmpty := by
  have := r.first_lt
  have := r.short
  unfold Queue.empty
  rw [r.last_eq, mod_of_lt_two_mul (by omega)]
  rw [Bool.eq_iff_iff]
  simp only [beq_iff_eq, List.isEmpty_iff_length_eq_zero]
  split <;> omega

theorem Rep.peekFirst {q : Q α} {x : α} {l : List α} (r : Rep q (x :: l)) :
    peekFirst q = .ok x := by
  unfold Queue.peekFirst
  rw [rd_eq_ok]
  have := r.cell 0 (by simp)
  rw [Nat.add_zero, Nat.mod_eq_of_lt r.first_lt] at this
  simpa using this

theorem Rep.last_pred {q : Q α} {x : α} {l : List α} (r : Rep q (l ++ [x])) :
    sub64 q.last 1 &&& sub64 q.cap 1 = (q.first + l.length) % q.cap := by
  have h1 := r.first_lt
  have h2 := r.short
  have h3 := r.pos
  simp only [List.length_append, List.length_singleton] at h2
  rw [sub64_mask r.pow (by omega), r.last_eq]
  simp only [List.length_append, List.length_singleton]
  rw [mod_of_lt_two_mul (x := q.first + (l.length + 1)) (by omega),
    mod_of_lt_two_mul (x := q.first + l.length) (by omega)]
  split
  · rw [mod_of_lt_two_mul (by omega), if_neg (by omega), if_pos (by omega)]; omega
  · rw [mod_of_lt_two_mul (by omega)]
    split
    · rw [if_pos (by omega)]; omega
    · rw [if_neg (by omega)]; omega

theorem Rep.peekLast {q : Q α} {x : α} {l : List α} (r : Rep q (l ++ [x])) :
    peekLast q = .ok x := by
  unfold Queue.peekLast
  rw [r.last_pred, rd_eq_ok]
  have := r.cell l.length (by simp)
  simpa using this

theorem Rep.delLast {q : Q α} {x : α} {l : List α} (r : Rep q (l ++ [x])) :
    ∃ q', delLast q = .ok (q', x) ∧ Rep q' l ∧ q'.oom = q.oom := by
  unfold Queue.delLast
  have h := r.peekLast
  unfold Queue.peekLast at h
  simp only [h]
  refine ⟨_, rfl, ?_, rfl⟩
  refine ⟨r.pow, r.len, r.first_lt, ?_, ?_, ?_⟩
  · have := r.short
    simp at this ⊢; omega
  · simpa using r.last_pred
  · intro i h
    have := r.cell i (by simp; omega)
    simpa [List.getElem_append_left h] using this

theorem Rep.delFirst {q : Q α} {x : α} {l : List α} (r : Rep q (x :: l)) :
    ∃ q', delFirst q = .ok (q', x) ∧ Rep q' l ∧ q'.oom = q.oom := by
  unfold Queue.delFirst
  have h := r.peekFirst
  unfold Queue.peekFirst at h
  have hf := r.first_lt
  have hs := r.short
  have hp := r.pos
  simp only [List.length_cons] at hs
  simp only [h, add64_mask r.pow]
  refine ⟨_, rfl, ?_, rfl⟩
  refine ⟨r.pow, r.len, Nat.mod_lt _ (by omega), by simp; omega, ?_, ?_⟩
  · have := r.last_eq
    simp only [List.length_cons] at this ⊢
    rw [this, Nat.mod_add_mod]
    congr 1; omega
  · intro i h
    have := r.cell (i + 1) (by simpa using h)
    simp only [List.getElem_cons_succ] at this
    simp only [Nat.mod_add_mod]
    rw [← this]
    congr 2; omega

theorem slice_ok {m : List α} {off n : Nat} (h : off + n ≤ m.length) :
    slice m off n = .ok ((m.drop off).take n) := by simp [slice, h]

/-- What `expand` does: nothing if there is room; on success the ring starts at 0 with
twice the capacity; on failure only the flag changes. -/
theorem expand_cases {q : Q α} {l : List α} (r : Rep q l) (al : Alloc α) :
    (expand al q = .ok q ∧ l.length + 1 < q.cap) ∨
    (expand al q = .ok { q with oom := true } ∧ l.length + 1 = q.cap ∧
      (al = none ∨ q.cap = 9223372036854775808)) ∨
    (∃ q', expand al q = .ok q' ∧ l.length + 1 = q.cap ∧ Rep q' l ∧ q'.oom = false ∧
      l.length + 1 < q'.cap ∧ al ≠ none) := by
  have hf := r.first_lt
  have hs := r.short
  have hp := r.pos
  have hlen := r.len
  have hpos : add64 q.last 1 &&& sub64 q.cap 1 = (q.first + l.length + 1) % q.cap := by
    rw [add64_mask r.pow, r.last_eq, Nat.mod_add_mod]
  have hfull : (q.first + l.length + 1) % q.cap = q.first ↔ l.length + 1 = q.cap := by
    rw [mod_of_lt_two_mul (by omega)]
    split <;> omega
  unfold expand
  simp only [hpos, hfull]
  by_cases h : l.length + 1 = q.cap
  · simp only [if_pos h]
    by_cases hm : q.cap > SIZE_MAX / 2
    · simp only [if_pos hm]
      exact Or.inr (Or.inl ⟨trivial, h, Or.inr (by omega)⟩)
    · simp only [if_neg hm]
      cases al with
      | none => exact Or.inr (Or.inl ⟨rfl, h, Or.inl rfl⟩)
      | some fill =>
        right; right
        have hmul : mul64 q.cap 2 = q.cap * 2 := by unfold mul64; omega
        have hsub : sub64 q.cap q.first = q.cap - q.first := by unfold sub64; omega
        have hsub1 : sub64 q.cap 1 = q.cap - 1 := by unfold sub64; omega
        simp only [hmul, hsub, hsub1]
        rw [slice_ok (by omega)]
        simp only [Res.ok_bind]
        have hl1 : ((q.elems.drop q.first).take (q.cap - q.first)).length = q.cap - q.first := by
          simp; omega
        rw [blit, if_pos (by simp [fresh]; omega)]
        simp only [Res.ok_bind]
        rw [slice_ok (by omega)]
        simp only [Res.ok_bind]
        rw [blit, if_pos (by simp [fresh]; omega)]
        simp only [Res.ok_bind, Res.pure_eq]
        refine ⟨_, rfl, h, ?_, rfl, by simp; omega, by simp⟩
        refine ⟨?_, ?_, ?_, ?_, ?_, ?_⟩
        · obtain ⟨k, hk, h3, h63⟩ := r.pow
          refine ⟨k + 1, by simp only [hk, Nat.pow_succ], by omega, ?_⟩
          rcases Nat.lt_or_ge k 63 with h' | h'
          · omega
          · have hk63 : k = 63 := by omega
            rw [hk63] at hk
            omega
        · simp [fresh]; omega
        · simp; omega
        · simp; omega
        · simp only [Nat.zero_add]
          rw [Nat.mod_eq_of_lt (by omega)]; omega
        · intro i hi
          have hc := r.cell i hi
          simp only [Nat.zero_add]
          rw [Nat.mod_eq_of_lt (by omega)]
          rw [mod_of_lt_two_mul (by omega)] at hc
          rw [← hc]
          simp only [fresh]
          split <;> grind
  · simp only [if_neg h]
    left
    exact ⟨trivial, by omega⟩

theorem Rep.push_last {q : Q α} {l : List α} (r : Rep q l) (hroom : l.length + 1 < q.cap)
    (x : α) : ∃ m, wr q.elems q.last x = .ok m ∧
      Rep { q with oom := false, elems := m, last := add64 q.last 1 &&& sub64 q.cap 1 }
        (l ++ [x]) := by
  have hf := r.first_lt
  have hs := r.short
  have hp := r.pos
  have hlast : q.last < q.cap := by rw [r.last_eq]; exact Nat.mod_lt _ (by omega)
  refine ⟨_, wr_lt (by rw [r.len]; exact hlast), ?_⟩
  refine ⟨r.pow, by simp [r.len], hf, by simpa using hroom, ?_, ?_⟩
  · simp only [add64_mask r.pow, r.last_eq, Nat.mod_add_mod]
    simp [Nat.add_assoc]
  · intro i hi
    simp only [List.length_append, List.length_singleton] at hi
    simp only
    by_cases h : i < l.length
    · have hne : q.last ≠ (q.first + i) % q.cap := by
        rw [r.last_eq, mod_of_lt_two_mul (by omega), mod_of_lt_two_mul (by omega)]
        split <;> split <;> omega
      rw [List.getElem?_set_ne hne, List.getElem_append_left h]
      exact r.cell i h
    · have hi' : i = l.length := by omega
      subst hi'
      rw [← r.last_eq, List.getElem?_set_self (by rw [r.len]; exact hlast)]
      simp

theorem Rep.push_first {q : Q α} {l : List α} (r : Rep q l) (hroom : l.length + 1 < q.cap)
    (x : α) : ∃ m, wr q.elems (sub64 q.first 1 &&& sub64 q.cap 1) x = .ok m ∧
      Rep { q with oom := false, elems := m, first := sub64 q.first 1 &&& sub64 q.cap 1 }
        (x :: l) := by
  have hf := r.first_lt
  have hs := r.short
  have hp := r.pos
  rw [sub64_mask r.pow (by omega)]
  have hlt : (q.first + q.cap - 1) % q.cap < q.cap := Nat.mod_lt _ (by omega)
  refine ⟨_, wr_lt (by rw [r.len]; exact hlt), ?_⟩
  have hfirst : (q.first + q.cap - 1) % q.cap = if q.first = 0 then q.cap - 1 else q.first - 1 := by
    rw [mod_of_lt_two_mul (by omega)]
    split <;> split <;> omega
  refine ⟨r.pow, by simp [r.len], hlt, by simpa using hroom, ?_, ?_⟩
  · simp only [r.last_eq, hfirst, List.length_cons]
    split
    · rw [mod_of_lt_two_mul (by omega), mod_of_lt_two_mul (by omega)]
      split <;> split <;> omega
    · congr 1; omega
  · intro i hi
    simp only [List.length_cons] at hi
    simp only
    cases i with
    | zero =>
      rw [Nat.add_zero, Nat.mod_eq_of_lt hlt, List.getElem?_set_self (by rw [r.len]; exact hlt)]
      simp
    | succ i =>
      have he : ((q.first + q.cap - 1) % q.cap + (i + 1)) % q.cap = (q.first + i) % q.cap := by
        rw [Nat.mod_add_mod]
        have : q.first + q.cap - 1 + (i + 1) = q.first + i + q.cap := by omega
        rw [this, Nat.add_mod_right]
      rw [he]
      have hne : (q.first + q.cap - 1) % q.cap ≠ (q.first + i) % q.cap := by
        rw [hfirst, mod_of_lt_two_mul (x := q.first + i) (by omega)]
        split <;> split <;> omega
      rw [List.getElem?_set_ne hne]
      simpa using r.cell i (by omega)

theorem Rep.with_oom {q : Q α} {l : List α} (r : Rep q l) (b : Bool) :
    Rep { q with oom := b } l := ⟨r.pow, r.len, r.first_lt, r.short, r.last_eq, r.cell⟩

theorem with_oom_self {q : Q α} {b : Bool} (h : q.oom = b) : { q with oom := b } = q := by
  cases q; simp_all

/-- What `add_last` does. The failure case: the flag was already set although there is
room, or the ring is full and cannot grow. -/
theorem addLast_cases {q : Q α} {l : List α} (r : Rep q l) (al : Alloc α) (x : α) :
    (∃ q', addLast al q x = .ok q' ∧ Rep q' (l ++ [x]) ∧ q'.oom = false) ∨
    (addLast al q x = .ok { q with oom := true } ∧
      ((q.oom = true ∧ l.length + 1 < q.cap) ∨
       (l.length + 1 = q.cap ∧ (al = none ∨ q.cap = 9223372036854775808)))) := by
  unfold addLast
  rcases expand_cases r al with ⟨h, hroom⟩ | ⟨h, hfull, hw⟩ | ⟨q', h, hfull, r', ho, hroom, _⟩
  · rw [h]
    simp only [Res.ok_bind]
    by_cases ho : q.oom = true
    · right
      simp only [ho, if_true]
      exact ⟨by rw [with_oom_self ho]; rfl, Or.inl ⟨trivial, hroom⟩⟩
    · left
      obtain ⟨m, hm, hr⟩ := r.push_last hroom x
      simp only [ho, hm]
      exact ⟨_, rfl, hr, rfl⟩
  · right
    rw [h]
    exact ⟨rfl, Or.inr ⟨hfull, hw⟩⟩
  · left
    rw [h]
    obtain ⟨m, hm, hr⟩ := r'.push_last hroom x
    simp only [Res.ok_bind, ho, hm]
    exact ⟨_, rfl, hr, rfl⟩

/-- What `add_first` does. -/
theorem addFirst_cases {q : Q α} {l : List α} (r : Rep q l) (al : Alloc α) (x : α) :
    (∃ q', addFirst al q x = .ok q' ∧ Rep q' (x :: l) ∧ q'.oom = false) ∨
    (addFirst al q x = .ok { q with oom := true } ∧
      ((q.oom = true ∧ l.length + 1 < q.cap) ∨
       (l.length + 1 = q.cap ∧ (al = none ∨ q.cap = 9223372036854775808)))) := by
  unfold addFirst
  rcases expand_cases r al with ⟨h, hroom⟩ | ⟨h, hfull, hw⟩ | ⟨q', h, hfull, r', ho, hroom, _⟩
  · rw [h]
    simp only [Res.ok_bind]
    by_cases ho : q.oom = true
    · right
      simp only [ho, if_true]
      exact ⟨by rw [with_oom_self ho]; rfl, Or.inl ⟨trivial, hroom⟩⟩
    · left
      obtain ⟨m, hm, hr⟩ := r.push_first hroom x
      simp only [ho, hm]
      exact ⟨_, rfl, hr, rfl⟩
  · right
    rw [h]
    exact ⟨rfl, Or.inr ⟨hfull, hw⟩⟩
  · left
    rw [h]
    obtain ⟨m, hm, hr⟩ := r'.push_first hroom x
    simp only [Res.ok_bind, ho, hm]
    exact ⟨_, rfl, hr, rfl⟩

theorem Rep.clear {q : Q α} {l : List α} (r : Rep q l) : Rep (clear q) [] := by
  have := r.pos
  refine ⟨r.pow, r.len, by simp [Queue.clear]; omega, by simp [Queue.clear]; omega, ?_, by simp⟩
  simp [Queue.clear]

theorem rep_init (fill : Nat → α) : Rep (init (some fill)) [] :=
  ⟨⟨3, by simp [init], by omega, by omega⟩, by simp [init, fresh], by simp [init],
    by simp [init], by simp [init], by simp⟩

/-- One call on a represented queue: a step of the specification, or a delete on an empty
queue. -/
theorem step_cases {q : Q α} {l : List α} (r : Rep q l) (op : Op α) :
    (∃ q' out l', step q op = .ok (q', out) ∧ Rep q' l' ∧
      Spec.Step ⟨l, q.oom⟩ op out ⟨l', q'.oom⟩) ∨
    ¬ Spec.Allowed (⟨l, q.oom⟩ : Spec.State α) op := by
  cases op with
  | addFirst x al =>
    left
    rcases addFirst_cases r al x with ⟨q', h, hr, ho⟩ | ⟨h, _⟩
    · refine ⟨q', none, _, by simp [step, h], hr, ?_⟩
      rw [ho]; exact .addFirst_ok ⟨l, q.oom⟩ x al
    · exact ⟨_, none, l, by simp only [step, h]; rfl, r.with_oom true,
        .addFirst_fail ⟨l, q.oom⟩ x al⟩
  | addLast x al =>
    left
    rcases addLast_cases r al x with ⟨q', h, hr, ho⟩ | ⟨h, _⟩
    · refine ⟨q', none, _, by simp [step, h], hr, ?_⟩
      rw [ho]; exact .addLast_ok ⟨l, q.oom⟩ x al
    · exact ⟨_, none, l, by simp only [step, h]; rfl, r.with_oom true,
        .addLast_fail ⟨l, q.oom⟩ x al⟩
  | delFirst =>
    cases l with
    | nil => right; simp [Spec.Allowed]
    | cons x l =>
      left
      obtain ⟨q', h, hr, ho⟩ := r.delFirst
      refine ⟨q', some x, l, by simp [step, h], hr, ?_⟩
      rw [ho]; exact .delFirst ⟨x :: l, q.oom⟩ x l rfl
  | delLast =>
    rcases List.eq_nil_or_concat l with rfl | ⟨l, x, rfl⟩
    · right; simp [Spec.Allowed]
    · left
      rw [List.concat_eq_append] at r ⊢
      obtain ⟨q', h, hr, ho⟩ := r.delLast
      refine ⟨q', some x, l, by simp [step, h], hr, ?_⟩
      rw [ho]; exact .delLast ⟨l ++ [x], q.oom⟩ x l rfl
  | clear =>
    left
    exact ⟨_, none, [], rfl, r.clear, .clear ⟨l, q.oom⟩⟩

theorem foreachLoop_spec {q : Q α} {l : List α} (r : Rep q l) (body : σ → α → σ × Bool) :
    ∀ (fuel j : Nat) (s : σ), j ≤ l.length → l.length + 1 ≤ fuel + j →
    foreachLoop q body fuel true ((q.first + j) % q.cap) s = .ok (Spec.walk body s (l.drop j)) := by
  have hf := r.first_lt
  have hs := r.short
  intro fuel
  induction fuel with
  | zero => intro j s hj hfu; omega
  | succ fuel ih =>
    intro j s hj hfu
    unfold foreachLoop
    have hlast : (q.first + j) % q.cap = q.last ↔ j = l.length := by
      rw [r.last_eq, mod_of_lt_two_mul (by omega), mod_of_lt_two_mul (by omega)]
      split <;> split <;> omega
    by_cases h : j = l.length
    · rw [hlast.2 h]
      simp [h, Spec.walk]
    · have hne : ¬ (q.first + j) % q.cap = q.last := fun h' => h (hlast.1 h')
      have hj' : j < l.length := by omega
      simp only [Bool.true_and, bne_iff_ne, ne_eq, hne, not_false_eq_true, if_true]
      have hc := r.cell j hj'
      rw [rd_eq_ok.2 hc, List.drop_eq_getElem_cons hj']
      simp only [Res.ok_bind, Spec.walk]
      have hn : next q ((q.first + j) % q.cap) = (q.first + (j + 1)) % q.cap := by
        unfold next
        rw [add64_mask r.pow, Nat.mod_add_mod]; rfl
      rw [hn]
      by_cases hb : (body s l[j]).2 = true
      · simp only [hb, if_true]
        cases fuel with
        | zero => omega
        | succ n => simp [foreachLoop]
      · simp only [Bool.not_eq_true] at hb
        simp only [hb]
        simpa using ih (j + 1) (body s l[j]).1 (by omega) (by omega)

end Verif.Queue
