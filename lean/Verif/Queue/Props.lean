import Verif.Queue.Lemmas

/-! # Properties C04, C05, C06 of `sc_queue` -/

namespace Verif.Queue

variable {α : Type}

/-- What a caller can observe of a queue agrees with the abstract state `s`. -/
structure Observes (q : Q α) (s : Spec.State α) : Prop where
  size : size q = s.items.length
  empty : empty q = true ↔ s.items = []
  «at» : ∀ i (h : i < s.items.length), «at» q i = .ok s.items[i]
  peekFirst : ∀ x xs, s.items = x :: xs → peekFirst q = .ok x
  peekLast : ∀ x xs, s.items = xs ++ [x] → peekLast q = .ok x
  oom : q.oom = s.failed

theorem Rep.observes {q : Q α} {l : List α} (r : Rep q l) : Observes q ⟨l, q.oom⟩ := by
  refine ⟨r.size, ?_, fun i h => r.at h, ?_, ?_, rfl⟩
  · rw [r.empty]; simp
  · intro x xs h; simp only at h; subst h; exact r.peekFirst
  · intro x xs h; simp only at h; subst h; exact r.peekLast

theorem run_cases (ops : List (Op α)) : ∀ {q : Q α} {l : List α}, Rep q l →
    (∃ q' outs l', run q ops = .ok (q', outs) ∧ Rep q' l' ∧
      Spec.Run ⟨l, q.oom⟩ ops outs ⟨l', q'.oom⟩) ∨
    (∃ pre op post q' outs l', ops = pre ++ op :: post ∧ run q pre = .ok (q', outs) ∧ Rep q' l' ∧
      Spec.Run ⟨l, q.oom⟩ pre outs ⟨l', q'.oom⟩ ∧
      ¬ Spec.Allowed (⟨l', q'.oom⟩ : Spec.State α) op) := by
  induction ops with
  | nil => intro q l r; exact Or.inl ⟨q, [], l, rfl, r, .nil _⟩
  | cons op ops ih =>
    intro q l r
    rcases step_cases r op with ⟨q1, out, l1, h1, r1, s1⟩ | hna
    · rcases ih r1 with ⟨q', outs, l', h, r', s⟩ | ⟨pre, op', post, q', outs, l', he, h, r', s, hna⟩
      · exact Or.inl ⟨q', out :: outs, l', by simp [run, h1, h], r', .cons s1 s⟩
      · exact Or.inr ⟨op :: pre, op', post, q', out :: outs, l', by simp [he], by simp [run, h1, h],
          r', .cons s1 s, hna⟩
    · exact Or.inr ⟨[], op, ops, q, [], l, rfl, rfl, r, .nil _, hna⟩

/-- **C04.** Every history of calls on a successfully initialised queue either runs without
undefined behaviour, returns the values the abstract double-ended queue returns and ends
observably equal to it; or contains a delete at a point where the abstract queue is empty
(documented as undefined). -/
theorem queue_refines_deque (fill : Nat → α) (ops : List (Op α)) :
    (∃ q outs s, run (init (some fill)) ops = .ok (q, outs) ∧
      Spec.Run ⟨[], false⟩ ops outs s ∧ Observes q s) ∨
    (∃ pre op post outs s, ops = pre ++ op :: post ∧
      Spec.Run ⟨[], false⟩ pre outs s ∧ ¬ Spec.Allowed s op) := by
  rcases run_cases ops (rep_init fill) with ⟨q, outs, l, h, r, s⟩ | ⟨pre, op, post, q, outs, l, he, h, r, s, hn⟩
  · exact Or.inl ⟨q, outs, _, h, s, r.observes⟩
  · exact Or.inr ⟨pre, op, post, outs, _, he, s, hn⟩

/-- The states the API can reach without deleting from an empty queue. -/
inductive Reachable : Q α → Prop where
  | init (fill) : Reachable (init (some fill))
  | step {q op q' out} : Reachable q → (empty q = true → op ≠ .delFirst ∧ op ≠ .delLast) →
      step q op = .ok (q', out) → Reachable q'

theorem Reachable.rep {q : Q α} (h : Reachable q) : ∃ l, Rep q l := by
  induction h with
  | init fill => exact ⟨[], rep_init fill⟩
  | @step q op q' out _ ha hs ih =>
    obtain ⟨l, r⟩ := ih
    rcases step_cases r op with ⟨q1, out1, l1, h1, r1, _⟩ | hna
    · rw [h1] at hs; cases hs; exact ⟨l1, r1⟩
    · exfalso
      have hne : empty q = l.isEmpty := r.empty
      have he : l = [] ∧ (op = .delFirst ∨ op = .delLast) := by
        cases op <;> simp [Spec.Allowed] at hna ⊢ <;> exact hna
      rw [he.1] at hne
      have := ha (by simpa using hne)
      rcases he.2 with h | h
      · exact this.1 h
      · exact this.2 h

/-- **C04.** Growth in any reachable state keeps all elements in order: `expand` changes
neither the size nor any element, whether or not the allocation succeeds. -/
theorem queue_expand_preserves {q : Q α} (h : Reachable q) (al : Alloc α) :
    ∃ q', expand al q = .ok q' ∧ size q' = size q ∧
      ∀ i, i < size q → ∃ x, «at» q i = .ok x ∧ «at» q' i = .ok x := by
  obtain ⟨l, r⟩ := h.rep
  have key : ∃ q', expand al q = .ok q' ∧ Rep q' l := by
    rcases expand_cases r al with ⟨h, _⟩ | ⟨h, _⟩ | ⟨q', h, _, r', _⟩
    · exact ⟨_, h, r⟩
    · exact ⟨_, h, r.with_oom true⟩
    · exact ⟨_, h, r'⟩
  obtain ⟨q', h, r'⟩ := key
  refine ⟨q', h, by rw [r.size, r'.size], ?_⟩
  intro i hi
  rw [r.size] at hi
  exact ⟨l[i], r.at hi, r'.at hi⟩

/-- **C05.** `sc_queue_foreach` over any reachable queue runs its body on the elements from
first to last, once each, and stops after a body that breaks. -/
theorem queue_foreach_walks {q : Q α} (h : Reachable q) (body : σ → α → σ × Bool) (s : σ) :
    ∃ st, Observes q st ∧ foreach q body s = .ok (Spec.walk body s st.items) := by
  obtain ⟨l, r⟩ := h.rep
  refine ⟨_, r.observes, ?_⟩
  have hs := r.short
  have := foreachLoop_spec r body (q.cap + 1) 0 s (by omega) (by omega)
  have h0 : (q.first + 0) % q.cap = q.first := Nat.mod_eq_of_lt r.first_lt
  rw [h0] at this
  simpa [foreach] using this

/-- **C06 is violated.** There is a history in which an `add_last` with a working allocator
and with room in the ring (six of the seven usable cells in use) is refused, and out of
memory is reported, because an earlier, unrelated `add` failed. -/
theorem queue_oom_sticky_violated :
    ∃ (ops : List (Op Nat)) (q : Q Nat) (outs : List (Option Nat)),
      run (init (some fun _ => 0)) ops = .ok (q, outs) ∧ size q = 6 ∧ q.cap = 8 ∧
      ∃ q', addLast (some fun _ => 0) q 99 = .ok q' ∧ q'.oom = true ∧ size q' = 6 := by
  refine ⟨(List.range 7).map (fun i => .addLast i none) ++ [.addLast 7 none, .delFirst],
    ⟨true, 8, 1, 7, [0, 1, 2, 3, 4, 5, 6, 0]⟩, _, rfl, rfl, rfl, ?_⟩
  exact ⟨_, rfl, rfl, rfl⟩

/-- **C06 (partial).** As long as no failure has been reported (since the last `clear`), an
`add` fails only if the ring is full and the allocator fails or the capacity is already
2^63; and after it the flag tells whether it failed. Missing: after a failed `add` the flag
stays set until a `clear`, see `queue_oom_sticky_violated`. -/
theorem queue_add_fails_only_when_full_partial {q : Q α} (h : Reachable q)
    (ho : q.oom = false) (al : Alloc α) (x : α) :
    ∃ s q', Observes q s ∧ addLast al q x = .ok q' ∧
      (Observes q' ⟨s.items ++ [x], false⟩ ∨
       (Observes q' ⟨s.items, true⟩ ∧ size q + 1 = q.cap ∧ (al = none ∨ q.cap = 2 ^ 63))) := by
  obtain ⟨l, r⟩ := h.rep
  rcases addLast_cases r al x with ⟨q', h, r', ho'⟩ | ⟨h, hc⟩
  · refine ⟨_, q', r.observes, h, Or.inl ?_⟩
    have := r'.observes; rwa [ho'] at this
  · refine ⟨_, _, r.observes, h, Or.inr ⟨(r.with_oom true).observes, ?_⟩⟩
    rcases hc with ⟨h', _⟩ | h'
    · simp [ho] at h'
    · rw [r.size]; exact h'

/-- The same for `add_first`. -/
theorem queue_add_first_fails_only_when_full_partial {q : Q α} (h : Reachable q)
    (ho : q.oom = false) (al : Alloc α) (x : α) :
    ∃ s q', Observes q s ∧ addFirst al q x = .ok q' ∧
      (Observes q' ⟨x :: s.items, false⟩ ∨
       (Observes q' ⟨s.items, true⟩ ∧ size q + 1 = q.cap ∧ (al = none ∨ q.cap = 2 ^ 63))) := by
  obtain ⟨l, r⟩ := h.rep
  rcases addFirst_cases r al x with ⟨q', h, r', ho'⟩ | ⟨h, hc⟩
  · refine ⟨_, q', r.observes, h, Or.inl ?_⟩
    have := r'.observes; rwa [ho'] at this
  · refine ⟨_, _, r.observes, h, Or.inr ⟨(r.with_oom true).observes, ?_⟩⟩
    rcases hc with ⟨h', _⟩ | h'
    · simp [ho] at h'
    · rw [r.size]; exact h'

/-- Recovery: `clear` resets the flag, in every reachable state. -/
theorem queue_clear_resets {q : Q α} (h : Reachable q) : Observes (clear q) ⟨[], false⟩ := by
  obtain ⟨l, r⟩ := h.rep
  exact r.clear.observes

/-! Concrete cases that meet the hypotheses. -/

/-- Wraps around the ring in both directions and grows twice. -/
def demo : List (Op Nat) :=
  [.addFirst 1 none, .addFirst 0 none, .addLast 2 none, .delFirst, .delLast] ++
  (List.range 10).map (fun i => .addLast (10 + i) (some fun _ => 0)) ++
  (List.range 10).map (fun i => .addFirst (30 + i) (some fun _ => 0)) ++ [.delLast, .delFirst]

example : (run (init (some fun _ => 0)) demo).bind
    (fun (q, outs) => .ok (size q, q.cap, outs.filterMap id, q.oom)) =
    .ok (19, 32, [0, 2, 19, 39], false) := by decide

example : (run (init (some fun _ => 0)) demo).bind
    (fun (q, _) => foreach q (fun s x => (s ++ [x], x == 31)) []) =
    .ok [38, 37, 36, 35, 34, 33, 32, 31] := by decide

example : Reachable (init (some fun _ => 0) : Q Nat) ∧ (init (some fun _ => 0) : Q Nat).oom = false :=
  ⟨.init _, rfl⟩

end Verif.Queue
