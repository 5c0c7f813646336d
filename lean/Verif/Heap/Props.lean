import Verif.Heap.Lemmas

/-! # Properties C07, C08, C09, C10 of `sc_heap` -/

namespace Verif.Heap

variable {δ : Type}

theorem wf_init (c : Nat) (al : Alloc (Data δ)) : WF (init c al).1 := by
  have hz : WF ({ cap := 0, size := 0, elems := [] } : Heap δ) :=
    ⟨Or.inl rfl, by simp, by intro j hj hjn; simp at hjn; omega⟩
  unfold init
  by_cases h0 : c = 0
  · simp only [h0, if_true]; exact hz
  · by_cases h1 : c > heapMax
    · simp only [h0, h1, if_true, if_false]; exact hz
    · cases al with
      | none => simp only [h0, h1, if_false]; exact hz
      | some fill =>
        simp only [h0, h1, if_false]
        refine ⟨Or.inl rfl, ?_, by intro j hj hjn; simp at hjn; omega⟩
        simp only [heapMax] at h1
        simp only [length_resized, mul64, esz]
        omega

theorem init_size_cap (c : Nat) (al : Alloc (Data δ)) :
    (init c al).1.size = 0 ∧ (init c al).1.cap ≤ c := by
  unfold init
  by_cases h0 : c = 0
  · simp [h0]
  · by_cases h1 : c > heapMax
    · simp [h0, h1]
    · cases al <;> simp [h0, h1]

theorem length_contents {h : Heap δ} (w : WF h) : (contents h).length = h.size := by
  have := w.cap
  have := w.room
  simp only [contents, List.length_take, List.length_drop]
  omega

/-- One call in a well-formed heap with a working allocator. -/
theorem step_spec {h : Heap δ} (w : WF h) (op : Op δ) (hal : ∀ k d al, op = .add k d al → al ≠ none)
    (hs : h.size < 144115188075855871) (hc : h.cap < 288230376151711744) :
    ∃ h' o, step h op = .ok (h', o) ∧ WF h' ∧ Spec.Step (contents h) op o (contents h') ∧
      h'.size ≤ h.size + 1 ∧ h'.cap < 288230376151711744 := by
  cases op with
  | add k d al =>
    obtain ⟨h', ha, hw, hsz, hcap, hp⟩ := add_spec w al k d (fun _ => hal k d al rfl)
      (fun _ => hc) (by omega)
    refine ⟨h', .added true, by simp [step, ha], hw, .add _ _ _ _ _ hp, by omega, by omega⟩
  | pop =>
    by_cases h0 : h.size = 0
    · have hc0 : contents h = [] := by simp [contents, h0]
      refine ⟨h, .elem none, by simp [step, pop, h0], w, ?_, by omega, hc⟩
      rw [hc0]; exact .pop_empty
    · obtain ⟨h', e, hpop, hw, hsz, hcap, hm, hp⟩ := pop_spec w h0 (by omega)
      exact ⟨h', .elem (some e), by simp [step, hpop], hw, .pop _ _ _ hm hp, by omega, by omega⟩
  | peek =>
    by_cases h0 : h.size = 0
    · have hc0 : contents h = [] := by simp [contents, h0]
      refine ⟨h, .elem none, by simp [step, peek, h0], w, ?_, by omega, hc⟩
      rw [hc0]; exact .peek_empty
    · obtain ⟨e, hpeek, hm⟩ := peek_spec w h0
      exact ⟨h, .elem (some e), by simp [step, hpeek], w, .peek _ _ hm, by omega, hc⟩
  | clear =>
    refine ⟨clear h, .unit, rfl, ⟨Or.inl rfl, w.cap, ?_⟩, ?_, by simp [clear], hc⟩
    · intro j hj hjn; simp [clear] at hjn; omega
    · have : contents (clear h) = [] := by simp [contents, clear]
      rw [this]; exact .clear _

theorem run_spec (ops : List (Op δ)) : ∀ {h : Heap δ}, WF h → Spec.AllocOk ops →
    h.size + ops.length < 144115188075855872 → h.cap < 288230376151711744 →
    ∃ h' os, run h ops = .ok (h', os) ∧ WF h' ∧ Spec.Run (contents h) ops os (contents h') ∧
      h'.size < 144115188075855872 := by
  induction ops with
  | nil => intro h w _ hn _; exact ⟨h, [], rfl, w, .nil _, by simpa using hn⟩
  | cons op ops ih =>
    intro h w hal hn hc
    simp only [List.length_cons] at hn
    obtain ⟨h1, o, hst, hw1, hs1, hsz, hc1⟩ := step_spec w op
      (fun k d al he => hal k d al (by simp [he])) (by omega) hc
    obtain ⟨h2, os, hr, hw2, hs2, hsz2⟩ := ih hw1
      (fun k d al hm => hal k d al (List.mem_cons_of_mem _ hm)) (by omega) hc1
    exact ⟨h2, o :: os, by simp [run, hst, hr], hw2, .cons hs1 hs2, hsz2⟩

/-- **C07, C10.** With a working allocator every history of calls, from any initial
capacity, runs without undefined behaviour and answers as a priority queue does: `pop` and
`peek` return an element with the smallest key among those added and not yet popped (nothing
exactly when there is none), and the size is the number of elements. The bounds exclude
histories longer than 2^57 calls and initial capacities of 2^58 elements (4 EiB) or more. -/
theorem heap_refines_priority_queue (c : Nat) (al : Alloc (Data δ)) (ops : List (Op δ))
    (hal : Spec.AllocOk ops) (hc : c < 2 ^ 58) (hn : ops.length < 2 ^ 57) :
    ∃ h os s, run (init c al).1 ops = .ok (h, os) ∧ Spec.Run [] ops os s ∧ h.size = s.length := by
  have h0 := init_size_cap c al
  obtain ⟨h, os, hr, hw, hs, _⟩ := run_spec ops (wf_init c al) hal (by rw [h0.1]; omega) (by omega)
  have hc0 : contents (init c al).1 = [] := by simp [contents, h0.1]
  rw [hc0] at hs
  exact ⟨h, os, contents h, hr, hs, (length_contents hw).symm⟩

/-- **C10.** In particular no history reads or writes outside the block. -/
theorem heap_no_ub (c : Nat) (al : Alloc (Data δ)) (ops : List (Op δ))
    (hal : Spec.AllocOk ops) (hc : c < 2 ^ 58) (hn : ops.length < 2 ^ 57) :
    run (init c al).1 ops ≠ .ub := by
  obtain ⟨h, os, s, hr, _⟩ := heap_refines_priority_queue c al ops hal hc hn
  rw [hr]; simp

/-- Popping `n` times, keeping the elements returned. -/
def drain : Nat → Heap δ → Res (List (Data δ))
  | 0, _ => .ok []
  | n + 1, h => do
    let (h, e) ← pop h
    let rest ← drain n h
    return (match e with | some e => e :: rest | none => rest)

theorem drain_spec : ∀ (n : Nat) {h : Heap δ}, WF h → h.size = n → n < 9223372036854775808 →
    ∃ l, drain n h = .ok l ∧ l.Perm (contents h) ∧ l.Pairwise (fun a b => a.key ≤ b.key) := by
  intro n
  induction n with
  | zero =>
    intro h w hs _
    exact ⟨[], rfl, by simp [contents, hs], .nil⟩
  | succ n ih =>
    intro h w hs hn
    obtain ⟨h', e, hpop, hw, hsz, _, hm, hp⟩ := pop_spec w (by omega) (by omega)
    obtain ⟨l, hd, hl, hsort⟩ := ih hw (by omega) (by omega)
    refine ⟨e :: l, by simp [drain, hpop, hd], ?_, ?_⟩
    · exact (List.Perm.cons e hl).trans hp.symm
    · refine List.Pairwise.cons ?_ hsort
      intro x hx
      exact hm.2 x (hp.symm.subset (List.mem_cons_of_mem _ (hl.subset hx)))

/-- **C08.** Draining the heap after any history returns exactly the elements it holds, in
non-decreasing key order, and leaves it empty. -/
theorem heap_drain_sorts (c : Nat) (al : Alloc (Data δ)) (ops : List (Op δ))
    (hal : Spec.AllocOk ops) (hc : c < 2 ^ 58) (hn : ops.length < 2 ^ 57) :
    ∃ h os s l, run (init c al).1 ops = .ok (h, os) ∧ Spec.Run [] ops os s ∧
      drain h.size h = .ok l ∧ l.Perm s ∧ l.Pairwise (fun a b => a.key ≤ b.key) := by
  have h0 := init_size_cap c al
  obtain ⟨h, os, hr, hw, hs, hsz⟩ := run_spec ops (wf_init c al) hal (by rw [h0.1]; omega) (by omega)
  have hc0 : contents (init c al).1 = [] := by simp [contents, h0.1]
  rw [hc0] at hs
  obtain ⟨l, hd, hl, hsort⟩ := drain_spec h.size hw rfl (by omega)
  exact ⟨h, os, contents h, l, hr, hs, hd, hl, hsort⟩

/-- **C09 is violated.** After a failed `add` to a fresh heap, `peek` dereferences NULL. -/
theorem heap_failed_add_violated :
    ∃ h : Heap Unit, add none (init 0 none).1 5 () = .ok (h, false) ∧ h.size = 1 ∧ peek h = .ub :=
  ⟨⟨0, 1, []⟩, rfl, rfl, rfl⟩

/-- **C09 is violated.** After a failed `add` the heap returns an element that was never
added (the indeterminate content of a cell, here key -7), before the real ones. -/
theorem heap_failed_add_pops_garbage_violated :
    ∃ (h h' : Heap Unit) (os : List (Out Unit)) (a : Alloc (Data Unit)),
      run (init 0 none).1 [.add 1 () a, .add 2 () a, .add 3 () a, .add 4 () none] = .ok (h, os) ∧
      os = [.added true, .added true, .added true, .added false] ∧ h.size = 4 ∧
      run h [.pop, .pop, .pop] = .ok (h', [.elem (some ⟨1, ()⟩), .elem (some ⟨-7, ()⟩),
        .elem (some ⟨2, ()⟩)]) := by
  refine ⟨_, _, _, some (fun _ => ⟨-7, ()⟩), rfl, rfl, rfl, rfl⟩

/-- **C09 (partial).** A failed `add` changes nothing but the size, which it leaves one too
large. Missing: the size should be unchanged (heap/sc_heap.c:85 increments it before the
allocation, 89-92 does not undo it). -/
theorem heap_failed_add_partial (al : Alloc (Data δ)) (h h' : Heap δ) (k : Int) (d : δ)
    (hs : h.size < SIZE_MAX) (ha : add al h k d = .ok (h', false)) :
    h' = { h with size := h.size + 1 } ∧ h.cap ≤ h.size + 1 ∧
      (al = none ∨ 576460752303423487 ≤ h.cap) := by
  have hadd : add64 h.size 1 = h.size + 1 := by unfold add64; omega
  unfold add at ha
  simp only [hadd] at ha
  by_cases hg : h.size + 1 ≥ h.cap
  · simp only [hg, if_true] at ha
    by_cases hm : h.cap ≥ heapMax / 2
    · simp only [hm, if_true] at ha
      cases ha
      exact ⟨rfl, hg, Or.inr (by simpa [heapMax] using hm)⟩
    · simp only [hm, if_false] at ha
      cases al with
      | none => cases ha; exact ⟨rfl, hg, Or.inl rfl⟩
      | some fill =>
        simp only [Res.bind_eq_ok] at ha
        obtain ⟨_, _, _, _, he⟩ := ha
        simp at he
  · simp only [hg, if_false] at ha
    simp only [Res.bind_eq_ok] at ha
    obtain ⟨_, _, _, _, he⟩ := ha
    simp at he

/-- **C10, beyond its bound.** At a capacity of 2^58 elements the byte count of the next
growth is 2^64 and wraps to 0, so `realloc` is asked for 0 bytes and the following write is
out of bounds. -/
theorem heap_growth_overflow_defect (m : List (Data δ)) (fill : Nat → Data δ) (k : Int) (d : δ) :
    add (some fill) ⟨2 ^ 58, 2 ^ 58 - 1, m⟩ k d = .ub := by
  have e : ∀ n, n = 0 → resized m n fill = [] := by rintro n rfl; simp [resized]
  have hnil : ∀ f i, i ≠ 1 → siftUp k (f + 1) ([] : List (Data δ)) i = .ub := by
    intro f i hi
    rw [siftUp, if_pos hi]; rfl
  unfold add
  dsimp only
  rw [if_pos (by decide), if_neg (by decide)]
  rw [e _ (by rw [if_pos (by omega)]; decide), hnil _ _ (by decide)]
  rfl

/-! Concrete cases that meet the hypotheses. -/

def demo : List (Op Nat) :=
  [5, 3, 8, -1, 3, 7].map (fun k => .add k 0 (some fun _ => ⟨99, 9⟩)) ++ [.pop, .peek, .pop]

example : Spec.AllocOk demo := by
  intro k d al h; simp [demo] at h; rcases h with h | h | h | h | h | h <;> simp [h.2.2]

example : (run (init 2 (some fun _ => ⟨0, 0⟩)).1 demo).bind (fun (h, os) => .ok (h.size, os.drop 6)) =
    .ok (4, [.elem (some ⟨-1, 0⟩), .elem (some ⟨3, 0⟩), .elem (some ⟨3, 0⟩)]) := by decide

example : (run (init 2 (some fun _ => ⟨0, 0⟩)).1 demo).bind (fun (h, _) => drain h.size h) =
    .ok [⟨3, 0⟩, ⟨5, 0⟩, ⟨7, 0⟩, ⟨8, 0⟩] := by decide

end Verif.Heap
