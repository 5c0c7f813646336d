import Verif.Array.Lemmas

/-! # Properties C01, C02, C03 of `sc_array`

`sz` is the size of an element in bytes. `0 < sz` and `8 * sz ≤ SIZE_MAX` hold for every C
type. -/

namespace Verif.Array

variable {α : Type} {sz : Nat}

/-- What a caller can observe of an array agrees with the abstract state `s`: the size,
every element, and the outcome of the last `add`. -/
structure Observes (a : Arr α) (s : Spec.State α) : Prop where
  size : a.size = s.items.length
  «at» : ∀ i (h : i < s.items.length), «at» a i = .ok s.items[i]
  last : ∀ x, s.items.getLast? = some x → last a = .ok x
  oom : a.oom = s.failed

theorem observes_abs {a : Arr α} (hsz : 0 < sz) (w : WF sz a) : Observes a (abs a) := by
  have hlen := w.length_contents
  have hl := w.len
  have hs := w.size_le
  have hb := w.bytes
  have hcap : a.cap ≤ a.cap * sz := Nat.le_mul_of_pos_right _ hsz
  refine ⟨by simp [abs, hlen], ?_, ?_, rfl⟩
  · intro i h
    have hi : i < a.size := by simpa [abs, hlen] using h
    simp only [«at», abs, contents, List.getElem_take]
    exact rd_lt (by omega)
  · intro x hx
    simp only [abs, contents, List.getLast?_eq_getElem?] at hx
    have hpos : 0 < a.size := by
      rcases Nat.eq_zero_or_pos a.size with h0 | h0
      · simp [h0] at hx
      · exact h0
    simp only [last, rd_eq_ok, sub64]
    have : (a.size + 18446744073709551616 - 1) % 18446744073709551616 = a.size - 1 := by omega
    rw [this]
    grind

/-- **C01.** Every history of calls that has no undefined behaviour leaves the array
observably equal to the abstract list after the same history. -/
theorem array_refines_list (hsz : 0 < sz) (h8 : 8 * sz ≤ SIZE_MAX) (ops : List (Op α))
    (a : Arr α) (h : run sz init ops = .ok a) :
    ∃ s, Spec.Run sz ⟨[], false⟩ ops s ∧ Observes a s := by
  have := run_spec hsz h8 ops (wf_init sz) h
  exact ⟨abs a, by simpa [abs, init, contents] using this.2, observes_abs hsz this.1⟩

/-- **C01.** A history has undefined behaviour (a failed assertion or an access outside the
block) only if some call in it is given an index outside the documented range. -/
theorem array_ub_only_out_of_range (hsz : 0 < sz) (h8 : 8 * sz ≤ SIZE_MAX)
    (ops : List (Op α)) (h : run sz (init : Arr α) ops = .ub) :
    ∃ pre op post s, ops = pre ++ op :: post ∧
      Spec.Run sz ⟨[], false⟩ pre s ∧ ¬ Spec.InRange s op := by
  have key : ∀ (ops : List (Op α)) (a : Arr α), WF sz a → run sz a ops = .ub →
      ∃ pre op post s, ops = pre ++ op :: post ∧ Spec.Run sz (abs a) pre s ∧
        ¬ Spec.InRange s op := by
    intro ops
    induction ops with
    | nil => intro a _ h; simp [run] at h
    | cons op ops ih =>
      intro a w h
      rcases step_cases hsz h8 w op with ⟨a1, hs, hw, hst⟩ | ⟨hub, hr⟩
      · simp only [run, hs, Res.ok_bind] at h
        obtain ⟨pre, op', post, s, he, hrun, hr⟩ := ih a1 hw h
        exact ⟨op :: pre, op', post, s, by simp [he], .cons hst hrun, hr⟩
      · exact ⟨[], op, ops, abs a, rfl, .nil _, hr⟩
  simpa [abs, init, contents] using key ops init (wf_init sz) h

/-- **C02.** In every reachable state `add` either appends exactly the new element and
reports success, or reports out of memory and leaves size, elements and memory block as
they were; it reports out of memory only if the allocator failed or doubling the array
would exceed `SIZE_MAX` bytes. -/
theorem array_add_atomic (hsz : 0 < sz) (h8 : 8 * sz ≤ SIZE_MAX) (ops : List (Op α))
    (a : Arr α) (h : run sz init ops = .ok a) (al : Alloc α) (k : α) :
    ∃ s a', Observes a s ∧ add sz al a k = .ok a' ∧
      ((Observes a' ⟨s.items ++ [k], false⟩) ∨
       (a' = { a with oom := true } ∧ Observes a' ⟨s.items, true⟩ ∧
        (al = none ∨ SIZE_MAX < 2 * ((a.size + 1) * sz)))) := by
  have w := (run_spec hsz h8 ops (wf_init sz) h).1
  rcases add_cases hsz h8 w al k with ⟨h, hc, hf⟩ | ⟨a', h, hw, hcont, ho, _⟩
  · refine ⟨abs a, _, observes_abs hsz w, h, Or.inr ⟨rfl, ?_, hf⟩⟩
    exact observes_abs hsz (sz := sz) (a := { a with oom := true }) ⟨w.len, w.size_le, w.bytes⟩
  · refine ⟨abs a, a', observes_abs hsz w, h, Or.inl ?_⟩
    have := observes_abs hsz hw
    simpa [abs, hcont, ho] using this

/-- **C02.** The byte size of the block never wraps: the block really has the capacity the
array believes it has. -/
theorem array_block_matches_capacity (hsz : 0 < sz) (h8 : 8 * sz ≤ SIZE_MAX)
    (ops : List (Op α)) (a : Arr α) (h : run sz init ops = .ok a) :
    a.elems.length = a.cap ∧ a.size ≤ a.cap ∧ a.cap * sz ≤ SIZE_MAX := by
  have w := (run_spec hsz h8 ops (wf_init sz) h).1
  exact ⟨w.len, w.size_le, w.bytes⟩

/-- **C02.** An `add` with a working allocator on an array that can still double succeeds. -/
theorem array_add_succeeds (hsz : 0 < sz) (h8 : 8 * sz ≤ SIZE_MAX) (ops : List (Op α))
    (a : Arr α) (h : run sz init ops = .ok a) (fill : Nat → α) (k : α)
    (hroom : 2 * ((a.size + 1) * sz) ≤ SIZE_MAX) :
    ∃ s a', Observes a s ∧ add sz (some fill) a k = .ok a' ∧
      Observes a' ⟨s.items ++ [k], false⟩ := by
  have w := (run_spec hsz h8 ops (wf_init sz) h).1
  rcases add_cases hsz h8 w (some fill) k with ⟨_, _, hf⟩ | ⟨a', h, hw, hcont, ho, _⟩
  · rcases hf with hf | hf
    · cases hf
    · omega
  · refine ⟨abs a, a', observes_abs hsz w, h, ?_⟩
    have := observes_abs hsz hw
    simpa [abs, hcont, ho] using this

/-- **C03.** `sc_array_foreach` over any reachable array runs its body on the elements in
index order, once each, and stops after a body that breaks. -/
theorem array_foreach_walks (hsz : 0 < sz) (h8 : 8 * sz ≤ SIZE_MAX) (ops : List (Op α))
    (a : Arr α) (h : run sz init ops = .ok a) (body : σ → α → σ × Bool) (s : σ) :
    ∃ st, Observes a st ∧ foreach a body s = .ok (Spec.walk body s st.items) := by
  have w := (run_spec hsz h8 ops (wf_init sz) h).1
  refine ⟨abs a, observes_abs hsz w, ?_⟩
  have := foreachLoop_spec a (by rw [w.len]; exact w.size_le) body (a.size + 1) 0 s
    (by omega) (by omega)
  simpa [foreach, abs] using this

/-- **C01.** Sorting rearranges exactly the elements of the array, as `qsort` does. -/
theorem array_sort_contents (w : WF sz a) (qsort : List α → List α)
    (hq : ∀ l, (qsort l).length = l.length) :
    contents (sort qsort a) = qsort (contents a) ∧ WF sz (sort qsort a) := by
  have hl := w.len
  have hs := w.size_le
  have hlen : (qsort (a.elems.take a.size)).length = a.size := by
    rw [hq]; simp; omega
  constructor
  · simp only [contents, sort]
    rw [List.take_append_of_le_length (by omega), List.take_of_length_le (by omega)]
  · refine ⟨?_, hs, w.bytes⟩
    simp [sort, hlen]; omega

/-! Concrete cases that meet the hypotheses. -/

/-- A history with growth, deletions, a failed allocation and a re-add. -/
def demo : List (Op Nat) :=
  (List.range 9).map (fun i => Op.add i (some fun _ => 77)) ++
  [.del 2, .delUnordered 0, .delLast, .add 42 (some fun _ => 5)]

example : (run 4 init demo).bind (fun a => .ok (contents a, a.oom)) =
    .ok ([8, 1, 3, 4, 5, 6, 42], false) := by decide

/-- A failing allocator at the growth point: the ninth add is refused. -/
example : (run 4 init ((List.range 8).map (fun i => Op.add i (some fun _ => 77)) ++
    [.add 8 none])).bind (fun a => .ok (contents a, a.oom)) =
    .ok ([0, 1, 2, 3, 4, 5, 6, 7], true) := by decide

example : run 4 (init : Arr Nat) [.add 1 (some fun _ => 0), .del 1] = .ub := rfl

/-- A body that breaks at the second element. -/
example : Spec.walk (fun (s : List Nat) (x : Nat) => (s ++ [x], x == 1)) [] [8, 1, 3] = [8, 1] := by
  decide

end Verif.Array
