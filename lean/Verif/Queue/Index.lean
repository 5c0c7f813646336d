import Verif.Queue.Props

/-!
# Indices into a queue: `sc_queue_first`, `sc_queue_last` and `sc_queue_next`
-/

namespace Verif.Queue

/-- `sc_queue_first`, queue/sc_queue.h:160 -/
def firstIdx (q : Q α) : Nat := q.first

/-- `sc_queue_last`, queue/sc_queue.h:166 -/
def lastIdx (q : Q α) : Nat := q.last

/-- `sc_queue_next` used `n` times, from `sc_queue_first` on -/
def idx (q : Q α) : Nat → Nat
  | 0 => firstIdx q
  | n + 1 => next q (idx q n)

theorem Rep.idx {q : Q α} {l : List α} (r : Rep q l) (n : Nat) : idx q n = (q.first + n) % q.cap := by
  induction n with
  | zero => exact (Nat.mod_eq_of_lt r.first_lt).symm
  | succ n ih =>
    unfold Verif.Queue.idx Verif.Queue.next
    rw [ih, add64_mask r.pow, Nat.mod_add_mod, Nat.add_assoc]

/-- **C149, in part.** `sc_queue_first` is the index of the first element, and following `sc_queue_next` from
there gives the indices of the others in order, none twice; after the last element comes
`sc_queue_last`, which is never the index of an element. What is missing: that `sc_queue_last` is the index of the
last element, which the header says. -/
theorem queue_index_partial {q : Q α} (h : Reachable q) : ∃ st, Observes q st ∧
    (∀ i (hi : i < st.items.length), rd q.elems (idx q i) = .ok st.items[i]) ∧
    (∀ i j, i < j → j ≤ st.items.length → idx q i ≠ idx q j) ∧
    idx q st.items.length = lastIdx q := by
  obtain ⟨l, r⟩ := h.rep
  have hs := r.short
  have hf := r.first_lt
  refine ⟨_, r.observes, fun i hi => ?_, fun i j hij hj => ?_, ?_⟩
  · rw [r.idx]
    unfold rd
    rw [r.cell i hi]
  · simp only at hj
    rw [r.idx, r.idx, mod_of_lt_two_mul (by omega), mod_of_lt_two_mul (by omega)]
    split <;> split <;> omega
  · rw [r.idx]
    exact r.last_eq.symm

/-- **C149 is violated**: `sc_queue_last` is the index of the last element in no queue that has one; what is
there is not an element of the queue. -/
theorem queue_last_index_violated {q : Q α} (h : Reachable q) : ∃ st, Observes q st ∧
    ∀ i, i < st.items.length → lastIdx q ≠ idx q i := by
  obtain ⟨st, ho, -, h2, h3⟩ := queue_index_partial h
  exact ⟨st, ho, fun i hi he => h2 i _ hi (Nat.le_refl _) (by rw [h3, he])⟩

/-- The queue [7, 8] of which the memory behind is 0: what `sc_queue_last` leads to is 0, and not 8. -/
example : (run (init (some fun _ => 0)) [.addLast 7 none, .addLast 8 none]).bind
    (fun (q, _) => (rd q.elems (firstIdx q)).bind fun a => (rd q.elems (lastIdx q)).bind fun b => .ok (a, b)) = .ok (7, 0) := by
  decide

example : Reachable (init (some fun _ => 0) : Q Nat) := .init _

end Verif.Queue
