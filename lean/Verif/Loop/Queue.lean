import Verif.Queue.Props

/-! # `sc_queue_foreach` with a body that changes the queue -/

namespace Verif.Queue

/-- `sc_queue_foreach`, queue/sc_queue.h:269-273, from position `i` with flag `k`: the elements visited, and the outcome, `none` if it is undefined. `body s e`
is the new state of the program, the calls made and whether it ends with `break`. -/
inductive Loop (body : σ → α → σ × List (Op α) × Bool) : Bool → Nat → σ → Q α → List α → Option (σ × Q α) → Prop
  | stop {k i s q} : (k && i != q.last) = false → Loop body k i s q [] (some (s, q))
  | over {k i s q} : (k && i != q.last) = true → rd q.elems i = .ub → Loop body k i s q [] none
  | bad {k i s q e} : (k && i != q.last) = true → rd q.elems i = .ok e → run q (body s e).2.1 = .ub → Loop body k i s q [e] none
  | next {k i s q e q' rs vs out} : (k && i != q.last) = true → rd q.elems i = .ok e → run q (body s e).2.1 = .ok (q', rs) →
      Loop body (!(if (body s e).2.2 then k else !k)) (next q' i) (body s e).1 q' vs out → Loop body k i s q (e :: vs) out

/-- The body only takes elements from the front. -/
def Takes (body : σ → α → σ × List (Op α) × Bool) : Prop := ∀ s e, ∀ op ∈ (body s e).2.1, op = .delFirst

/-- The same but for the front -/
structure Same (q q' : Q α) : Prop where
  cap : q'.cap = q.cap
  last : q'.last = q.last
  elems : q'.elems = q.elems
  first : q'.first < q'.cap

theorem run_takes (ops : List (Op α)) : ∀ {q₀ q : Q α} {l : List α}, Rep q₀ l → Same q₀ q → (∀ op ∈ ops, op = .delFirst) →
    ∃ q' rs, run q ops = .ok (q', rs) ∧ Same q₀ q' := by
  induction ops with
  | nil => intro q₀ q l _ h _; exact ⟨q, [], rfl, h⟩
  | cons op ops ih =>
    intro q₀ q l r h ha
    obtain rfl := ha op (by simp)
    have hlen : q.first < q.elems.length := by rw [h.elems, r.len, ← h.cap]; exact h.first
    have hp := r.pos
    have hs : Same q₀ { q with first := add64 q.first 1 &&& sub64 q.cap 1 } := by
      refine ⟨h.cap, h.last, h.elems, ?_⟩
      simp only
      rw [h.cap, add64_mask r.pow]
      exact Nat.mod_lt _ (by omega)
    obtain ⟨q', rs, h1, h2⟩ := ih r hs (fun op ho => ha op (by simp [ho]))
    refine ⟨q', some q.elems[q.first] :: rs, ?_, h2⟩
    rw [run, step, delFirst]
    simp only [rd_lt hlen, Res.ok_bind, Res.pure_eq]
    rw [h1]
    rfl

theorem loop_takes {body : σ → α → σ × List (Op α) × Bool} (hb : Takes body) {k : Bool} {i : Nat} {s : σ} {q : Q α} {vs : List α}
    {out : Option (σ × Q α)} (h : Loop body k i s q vs out) : ∀ {q₀ : Q α} {l : List α} {j : Nat}, Rep q₀ l → Same q₀ q → j ≤ l.length →
    i = (q₀.first + j) % q₀.cap →
    ∃ s' q', out = some (s', q') ∧ vs <+: l.drop j ∧ (k = true → (∀ s e, (body s e).2.2 = false) → vs = l.drop j) := by
  induction h with
  | @stop k i s q hg =>
    intro q₀ l j r hs hj hi
    refine ⟨s, q, rfl, by simp, ?_⟩
    intro hk _
    subst hk
    have h1 : i = q.last := by simpa using hg
    rw [hs.last, r.last_eq, hi] at h1
    have hf := r.first_lt
    have hsh := r.short
    rw [mod_of_lt_two_mul (by omega), mod_of_lt_two_mul (by omega)] at h1
    have : j = l.length := by
      split at h1 <;> split at h1 <;> omega
    rw [this]; simp
  | @over k i s q hg hr =>
    intro q₀ l j r hs hj hi
    have h1 := rd_eq_ub.1 hr
    have hp := r.pos
    rw [hs.elems, r.len, hi] at h1
    have := Nat.mod_lt (q₀.first + j) (show q₀.cap > 0 by omega)
    omega
  | @bad k i s q e hg hr hu =>
    intro q₀ l j r hs hj hi
    obtain ⟨q', rs, h1, _⟩ := run_takes _ r hs (hb s e)
    rw [h1] at hu; cases hu
  | @next k i s q e q' rs vs out hg hr hu _ ih =>
    intro q₀ l j r hs hj hi
    obtain ⟨q1, rs1, h1, hs1⟩ := run_takes _ r hs (hb s e)
    rw [h1] at hu; cases hu
    have hne : i ≠ q.last := by rintro rfl; simp at hg
    have hlt : j < l.length := by
      rcases Nat.lt_or_ge j l.length with h | h
      · exact h
      · exfalso; apply hne
        rw [hi, hs.last, r.last_eq, show j = l.length by omega]
    have hc := r.cell j hlt
    rw [← hi, ← hs.elems] at hc
    have he := rd_eq_ok.1 hr
    rw [hc] at he
    obtain rfl := Option.some.inj he
    have hn : Queue.next q' i = (q₀.first + (j + 1)) % q₀.cap := by
      unfold Queue.next
      rw [hs1.cap, add64_mask r.pow, hi, Nat.mod_add_mod, Nat.add_assoc]
    obtain ⟨s2, q2, e2, h3, h4⟩ := ih r hs1 (by omega : j + 1 ≤ l.length) hn
    refine ⟨s2, q2, e2, ?_, ?_⟩
    · rw [List.drop_eq_getElem_cons hlt]; exact List.cons_prefix_cons.2 ⟨rfl, h3⟩
    · intro hk hb'
      rw [List.drop_eq_getElem_cons hlt, h4 (by rw [hb']; simp [hk]) hb']

/-- **C128 (part).** A loop whose body only takes elements from the front of the queue is defined and visits the elements that were in it, in order, each once;
all of them if it does not break. Missing: bodies that add elements or delete the last. -/
theorem queue_loop_partial {q : Q α} {l : List α} (r : Rep q l) {body : σ → α → σ × List (Op α) × Bool} (hb : Takes body) {s : σ} {vs : List α}
    {out : Option (σ × Q α)} (h : Loop body true q.first s q vs out) :
    ∃ s' q', out = some (s', q') ∧ vs <+: l ∧ ((∀ s e, (body s e).2.2 = false) → vs = l) := by
  obtain ⟨s', q', h1, h2, h3⟩ := loop_takes hb h r ⟨rfl, rfl, rfl, r.first_lt⟩ (j := 0) (by omega)
    (by rw [Nat.add_zero, Nat.mod_eq_of_lt r.first_lt])
  exact ⟨s', q', h1, by simpa using h2, fun hn => by simpa using h3 rfl hn⟩

/-- Seven elements that do not begin at the beginning of the memory -/
def seven : List (Op Nat) :=
  [0, 0, 0].map (fun x => Op.addLast x (some fun _ => 0)) ++ [.delFirst, .delFirst, .delFirst] ++
    [1, 2, 3, 4, 5, 6, 7].map fun x => Op.addLast x (some fun _ => 0)

/-- A body that adds an element once -/
def addOne (_ : Unit) (e : Nat) : Unit × List (Op Nat) × Bool := ((), if e = 1 then [.addLast 8 (some fun _ => 0)] else [], false)

/-- **C128 is violated**: if the body adds an element, the loop misses three others. -/
theorem queue_loop_violated : ∃ q rs q', run (init (some fun _ => 0)) seven = .ok (q, rs) ∧ Rep q [1, 2, 3, 4, 5, 6, 7] ∧
    Loop addOne true q.first () q [1, 5, 6, 7, 8] (some ((), q')) := by
  refine ⟨⟨false, 8, 3, 2, [6, 7, 0, 1, 2, 3, 4, 5]⟩, _, ⟨false, 16, 0, 8, [1, 2, 3, 4, 5, 6, 7, 8, 0, 0, 0, 0, 0, 0, 0, 0]⟩,
    by with_unfolding_all rfl, ?_, ?_⟩
  · refine ⟨⟨3, rfl, by omega, by omega⟩, rfl, by decide, by decide, by decide, by decide⟩
  · refine .next (q' := ⟨false, 16, 0, 8, [1, 2, 3, 4, 5, 6, 7, 8, 0, 0, 0, 0, 0, 0, 0, 0]⟩) (rs := [none]) rfl rfl (by with_unfolding_all rfl) ?_
    iterate 4 refine .next (q' := ⟨false, 16, 0, 8, [1, 2, 3, 4, 5, 6, 7, 8, 0, 0, 0, 0, 0, 0, 0, 0]⟩) (rs := []) rfl rfl rfl ?_
    exact .stop rfl

/-- A body that deletes the last element once -/
def dropLast (_ : Unit) (e : Nat) : Unit × List (Op Nat) × Bool := ((), if e = 2 then [.delLast] else [], false)

/-- **C128 is violated**: if the body deletes the element it is at, the last, the loop goes around through all the memory, and visits what is
not in the queue, and what was visited. -/
theorem queue_loop_last_violated : ∃ q rs q', run (init (some fun _ => 0)) [.addLast 1 (some fun _ => 0), .addLast 2 (some fun _ => 0)] = .ok (q, rs) ∧
    Rep q [1, 2] ∧ Loop dropLast true q.first () q [1, 2, 0, 0, 0, 0, 0, 0, 1] (some ((), q')) := by
  refine ⟨⟨false, 8, 0, 2, [1, 2, 0, 0, 0, 0, 0, 0]⟩, _, ⟨false, 8, 0, 1, [1, 2, 0, 0, 0, 0, 0, 0]⟩, by with_unfolding_all rfl, ?_, ?_⟩
  · refine ⟨⟨3, rfl, by omega, by omega⟩, rfl, by decide, by decide, by decide, by decide⟩
  · refine .next (q' := ⟨false, 8, 0, 2, [1, 2, 0, 0, 0, 0, 0, 0]⟩) (rs := []) rfl rfl rfl ?_
    refine .next (q' := ⟨false, 8, 0, 1, [1, 2, 0, 0, 0, 0, 0, 0]⟩) (rs := [some 2]) rfl rfl (by with_unfolding_all rfl) ?_
    iterate 7 refine .next (q' := ⟨false, 8, 0, 1, [1, 2, 0, 0, 0, 0, 0, 0]⟩) (rs := []) rfl rfl rfl ?_
    exact .stop rfl

/-! ## An example

Each element is taken when it is visited. -/

def take (_ : Unit) (_ : Nat) : Unit × List (Op Nat) × Bool := ((), [.delFirst], false)

example : Takes take := by intro s e op h; simpa [take] using h

example : ∃ q', Loop take true 7 () ⟨false, 8, 7, 1, [6, 0, 0, 0, 0, 0, 0, 5]⟩ [5, 6] (some ((), q')) ∧ q'.first = q'.last := by
  refine ⟨⟨false, 8, 1, 1, [6, 0, 0, 0, 0, 0, 0, 5]⟩, ?_, rfl⟩
  refine .next (q' := ⟨false, 8, 0, 1, [6, 0, 0, 0, 0, 0, 0, 5]⟩) (rs := [some 5]) rfl rfl (by with_unfolding_all rfl) ?_
  refine .next (q' := ⟨false, 8, 1, 1, [6, 0, 0, 0, 0, 0, 0, 5]⟩) (rs := [some 6]) rfl rfl (by with_unfolding_all rfl) ?_
  exact .stop rfl

end Verif.Queue
