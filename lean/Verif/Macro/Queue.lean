import Verif.Queue.Props

/-! # The arguments of the queue macros

The macros paste the text of their arguments. A call is modelled with the expression that is its argument, evaluated where the macro puts it. -/

namespace Verif.Queue

/-- An expression a program may pass to a macro for queues of `uint64_t`; the accessors are those of the same queue, and `val` is any expression that does not
use the queue. -/
inductive Expr where
  | val (n : Nat)
  | size
  | at (i : Nat)
  | peekFirst
  | peekLast
  | delFirst
  | delLast
  deriving DecidableEq

/-- The value of an expression, and the queue after it: queue/sc_queue.h:137, 186, 192, 198, 222-223, 242-256. -/
def eval (q : Q Nat) : Expr → Res (Q Nat × Nat)
  | .val n => .ok (q, n)
  | .size => .ok (q, size q)
  | .at i => do let x ← «at» q i; return (q, x)
  | .peekFirst => do let x ← peekFirst q; return (q, x)
  | .peekLast => do let x ← peekLast q; return (q, x)
  | .delFirst => delFirst q
  | .delLast => delLast q

/-- What an expression means for a queue that holds `l`: the contents afterwards, and its value -/
inductive Spec.Means : List Nat → Expr → List Nat → Nat → Prop
  | val {l n} : Means l (.val n) l n
  | size {l} : Means l .size l l.length
  | at {l i x} : l[i]? = some x → Means l (.at i) l x
  | peekFirst {x l} : Means (x :: l) .peekFirst (x :: l) x
  | peekLast {l x} : Means (l ++ [x]) .peekLast (l ++ [x]) x
  | delFirst {x l} : Means (x :: l) .delFirst l x
  | delLast {l x} : Means (l ++ [x]) .delLast l x

/-- `sc_queue_add_last(q, e)`, queue/sc_queue.h:206-215: `e` is evaluated after the growth. In `elems[last] = e`, an `e` that assigns to `last` is unsequenced with
the value of `last`, which is undefined (C11 6.5p2). -/
def addLastMacro (al : Alloc Nat) (q : Q Nat) (e : Expr) : Res (Q Nat) := do
  let q ← expand al q
  if q.oom then return q
  if e = .delLast then .ub
  else
    let (q, x) ← eval { q with oom := false } e
    let elems ← wr q.elems q.last x
    return { q with elems := elems, last := add64 q.last 1 &&& sub64 q.cap 1 }

/-- `sc_queue_add_first(q, e)`, queue/sc_queue.h:231-240: `e` is evaluated after the growth and after `first` was changed. In `elems[first] = e`, the value of
`first` and an `e` that changes it in a function are in no particular order; this is not modelled and counted as undefined. -/
def addFirstMacro (al : Alloc Nat) (q : Q Nat) (e : Expr) : Res (Q Nat) := do
  let q ← expand al q
  if q.oom then return q
  let q := { q with oom := false, first := sub64 q.first 1 &&& sub64 q.cap 1 }
  if e = .delFirst then .ub
  else
    let (q, x) ← eval q e
    let elems ← wr q.elems q.first x
    return { q with elems := elems }

theorem eval_means {q : Q Nat} {l l' : List Nat} {e : Expr} {v : Nat} (r : Rep q l) (h : Spec.Means l e l' v) :
    ∃ q', eval q e = .ok (q', v) ∧ Rep q' l' ∧ q'.oom = q.oom ∧ q'.cap = q.cap ∧ l'.length ≤ l.length := by
  cases h with
  | val => exact ⟨q, rfl, r, rfl, rfl, Nat.le_refl _⟩
  | size => exact ⟨q, by rw [eval, r.size], r, rfl, rfl, Nat.le_refl _⟩
  | @«at» _ i x hx =>
    obtain ⟨hi, rfl⟩ := List.getElem?_eq_some_iff.1 hx
    exact ⟨q, by rw [eval, r.at hi]; rfl, r, rfl, rfl, Nat.le_refl _⟩
  | peekFirst => exact ⟨q, by rw [eval, r.peekFirst]; rfl, r, rfl, rfl, Nat.le_refl _⟩
  | peekLast => exact ⟨q, by rw [eval, r.peekLast]; rfl, r, rfl, rfl, Nat.le_refl _⟩
  | delFirst =>
    obtain ⟨q', h1, h2, h3⟩ := r.delFirst
    refine ⟨q', h1, h2, h3, ?_, by simp⟩
    obtain ⟨x, _, h5⟩ := Res.bind_eq_ok.1 h1
    cases h5; rfl
  | delLast =>
    obtain ⟨q', h1, h2, h3⟩ := r.delLast
    refine ⟨q', h1, h2, h3, ?_, by simp⟩
    obtain ⟨x, _, h5⟩ := Res.bind_eq_ok.1 h1
    cases h5; rfl

/-- **C127 (part).** Adding an expression at the end adds the value it has, after what it does to the queue, or fails and changes nothing; unless it deletes the
last element. -/
theorem queue_add_last_arg_partial {q : Q Nat} {l l' : List Nat} (r : Rep q l) (al : Alloc Nat) {e : Expr} {v : Nat} (h : Spec.Means l e l' v)
    (he : e ≠ .delLast) : (∃ q', addLastMacro al q e = .ok q' ∧ Rep q' (l' ++ [v]) ∧ q'.oom = false) ∨ addLastMacro al q e = .ok { q with oom := true } := by
  have go : ∀ {q' : Q Nat}, expand al q = .ok q' → Rep q' l → q'.oom = false → l.length + 1 < q'.cap →
      ∃ q'', addLastMacro al q e = .ok q'' ∧ Rep q'' (l' ++ [v]) ∧ q''.oom = false := by
    intro q' hx r' ho hroom
    unfold addLastMacro
    obtain ⟨q1, h1, r1, o1, c1, hl⟩ := eval_means (r'.with_oom false) h
    obtain ⟨m, hm, hr⟩ := r1.push_last (by rw [c1]; show l'.length + 1 < q'.cap; omega) v
    simp only [hx, Res.ok_bind, ho, Bool.false_eq_true, if_false, if_neg he, h1, hm]
    refine ⟨_, rfl, ?_, o1⟩
    have := hr.with_oom q1.oom
    exact this
  rcases expand_cases r al with ⟨hx, hroom⟩ | ⟨hx, hfull, hw⟩ | ⟨q', hx, hfull, r', ho, hroom, _⟩
  · by_cases ho : q.oom = true
    · right
      simp only [addLastMacro, hx, Res.ok_bind, ho, if_true]
      rw [with_oom_self ho]; rfl
    · exact .inl (go hx r (by simpa using ho) hroom)
  · right
    simp only [addLastMacro, hx, Res.ok_bind, if_true]
    rfl
  · exact .inl (go hx r' ho hroom)

/-- When `first` was moved back, the queue has one more element: what the memory held there. -/
theorem Rep.back {q : Q Nat} {l : List Nat} (r : Rep q l) (hroom : l.length + 1 < q.cap) :
    ∃ g, q.elems[sub64 q.first 1 &&& sub64 q.cap 1]? = some g ∧ Rep { q with oom := false, first := sub64 q.first 1 &&& sub64 q.cap 1 } (g :: l) := by
  have hp := r.pos
  have hlt : (sub64 q.first 1 &&& sub64 q.cap 1) < q.elems.length := by
    rw [r.len, sub64_mask r.pow (by omega)]
    exact Nat.mod_lt _ (by omega)
  refine ⟨q.elems[sub64 q.first 1 &&& sub64 q.cap 1], List.getElem?_eq_getElem hlt, ?_⟩
  obtain ⟨m, hm, hr⟩ := r.push_first hroom (q.elems[sub64 q.first 1 &&& sub64 q.cap 1])
  rw [wr_lt hlt] at hm
  cases hm
  rw [List.set_getElem_self] at hr
  exact hr

theorem Rep.set_first {q : Q Nat} {g : Nat} {l : List Nat} (r : Rep q (g :: l)) (x : Nat) :
    ∃ m, wr q.elems q.first x = .ok m ∧ Rep { q with elems := m } (x :: l) := by
  have hf := r.first_lt
  have hs := r.short
  simp only [List.length_cons] at hs
  refine ⟨_, wr_lt (by rw [r.len]; exact hf), r.pow, by simp [r.len], hf, by simpa using hs, by simpa using r.last_eq, ?_⟩
  intro i hi
  simp only [List.length_cons] at hi
  cases i with
  | zero =>
    simp only [Nat.add_zero, Nat.mod_eq_of_lt hf]
    rw [List.getElem?_set_self (by rw [r.len]; exact hf)]
    rfl
  | succ i =>
    have hne : q.first ≠ (q.first + (i + 1)) % q.cap := by
      rw [mod_of_lt_two_mul (by omega)]
      split <;> omega
    simp only
    rw [List.getElem?_set_ne hne]
    exact r.cell (i + 1) (by simpa using hi)

/-- What adding an expression at the front does: it fails and changes nothing, or the expression is evaluated for the queue with one more element in front, some
`g` that the memory held, and that element is replaced by the value. -/
theorem queue_add_first_arg {q : Q Nat} {l : List Nat} (r : Rep q l) (al : Alloc Nat) {e : Expr} (he : e ≠ .delFirst) :
    addFirstMacro al q e = .ok { q with oom := true } ∨
    ∃ g, ∀ l' v, Spec.Means (g :: l) e (g :: l') v → ∃ q', addFirstMacro al q e = .ok q' ∧ Rep q' (v :: l') ∧ q'.oom = false := by
  have go : ∀ {q' : Q Nat}, expand al q = .ok q' → Rep q' l → q'.oom = false → l.length + 1 < q'.cap →
      ∃ g, ∀ l' v, Spec.Means (g :: l) e (g :: l') v → ∃ q'', addFirstMacro al q e = .ok q'' ∧ Rep q'' (v :: l') ∧ q''.oom = false := by
    intro q' hx r' ho hroom
    obtain ⟨g, _, rb⟩ := r'.back hroom
    refine ⟨g, fun l' v h => ?_⟩
    unfold addFirstMacro
    obtain ⟨q1, h1, r1, o1, c1, hl⟩ := eval_means rb h
    obtain ⟨m, hm, hr⟩ := r1.set_first v
    simp only [hx, Res.ok_bind, ho, Bool.false_eq_true, if_false, if_neg he, h1, hm]
    exact ⟨_, rfl, hr, o1⟩
  rcases expand_cases r al with ⟨hx, hroom⟩ | ⟨hx, hfull, hw⟩ | ⟨q', hx, hfull, r', ho, hroom, _⟩
  · by_cases ho : q.oom = true
    · left
      simp only [addFirstMacro, hx, Res.ok_bind, ho, if_true]
      rw [with_oom_self ho]; rfl
    · exact .inr (go hx r (by simpa using ho) hroom)
  · left
    simp only [addFirstMacro, hx, Res.ok_bind, if_true]
    rfl
  · exact .inr (go hx r' ho hroom)

/-- **C127 (part).** Adding a value that does not depend on the queue, or its last element, deleted or not, at the front adds that value, or fails and changes
nothing. -/
theorem queue_add_first_arg_partial {q : Q Nat} {l l' : List Nat} (r : Rep q l) (al : Alloc Nat) {e : Expr} {v : Nat} (h : Spec.Means l e l' v)
    (he : e = .val v ∨ e = .peekLast ∨ e = .delLast) :
    (∃ q', addFirstMacro al q e = .ok q' ∧ Rep q' (v :: l') ∧ q'.oom = false) ∨ addFirstMacro al q e = .ok { q with oom := true } := by
  rcases queue_add_first_arg r al (e := e) (by rcases he with rfl | rfl | rfl <;> (intro hc; cases hc)) with h1 | ⟨g, h1⟩
  · exact .inr h1
  · refine .inl (h1 l' v ?_)
    rcases he with rfl | rfl | rfl
    · cases h; exact .val
    · cases h with
      | @peekLast l x => exact .peekLast (l := g :: l)
    · cases h with
      | @delLast l x => exact .delLast (l := g :: l')

/-- **C127 is violated**: adding element `i + 1` at the front adds element `i` instead, if the memory suffices, and adding the size adds one more than it is. -/
theorem queue_add_first_arg_violated {q : Q Nat} {l : List Nat} (r : Rep q l) (al : Alloc Nat) {i : Nat} (hi : i < l.length) :
    (addFirstMacro al q (.at (i + 1)) = .ok { q with oom := true } ∨ ∃ q', addFirstMacro al q (.at (i + 1)) = .ok q' ∧ Rep q' (l[i] :: l)) ∧
    (addFirstMacro al q .size = .ok { q with oom := true } ∨ ∃ q', addFirstMacro al q .size = .ok q' ∧ Rep q' ((l.length + 1) :: l)) := by
  constructor
  · rcases queue_add_first_arg r al (e := .at (i + 1)) (fun hc => by cases hc) with h1 | ⟨g, h1⟩
    · exact .inl h1
    · obtain ⟨q', h2, h3, _⟩ := h1 l l[i] (.at (by simp))
      exact .inr ⟨q', h2, h3⟩
  · rcases queue_add_first_arg r al (e := .size) (fun hc => by cases hc) with h1 | ⟨g, h1⟩
    · exact .inl h1
    · obtain ⟨q', h2, h3, _⟩ := h1 l (l.length + 1) (.size (l := g :: l))
      exact .inr ⟨q', h2, h3⟩

/-- **C127 is violated**: adding the first element once more at the front adds what the memory held. -/
theorem queue_peek_first_arg_violated : ∃ q rs q', run (init (some fun _ => 0)) [.addLast 5 (some fun _ => 0)] = .ok (q, rs) ∧ Rep q [5] ∧
    Spec.Means [5] .peekFirst [5] 5 ∧ addFirstMacro none q .peekFirst = .ok q' ∧ Rep q' [0, 5] := by
  refine ⟨⟨false, 8, 0, 1, [5, 0, 0, 0, 0, 0, 0, 0]⟩, _, ⟨false, 8, 7, 1, [5, 0, 0, 0, 0, 0, 0, 0]⟩, by with_unfolding_all rfl, ?_, .peekFirst,
    by with_unfolding_all rfl, ?_⟩
  · exact ⟨⟨3, rfl, by omega, by omega⟩, rfl, by decide, by decide, by decide, by decide⟩
  · exact ⟨⟨3, rfl, by omega, by omega⟩, rfl, by decide, by decide, by decide, by decide⟩

/-- **C127 is violated**: taking the last element and adding it again at the end is undefined, unless memory is missing. -/
theorem queue_add_last_arg_violated {q : Q Nat} {l : List Nat} (r : Rep q l) (ho : q.oom = false) (hroom : l.length + 1 < q.cap) (al : Alloc Nat) :
    addLastMacro al q .delLast = .ub := by
  rcases expand_cases r al with ⟨hx, _⟩ | ⟨_, hfull, _⟩ | ⟨_, _, hfull, _⟩
  · simp [addLastMacro, hx, Res.ok_bind, ho]
  · omega
  · omega

/-! ## Examples -/

/-- `sc_queue_add_last(&q, sc_queue_del_first(&q))` turns the queue. -/
example : (match addLastMacro none ⟨false, 8, 6, 1, [9, 0, 0, 0, 0, 0, 7, 8]⟩ .delFirst with
    | .ok q => some (q.elems, q.first, q.last)
    | .ub => none) = some ([9, 7, 0, 0, 0, 0, 7, 8], 7, 2) := by with_unfolding_all rfl

/-- `sc_queue_add_first(&q, sc_queue_del_last(&q))` turns it the other way. -/
example : (match addFirstMacro none ⟨false, 8, 6, 1, [9, 0, 0, 0, 0, 0, 7, 8]⟩ .delLast with
    | .ok q => some (q.elems, q.first, q.last)
    | .ub => none) = some ([9, 0, 0, 0, 0, 9, 7, 8], 5, 0) := by with_unfolding_all rfl

end Verif.Queue
