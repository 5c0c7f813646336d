import Verif.Array.Props

/-! # `sc_array_foreach` with a body that changes the array

What the body does is given as calls on the array; an element is visited when the body runs with it. -/

namespace Verif.Array

/-- `sc_array_foreach`, array/sc_array.h:207-209, from index `i` with flag `k`: the elements visited, and the outcome, `none` if it is undefined. `body s e` is
the new state of the program, the calls made and whether it ends with `break`. -/
inductive Loop (sz : Nat) (body : σ → α → σ × List (Op α) × Bool) : Bool → Nat → σ → Arr α → List α → Option (σ × Arr α) → Prop
  | stop {k i s a} : (k && i != a.size) = false → Loop sz body k i s a [] (some (s, a))
  | over {k i s a} : (k && i != a.size) = true → rd a.elems i = .ub → Loop sz body k i s a [] none
  | bad {k i s a e} : (k && i != a.size) = true → rd a.elems i = .ok e → run sz a (body s e).2.1 = .ub → Loop sz body k i s a [e] none
  | next {k i s a e a' vs out} : (k && i != a.size) = true → rd a.elems i = .ok e → run sz a (body s e).2.1 = .ok a' →
      Loop sz body (!(if (body s e).2.2 then k else !k)) (i + 1) (body s e).1 a' vs out → Loop sz body k i s a (e :: vs) out

/-- The body only adds. -/
def Adds (body : σ → α → σ × List (Op α) × Bool) : Prop := ∀ s e, ∀ op ∈ (body s e).2.1, ∃ x al, op = .add x al

/-- Calls that add keep what is there. -/
theorem run_adds {sz : Nat} (hsz : 0 < sz) (h8 : 8 * sz ≤ SIZE_MAX) (ops : List (Op α)) : ∀ {a : Arr α}, WF sz a →
    (∀ op ∈ ops, ∃ x al, op = .add x al) → ∃ a', run sz a ops = .ok a' ∧ WF sz a' ∧ contents a <+: contents a' := by
  induction ops with
  | nil => intro a w _; exact ⟨a, rfl, w, List.prefix_refl _⟩
  | cons op ops ih =>
    intro a w h
    obtain ⟨x, al, rfl⟩ := h op (by simp)
    rw [run]
    rcases add_cases hsz h8 w al x with ⟨e, _, _⟩ | ⟨a1, e, w1, hc, _, _⟩
    · have w1 : WF sz { a with oom := true } := ⟨w.len, w.size_le, w.bytes⟩
      obtain ⟨a', h1, h2, h3⟩ := ih w1 (fun op ho => h op (by simp [ho]))
      refine ⟨a', ?_, h2, h3⟩
      simp only [step, e, Res.ok_bind, h1]
    · obtain ⟨a', h1, h2, h3⟩ := ih w1 (fun op ho => h op (by simp [ho]))
      refine ⟨a', ?_, h2, List.IsPrefix.trans ?_ h3⟩
      · simp only [step, e, Res.ok_bind, h1]
      · rw [hc]; exact List.prefix_append _ _

theorem loop_adds {sz : Nat} (hsz : 0 < sz) (h8 : 8 * sz ≤ SIZE_MAX) {body : σ → α → σ × List (Op α) × Bool} (hb : Adds body) {k : Bool}
    {i : Nat} {s : σ} {a : Arr α} {vs : List α} {out : Option (σ × Arr α)} (h : Loop sz body k i s a vs out) : WF sz a → i ≤ a.size →
    ∃ s' a', out = some (s', a') ∧ WF sz a' ∧ contents a <+: contents a' ∧ vs <+: (contents a').drop i ∧
      (k = true → (∀ s e, (body s e).2.2 = false) → vs = (contents a').drop i) := by
  induction h with
  | @stop k i s a hg =>
    intro w hi
    refine ⟨s, a, rfl, w, List.prefix_refl _, by simp, ?_⟩
    intro hk _
    subst hk
    have : i = a.size := by simpa using hg
    rw [List.drop_eq_nil_of_le (by rw [w.length_contents]; omega)]
  | @over k i s a hg hr =>
    intro w hi
    have h1 := rd_eq_ub.1 hr
    have h2 := w.len
    have h3 := w.size_le
    have : i ≠ a.size := by
      rintro rfl; simp at hg
    omega
  | @bad k i s a e hg hr hu =>
    intro w hi
    obtain ⟨a', h1, _⟩ := run_adds hsz h8 _ w (hb s e)
    rw [h1] at hu; cases hu
  | @next k i s a e a' vs out hg hr hu _ ih =>
    intro w hi
    obtain ⟨a1, h1, w1, h2⟩ := run_adds hsz h8 _ w (hb s e)
    rw [h1] at hu; cases hu
    have hne : i ≠ a.size := by rintro rfl; simp at hg
    have hlt : i < a.size := by omega
    have hle : a.size ≤ a'.size := by
      have := h2.length_le
      rw [w.length_contents, w1.length_contents] at this
      exact this
    obtain ⟨s2, a2, e2, w2, h3, h4, h5⟩ := ih w1 (by omega)
    have h6 : (contents a2)[i]? = some e := by
      have h7 := rd_eq_ok.1 hr
      have h8 : (contents a)[i]? = some e := by
        rw [contents, List.getElem?_take_of_lt hlt]; exact h7
      have h9 := h2.trans h3
      obtain ⟨t, ht⟩ := h9
      rw [← ht, List.getElem?_append_left (by rw [w.length_contents]; exact hlt)]
      exact h8
    have h7 : (contents a2).drop i = e :: (contents a2).drop (i + 1) := by
      have := (List.getElem?_eq_some_iff.1 h6)
      obtain ⟨hl, he⟩ := this
      rw [List.drop_eq_getElem_cons hl, he]
    refine ⟨s2, a2, e2, w2, h2.trans h3, ?_, ?_⟩
    · rw [h7]; exact List.cons_prefix_cons.2 ⟨rfl, h4⟩
    · intro hk hn
      rw [h7, h5 (by rw [hn]; simp [hk]) hn]

/-- **C128 (part).** A loop whose body only adds elements is defined, and visits elements in order, each once; if it does not break, it visits all,
those that were added as well. Missing: bodies that delete. -/
theorem array_loop_partial {sz : Nat} (hsz : 0 < sz) (h8 : 8 * sz ≤ SIZE_MAX) {ops : List (Op α)} {a : Arr α} (hr : run sz init ops = .ok a)
    {body : σ → α → σ × List (Op α) × Bool} (hb : Adds body) {s : σ} {vs : List α} {out : Option (σ × Arr α)}
    (h : Loop sz body true 0 s a vs out) :
    ∃ s' a', out = some (s', a') ∧ contents a <+: contents a' ∧ vs <+: contents a' ∧
      ((∀ s e, (body s e).2.2 = false) → vs = contents a') := by
  obtain ⟨s', a', h1, _, h2, h3, h4⟩ := loop_adds hsz h8 hb h (run_spec hsz h8 ops (wf_init sz) hr).1 (by omega)
  refine ⟨s', a', h1, h2, by simpa using h3, fun hn => ?_⟩
  simpa using h4 rfl hn

/-- A body that deletes the last element when it is visited -/
def dropOne (_ : Unit) (e : Nat) : Unit × List (Op Nat) × Bool := ((), if e = 1 then [.delLast] else [], false)

/-- **C128 is violated**: if the body deletes the only element when it is visited, the loop goes on behind the end of the array, and out of its memory. -/
theorem array_loop_violated : ∃ a, run 4 init [.add 1 (some fun _ => 0)] = .ok a ∧ contents a = [1] ∧
    Loop 4 dropOne true 0 () a [1, 0, 0, 0, 0, 0, 0, 0] none := by
  refine ⟨⟨false, 8, 1, [1, 0, 0, 0, 0, 0, 0, 0]⟩, rfl, rfl, ?_⟩
  refine .next (a' := ⟨false, 8, 0, [1, 0, 0, 0, 0, 0, 0, 0]⟩) rfl rfl rfl ?_
  iterate 7 refine .next (a' := ⟨false, 8, 0, [1, 0, 0, 0, 0, 0, 0, 0]⟩) rfl rfl rfl ?_
  exact .over rfl rfl

/-! ## An example

Each odd number adds its successor. -/

def twice (_ : Unit) (e : Nat) : Unit × List (Op Nat) × Bool := ((), if e % 2 = 1 then [.add (e + 1) (some fun _ => 0)] else [], false)

example : Adds twice := by
  intro s e op h
  unfold twice at h
  split at h <;> simp at h
  exact ⟨_, _, h⟩

example : ∃ a a', run 4 init [.add 1 (some fun _ => 0), .add 3 (some fun _ => 0)] = .ok a ∧
    Loop 4 twice true 0 () a [1, 3, 2, 4] (some ((), a')) ∧ contents a' = [1, 3, 2, 4] := by
  refine ⟨⟨false, 8, 2, [1, 3, 0, 0, 0, 0, 0, 0]⟩, ⟨false, 8, 4, [1, 3, 2, 4, 0, 0, 0, 0]⟩, rfl, ?_, rfl⟩
  refine .next (a' := ⟨false, 8, 3, [1, 3, 2, 0, 0, 0, 0, 0]⟩) rfl rfl rfl ?_
  iterate 3 refine .next (a' := ⟨false, 8, 4, [1, 3, 2, 4, 0, 0, 0, 0]⟩) rfl rfl rfl ?_
  exact .stop rfl

end Verif.Array
