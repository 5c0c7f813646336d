import Verif.Array.Spec

/-! # Helper lemmas for the array model -/

namespace Verif.Array

/-- Invariant: the block has `cap` cells, `size` of them in use, and its byte size is
representable. -/
structure WF (sz : Nat) (a : Arr α) : Prop where
  len : a.elems.length = a.cap
  size_le : a.size ≤ a.cap
  bytes : a.cap * sz ≤ SIZE_MAX

/-- The elements an array holds. -/
def contents (a : Arr α) : List α := a.elems.take a.size

/-- The abstract state an array stands for. -/
def abs (a : Arr α) : Spec.State α := ⟨contents a, a.oom⟩

theorem WF.length_contents {sz : Nat} {a : Arr α} (h : WF sz a) :
    (contents a).length = a.size := by
  simp [contents, h.len, h.size_le]

theorem take_succ_set (m : List α) (n : Nat) (x : α) (h : n < m.length) :
    (m.set n x).take (n + 1) = m.take n ++ [x] := by
  apply List.ext_getElem?
  intro j
  grind

theorem grow_bytes {cap sz : Nat} (hsz : 0 < sz) (h8 : 8 * sz ≤ SIZE_MAX)
    (hc : ¬ cap > SIZE_MAX / sz / 2) :
    (if cap = 0 then 8 else mul64 cap 2) = (if cap = 0 then 8 else cap * 2) ∧
    (if cap = 0 then 8 else cap * 2) * sz ≤ SIZE_MAX := by
  have h2 : cap * 2 ≤ SIZE_MAX / sz := by omega
  have h3 : cap * 2 * sz ≤ SIZE_MAX := (Nat.le_div_iff_mul_le hsz).1 h2
  have h4 : cap * 2 ≤ cap * 2 * sz := Nat.le_mul_of_pos_right _ hsz
  constructor
  · split
    · rfl
    · unfold mul64
      exact Nat.mod_eq_of_lt (by omega)
  · split
    · exact h8
    · exact h3

theorem room_eq {cap sz : Nat} (hsz : 0 < sz) (h : cap * sz ≤ SIZE_MAX) :
    room (mul64 cap sz) sz = cap := by
  unfold room mul64
  rw [Nat.mod_eq_of_lt (by omega), Nat.mul_div_cancel _ hsz]

theorem fail_bound {cap sz : Nat} (hsz : 0 < sz) (hc : cap > SIZE_MAX / sz / 2) :
    SIZE_MAX < 2 * ((cap + 1) * sz) := by
  have h : SIZE_MAX / sz < 2 * (cap + 1) := by omega
  have := (Nat.div_lt_iff_lt_mul hsz).1 h
  rw [← Nat.mul_assoc]; exact this

/-- Everything `add` does. -/
theorem add_cases {sz : Nat} (hsz : 0 < sz) (h8 : 8 * sz ≤ SIZE_MAX) {a : Arr α}
    (w : WF sz a) (al : Alloc α) (k : α) :
    (add sz al a k = .ok { a with oom := true } ∧ a.cap = a.size ∧
      (al = none ∨ SIZE_MAX < 2 * ((a.size + 1) * sz))) ∨
    ∃ a', add sz al a k = .ok a' ∧ WF sz a' ∧ contents a' = contents a ++ [k] ∧
      a'.oom = false ∧ a'.size = a.size + 1 := by
  have hl := w.len
  have hs := w.size_le
  unfold add
  by_cases hc : a.cap = a.size
  · simp only [hc, if_true]
    by_cases hm : a.size > SIZE_MAX / sz / 2
    · left
      simp only [hm, if_true]
      exact ⟨trivial, trivial, Or.inr (fail_bound hsz hm)⟩
    · simp only [hm, if_false]
      cases al with
      | none => left; exact ⟨rfl, trivial, Or.inl rfl⟩
      | some fill =>
        right
        have hg := grow_bytes hsz h8 hm
        have hr := room_eq hsz hg.2
        have hlt : a.size < (if a.size = 0 then 8 else a.size * 2) := by split <;> omega
        simp only [hg.1, hr]
        rw [wr_lt (by simpa using hlt)]
        refine ⟨_, rfl, ⟨by simp, by simp; omega, hg.2⟩, ?_, rfl, rfl⟩
        simp only [contents]
        rw [take_succ_set _ _ _ (by simpa using hlt), resized_take (by omega) (by omega)]
  · right
    simp only [hc, if_false]
    have hlt : a.size < a.elems.length := by omega
    rw [wr_lt hlt]
    refine ⟨_, rfl, ⟨by simp [hl], by simp; omega, w.bytes⟩, ?_, rfl, rfl⟩
    simp only [contents]
    rw [take_succ_set _ _ _ hlt]

theorem del_spec {sz : Nat} {a : Arr α} (w : WF sz a) {i : Nat} (hi : i < a.size) :
    ∃ a', del a i = .ok a' ∧ WF sz a' ∧
      contents a' = (contents a).take i ++ (contents a).drop (i + 1) ∧ a'.oom = a.oom := by
  have hl := w.len
  have hs := w.size_le
  unfold del
  simp only [hi, decide_true, cassert_true, Res.ok_bind]
  by_cases hc : a.size - i - 1 > 0
  · simp only [hc, if_true, memmove]
    rw [if_pos (by omega)]
    refine ⟨_, rfl, ⟨?_, by simp; omega, w.bytes⟩, ?_, rfl⟩
    · simp; omega
    · simp only [contents]
      apply List.ext_getElem?
      intro j
      grind
  · simp only [hc, if_false]
    refine ⟨_, rfl, ⟨hl, by simp; omega, w.bytes⟩, ?_, rfl⟩
    simp only [contents]
    apply List.ext_getElem?
    intro j
    grind

theorem delUnordered_spec {sz : Nat} {a : Arr α} (w : WF sz a) {i : Nat} (hi : i < a.size) :
    ∃ a' x, delUnordered a i = .ok a' ∧ WF sz a' ∧ (contents a).getLast? = some x ∧
      contents a' = ((contents a).set i x).dropLast ∧ a'.oom = a.oom := by
  have hl := w.len
  have hs := w.size_le
  unfold delUnordered
  simp only [hi, decide_true, cassert_true, Res.ok_bind]
  rw [rd_lt (show a.size - 1 < a.elems.length by omega)]
  simp only [Res.ok_bind]
  rw [wr_lt (by omega)]
  refine ⟨_, a.elems[a.size - 1], rfl, ⟨by simp [hl], by simp; omega, w.bytes⟩, ?_, ?_, rfl⟩
  · simp only [contents, List.getLast?_eq_getElem?]
    grind
  · simp only [contents]
    apply List.ext_getElem?
    intro j
    grind

theorem delLast_spec {sz : Nat} {a : Arr α} (w : WF sz a) (hi : a.size ≠ 0) :
    ∃ a', delLast a = .ok a' ∧ WF sz a' ∧
      contents a' = (contents a).dropLast ∧ a'.oom = a.oom := by
  have hl := w.len
  have hs := w.size_le
  unfold delLast
  simp only [ne_eq, hi, not_false_eq_true, decide_true, cassert_true, Res.ok_bind]
  refine ⟨_, rfl, ⟨hl, by simp; omega, w.bytes⟩, ?_, rfl⟩
  simp only [contents]
  apply List.ext_getElem?
  intro j
  grind

/-- One step of the model is one step of the specification, or its argument is out of the
documented range. -/
theorem step_cases {sz : Nat} (hsz : 0 < sz) (h8 : 8 * sz ≤ SIZE_MAX) {a : Arr α}
    (w : WF sz a) (op : Op α) :
    (∃ a', step sz a op = .ok a' ∧ WF sz a' ∧ Spec.Step sz (abs a) op (abs a')) ∨
    (step sz a op = .ub ∧ ¬ Spec.InRange (abs a) op) := by
  have hlen := w.length_contents
  cases op with
  | add k al =>
    left
    rcases add_cases hsz h8 w al k with ⟨h, hc, hf⟩ | ⟨a', h, hw, hcont, ho, _⟩
    · refine ⟨_, h, ⟨w.len, w.size_le, w.bytes⟩, ?_⟩
      exact Spec.Step.add_fail (abs a) k al (by simpa [abs, hlen] using hf)
    · refine ⟨_, h, hw, ?_⟩
      have := Spec.Step.add_ok (sz := sz) (abs a) k al
      simpa [abs, hcont, ho] using this
  | del i =>
    by_cases hi : i < a.size
    · left
      obtain ⟨a', h, hw, hcont, ho⟩ := del_spec w hi
      refine ⟨_, h, hw, ?_⟩
      have := Spec.Step.del (sz := sz) (abs a) i (by simpa [abs, hlen] using hi)
      simpa [abs, hcont, ho] using this
    · right
      simp [step, del, hi, Spec.InRange, abs, hlen]
  | delUnordered i =>
    by_cases hi : i < a.size
    · left
      obtain ⟨a', x, h, hw, hx, hcont, ho⟩ := delUnordered_spec w hi
      refine ⟨_, h, hw, ?_⟩
      have := Spec.Step.delUnordered (sz := sz) (abs a) i x (by simpa [abs, hlen] using hi)
        (by simpa [abs] using hx)
      simpa [abs, hcont, ho] using this
    · right
      simp [step, delUnordered, hi, Spec.InRange, abs, hlen]
  | delLast =>
    by_cases hi : a.size = 0
    · right
      simp [step, delLast, hi, Spec.InRange, abs, contents]
    · left
      obtain ⟨a', h, hw, hcont, ho⟩ := delLast_spec w hi
      refine ⟨_, h, hw, ?_⟩
      have hne : (abs a).items ≠ [] := by
        intro h0
        have : (contents a).length = 0 := by simp [abs] at h0; simp [h0]
        omega
      have := Spec.Step.delLast (sz := sz) (abs a) hne
      simpa [abs, hcont, ho] using this
  | clear =>
    left
    refine ⟨_, rfl, ⟨w.len, by simp [clear], w.bytes⟩, ?_⟩
    have := Spec.Step.clear (sz := sz) (abs a)
    simpa [abs, clear, contents] using this

theorem wf_init (sz : Nat) : WF sz (init : Arr α) := ⟨rfl, by simp [init], by simp [init]⟩

theorem run_spec {sz : Nat} (hsz : 0 < sz) (h8 : 8 * sz ≤ SIZE_MAX) (ops : List (Op α)) :
    ∀ {a a' : Arr α}, WF sz a → run sz a ops = .ok a' →
      WF sz a' ∧ Spec.Run sz (abs a) ops (abs a') := by
  induction ops with
  | nil => intro a a' w h; simp [run] at h; subst h; exact ⟨w, .nil _⟩
  | cons op ops ih =>
    intro a a' w h
    simp only [run, Res.bind_eq_ok] at h
    obtain ⟨a1, h1, h2⟩ := h
    rcases step_cases hsz h8 w op with ⟨a1', hs, hw, hst⟩ | ⟨hub, _⟩
    · rw [hs] at h1; cases h1
      have := ih hw h2
      exact ⟨this.1, .cons hst this.2⟩
    · rw [hub] at h1; cases h1

theorem foreachLoop_spec (a : Arr α) (hl : a.size ≤ a.elems.length)
    (body : σ → α → σ × Bool) : ∀ (fuel i : Nat) (s : σ), i ≤ a.size → a.size + 1 ≤ fuel + i →
    foreachLoop a body fuel true i s = .ok (Spec.walk body s ((contents a).drop i)) := by
  intro fuel
  induction fuel with
  | zero => intro i s hi hf; omega
  | succ fuel ih =>
    intro i s hi hf
    unfold foreachLoop
    by_cases h : i = a.size
    · subst h
      simp [contents, Spec.walk]
    · have hi' : i < a.size := by omega
      simp only [Bool.true_and, bne_iff_ne, ne_eq, h, not_false_eq_true, if_true]
      rw [rd_lt (show i < a.elems.length by omega)]
      have hd : (contents a).drop i = a.elems[i] :: (contents a).drop (i + 1) := by
        have hlt : i < (contents a).length := by simp [contents]; omega
        rw [List.drop_eq_getElem_cons hlt]
        simp [contents]
      rw [hd]
      simp only [Res.ok_bind, Spec.walk]
      by_cases hb : (body s a.elems[i]).2 = true
      · simp only [hb, if_true]
        cases fuel with
        | zero => omega
        | succ n => simp [foreachLoop]
      · simp only [Bool.not_eq_true] at hb
        simp only [hb]
        simpa using ih (i + 1) (body s a.elems[i]).1 (by omega) (by omega)

end Verif.Array
