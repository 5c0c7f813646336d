import Verif.Heap.Props

/-!
# A heap with negated keys

The documentation says how to get the largest key first: negate the keys when they are added, and again when they
are taken out (heap/README.md:42-52). This is client code; the negation is that of `int64_t`.
-/

namespace Verif.Heap

/-- `-k` for `int64_t`, heap/README.md:45: undefined for the smallest value. -/
def neg64 (k : Int) : Res Int := if k = -9223372036854775808 then .ub else .ok (-k)

/-- One call of a client that negates keys on their way in and out, heap/README.md:42-52. -/
def maxStep (h : Heap δ) : Op δ → Res (Heap δ × Out δ)
  | .add k d al => do
    let k ← neg64 k
    step h (.add k d al)
  | op => do
    let (h, o) ← step h op
    match o with
    | .elem (some e) => do
      let k ← neg64 e.key
      return (h, .elem (some { e with key := k }))
    | o => return (h, o)

/-- A history of such calls. -/
def maxRun (h : Heap δ) : List (Op δ) → Res (Heap δ × List (Out δ))
  | [] => .ok (h, [])
  | op :: ops => do
    let (h, o) ← maxStep h op
    let (h, os) ← maxRun h ops
    return (h, o :: os)

namespace Spec

/-- `e` is an element of the bag with the largest key. -/
def IsMax (e : Data δ) (s : List (Data δ)) : Prop := e ∈ s ∧ ∀ x ∈ s, x.key ≤ e.key

/-- One operation on the bag `s`, the largest first. -/
inductive MaxStep : List (Data δ) → Op δ → Out δ → List (Data δ) → Prop where
  | add (s k d al s') (h : s'.Perm (⟨k, d⟩ :: s)) : MaxStep s (.add k d al) (.added true) s'
  | pop_empty : MaxStep [] .pop (.elem none) []
  | pop (s e s') (hm : IsMax e s) (h : s.Perm (e :: s')) : MaxStep s .pop (.elem (some e)) s'
  | peek_empty : MaxStep [] .peek (.elem none) []
  | peek (s e) (hm : IsMax e s) : MaxStep s .peek (.elem (some e)) s
  | clear (s) : MaxStep s .clear .unit []

/-- A history of operations. -/
inductive MaxRun : List (Data δ) → List (Op δ) → List (Out δ) → List (Data δ) → Prop where
  | nil (s) : MaxRun s [] [] s
  | cons {s op o s' ops os s''} :
      MaxStep s op o s' → MaxRun s' ops os s'' → MaxRun s (op :: ops) (o :: os) s''

/-- All keys are values of `int64_t` other than the smallest one. -/
def KeysOk (ops : List (Op δ)) : Prop :=
  ∀ k d al, Op.add k d al ∈ ops → -9223372036854775808 < k ∧ k ≤ 9223372036854775807

end Spec

/-- The element as the client sees it. -/
def flip (e : Data δ) : Data δ := { e with key := -e.key }

theorem flip_flip (e : Data δ) : flip (flip e) = e := by simp [flip]

/-- All keys in the heap can be negated. -/
def InRange (s : List (Data δ)) : Prop := ∀ e ∈ s, -9223372036854775808 < e.key ∧ e.key < 9223372036854775808

theorem isMax_flip {e : Data δ} {s : List (Data δ)} (h : Spec.IsMin e s) : Spec.IsMax (flip e) (s.map flip) := by
  refine ⟨List.mem_map_of_mem h.1, fun x hx => ?_⟩
  obtain ⟨y, hy, rfl⟩ := List.mem_map.1 hx
  have := h.2 y hy
  simp only [flip]
  omega

theorem maxStep_spec {h : Heap δ} (w : WF h) (op : Op δ) (hal : ∀ k d al, op = .add k d al → al ≠ none)
    (hk : ∀ k d al, op = .add k d al → -9223372036854775808 < k ∧ k ≤ 9223372036854775807)
    (hs : h.size < 144115188075855871) (hc : h.cap < 288230376151711744) (hr : InRange (contents h)) :
    ∃ h' o, maxStep h op = .ok (h', o) ∧ WF h' ∧ Spec.MaxStep ((contents h).map flip) op o ((contents h').map flip) ∧
      h'.size ≤ h.size + 1 ∧ h'.cap < 288230376151711744 ∧ InRange (contents h') := by
  cases op with
  | add k d al =>
    have hk' := hk k d al rfl
    obtain ⟨h', o, hst, hw, hsp, h1, h2⟩ := step_spec w (.add (-k) d al) (fun k' d' al' he => by cases he; exact hal k d al rfl) hs hc
    generalize contents h = s at hsp hr ⊢
    generalize hs' : contents h' = s' at hsp ⊢
    cases hsp with
    | add _ _ _ _ _ hp =>
      refine ⟨h', .added true, ?_, hw, ?_, h1, h2, ?_⟩
      · simp only [maxStep, neg64]
        rw [if_neg (by omega), Res.ok_bind]
        exact hst
      · rw [hs']
        refine .add _ _ _ _ _ ?_
        have := hp.map flip
        simpa [flip] using this
      · rw [hs']
        intro e he
        rcases List.mem_cons.1 (hp.subset he) with rfl | he
        · simp only
          omega
        · exact hr e he
  | pop =>
    obtain ⟨h', o, hst, hw, hsp, h1, h2⟩ := step_spec w .pop hal hs hc
    simp only [maxStep, hst, Res.ok_bind]
    generalize contents h = s at hsp hr ⊢
    generalize hs' : contents h' = s' at hsp ⊢
    cases hsp with
    | pop_empty => exact ⟨h', _, rfl, hw, by rw [hs']; exact .pop_empty, h1, h2, by rw [hs']; exact hr⟩
    | pop _ e _ hm hp =>
      have := hr e hm.1
      refine ⟨h', .elem (some (flip e)), ?_, hw, ?_, h1, h2, ?_⟩
      · simp only [neg64]
        rw [if_neg (by omega)]
        rfl
      · rw [hs']
        exact .pop _ _ _ (isMax_flip hm) (by simpa using hp.map flip)
      · rw [hs']
        exact fun x hx => hr x (hp.symm.subset (List.mem_cons_of_mem _ hx))
  | peek =>
    obtain ⟨h', o, hst, hw, hsp, h1, h2⟩ := step_spec w .peek hal hs hc
    simp only [maxStep, hst, Res.ok_bind]
    generalize contents h = s at hsp hr ⊢
    generalize hs' : contents h' = s' at hsp ⊢
    cases hsp with
    | peek_empty => exact ⟨h', _, rfl, hw, by rw [hs']; exact .peek_empty, h1, h2, by rw [hs']; exact hr⟩
    | peek _ e hm =>
      have := hr e hm.1
      refine ⟨h', .elem (some (flip e)), ?_, hw, ?_, h1, h2, by rw [hs']; exact hr⟩
      · simp only [neg64]
        rw [if_neg (by omega)]
        rfl
      · rw [hs']
        exact .peek _ _ (isMax_flip hm)
  | clear =>
    obtain ⟨h', o, hst, hw, hsp, h1, h2⟩ := step_spec w .clear hal hs hc
    simp only [maxStep, hst, Res.ok_bind]
    generalize contents h = s at hsp hr ⊢
    generalize hs' : contents h' = s' at hsp ⊢
    cases hsp with
    | clear => exact ⟨h', _, rfl, hw, by rw [hs']; exact .clear _, h1, h2, by rw [hs']; intro e he; cases he⟩

theorem maxRun_spec (ops : List (Op δ)) : ∀ {h : Heap δ}, WF h → Spec.AllocOk ops → Spec.KeysOk ops → InRange (contents h) →
    h.size + ops.length < 144115188075855872 → h.cap < 288230376151711744 →
    ∃ h' os, maxRun h ops = .ok (h', os) ∧ WF h' ∧ Spec.MaxRun ((contents h).map flip) ops os ((contents h').map flip) := by
  induction ops with
  | nil => intro h w _ _ _ hn _; exact ⟨h, [], rfl, w, .nil _⟩
  | cons op ops ih =>
    intro h w hal hk hr hn hc
    simp only [List.length_cons] at hn
    obtain ⟨h1, o, hst, hw1, hs1, hsz, hc1, hr1⟩ := maxStep_spec w op
      (fun k d al he => hal k d al (by simp [he])) (fun k d al he => hk k d al (by simp [he])) (by omega) hc hr
    obtain ⟨h2, os, hrun, hw2, hs2⟩ := ih hw1 (fun k d al hm => hal k d al (List.mem_cons_of_mem _ hm))
      (fun k d al hm => hk k d al (List.mem_cons_of_mem _ hm)) hr1 (by omega) hc1
    exact ⟨h2, o :: os, by simp [maxRun, hst, hrun], hw2, .cons hs1 hs2⟩

/-- **C140, in part.** With keys negated on their way in and out, as the documentation says, a heap gives the largest
key first: every history is answered as by a bag from which the largest is taken. What is missing: the smallest value of
`int64_t`, see below, and the bounds of `heap_refines_priority_queue`. -/
theorem max_heap_partial (c : Nat) (al : Alloc (Data δ)) (ops : List (Op δ)) (hal : Spec.AllocOk ops) (hk : Spec.KeysOk ops)
    (hc : c < 2 ^ 58) (hn : ops.length < 2 ^ 57) :
    ∃ h os s, maxRun (init c al).1 ops = .ok (h, os) ∧ Spec.MaxRun [] ops os s ∧ h.size = s.length := by
  have h0 := init_size_cap c al
  have hc0 : contents (init c al).1 = [] := by simp [contents, h0.1]
  obtain ⟨h, os, hr, hw, hs⟩ := maxRun_spec ops (wf_init c al) hal hk (by rw [hc0]; intro e he; cases he) (by rw [h0.1]; omega) (by omega)
  rw [hc0] at hs
  exact ⟨h, os, _, hr, hs, by rw [List.length_map, length_contents hw]⟩

/-- **C140 is violated** for the smallest key, which a heap with the smallest key first holds like any other:
negating it is undefined. -/
theorem max_heap_violated (h : Heap δ) (d : δ) (al : Alloc (Data δ)) (ops : List (Op δ)) :
    maxRun h (.add (-9223372036854775808) d al :: ops) = .ub := rfl

/-- The example of the documentation: five keys, the largest first. -/
example : (match maxRun (init (δ := Int) 0 none).1 ([1, 4, 5, 3, 2].map (fun k => Op.add k k (some fun _ => ⟨0, 0⟩)) ++ List.replicate 6 Op.pop) with
    | .ok (_, os) => decide (os.drop 5 = [.elem (some ⟨5, 5⟩), .elem (some ⟨4, 4⟩), .elem (some ⟨3, 3⟩), .elem (some ⟨2, 2⟩),
        .elem (some ⟨1, 1⟩), .elem none])
    | .ub => false) = true := by
  decide +kernel

example : Spec.KeysOk ([1, 4, 5, 3, 2].map (fun k => Op.add k k (some fun _ => (⟨0, 0⟩ : Data Int)))) := by
  intro k d al h
  simp at h
  omega

end Verif.Heap
