import Verif.Heap.Model

/-! # What a heap is supposed to do: a priority queue as a bag of elements -/

namespace Verif.Heap.Spec

/-- `e` is an element of the bag with the smallest key. -/
def IsMin (e : Data δ) (s : List (Data δ)) : Prop := e ∈ s ∧ ∀ x ∈ s, e.key ≤ x.key

/-- One operation on the bag `s` (a list whose order does not matter). -/
inductive Step : List (Data δ) → Op δ → Out δ → List (Data δ) → Prop where
  | add (s k d al s') (h : s'.Perm (⟨k, d⟩ :: s)) : Step s (.add k d al) (.added true) s'
  | pop_empty : Step [] .pop (.elem none) []
  | pop (s e s') (hm : IsMin e s) (h : s.Perm (e :: s')) : Step s .pop (.elem (some e)) s'
  | peek_empty : Step [] .peek (.elem none) []
  | peek (s e) (hm : IsMin e s) : Step s .peek (.elem (some e)) s
  | clear (s) : Step s .clear .unit []

/-- A history of operations. -/
inductive Run : List (Data δ) → List (Op δ) → List (Out δ) → List (Data δ) → Prop where
  | nil (s) : Run s [] [] s
  | cons {s op o s' ops os s''} :
      Step s op o s' → Run s' ops os s'' → Run s (op :: ops) (o :: os) s''

/-- The allocator serves every `add` of the history. -/
def AllocOk (ops : List (Op δ)) : Prop :=
  ∀ k d al, Op.add k d al ∈ ops → al ≠ none

end Verif.Heap.Spec
