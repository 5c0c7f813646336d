import Verif.Queue.Model

/-! # What a queue is supposed to do: a double-ended queue as a list -/

namespace Verif.Queue.Spec

/-- Abstract state: the elements from first to last, and whether the last `add` failed. -/
structure State (α : Type) where
  items : List α
  failed : Bool

/-- The documented precondition: deleting needs a non-empty queue. -/
def Allowed (s : State α) : Op α → Prop
  | .delFirst => s.items ≠ []
  | .delLast => s.items ≠ []
  | _ => True

/-- An `add` either adds the element at its end, or reports failure and changes nothing. -/
inductive Step : State α → Op α → Option α → State α → Prop where
  | addFirst_ok (s x al) : Step s (.addFirst x al) none ⟨x :: s.items, false⟩
  | addFirst_fail (s x al) : Step s (.addFirst x al) none ⟨s.items, true⟩
  | addLast_ok (s x al) : Step s (.addLast x al) none ⟨s.items ++ [x], false⟩
  | addLast_fail (s x al) : Step s (.addLast x al) none ⟨s.items, true⟩
  | delFirst (s x xs) (h : s.items = x :: xs) : Step s .delFirst (some x) ⟨xs, s.failed⟩
  | delLast (s x xs) (h : s.items = xs ++ [x]) : Step s .delLast (some x) ⟨xs, s.failed⟩
  | clear (s) : Step s .clear none ⟨[], false⟩

/-- A history of operations on the abstract queue. -/
inductive Run : State α → List (Op α) → List (Option α) → State α → Prop where
  | nil (s) : Run s [] [] s
  | cons {s op r s' ops rs s''} :
      Step s op r s' → Run s' ops rs s'' → Run s (op :: ops) (r :: rs) s''

/-- Left-to-right walk over a list that stops after an element whose body breaks. -/
def walk (body : σ → α → σ × Bool) : σ → List α → σ
  | s, [] => s
  | s, x :: xs => if (body s x).2 then (body s x).1 else walk body (body s x).1 xs

end Verif.Queue.Spec
