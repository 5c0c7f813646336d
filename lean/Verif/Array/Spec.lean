import Verif.Array.Model

/-! # What an array is supposed to do: a list and the outcome of the last `add` -/

namespace Verif.Array.Spec

/-- Abstract state: the elements, and whether the last `add` failed. -/
structure State (α : Type) where
  items : List α
  failed : Bool

/-- The argument of an operation is in the documented range. -/
def InRange (s : State α) : Op α → Prop
  | .add _ _ => True
  | .del i => i < s.items.length
  | .delUnordered i => i < s.items.length
  | .delLast => s.items ≠ []
  | .clear => True

/-- One operation on the abstract list. `sz` is the size of one element in bytes. An `add`
may fail only when the allocator fails or when doubling the array would need more than
`SIZE_MAX` bytes. -/
inductive Step (sz : Nat) : State α → Op α → State α → Prop where
  | add_ok (s k al) : Step sz s (.add k al) ⟨s.items ++ [k], false⟩
  | add_fail (s k al) (h : al = none ∨ SIZE_MAX < 2 * ((s.items.length + 1) * sz)) :
      Step sz s (.add k al) ⟨s.items, true⟩
  | del (s i) (h : i < s.items.length) :
      Step sz s (.del i) ⟨s.items.take i ++ s.items.drop (i + 1), s.failed⟩
  | delUnordered (s i x) (h : i < s.items.length) (hx : s.items.getLast? = some x) :
      Step sz s (.delUnordered i) ⟨(s.items.set i x).dropLast, s.failed⟩
  | delLast (s) (h : s.items ≠ []) : Step sz s .delLast ⟨s.items.dropLast, s.failed⟩
  | clear (s) : Step sz s .clear ⟨[], false⟩

/-- A history of operations on the abstract list. -/
inductive Run (sz : Nat) : State α → List (Op α) → State α → Prop where
  | nil (s) : Run sz s [] s
  | cons {s op s' ops s''} : Step sz s op s' → Run sz s' ops s'' → Run sz s (op :: ops) s''

/-- Left-to-right walk over a list that stops after an element whose body breaks. -/
def walk (body : σ → α → σ × Bool) : σ → List α → σ
  | s, [] => s
  | s, x :: xs => if (body s x).2 then (body s x).1 else walk body (body s x).1 xs

end Verif.Array.Spec
