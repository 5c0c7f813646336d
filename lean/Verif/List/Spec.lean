import Verif.List.Model

/-! # What linked lists are supposed to do: a family of sequences

The abstract state gives, for every initialised `struct sc_list` that is not an element of
a list at the moment, the sequence of its elements. A list head and a detached element are
the same thing in C; both are a `struct sc_list` with an empty sequence. -/

namespace Verif.LList.Spec

/-- The lists: `S l = some [a, b]` is the list `l` with elements `a`, `b`. -/
abbrev State := Addr → Option (List Addr)

/-- `a` is initialised: a list (or detached element), or an element of a list. -/
def Used (S : State) (a : Addr) : Prop := ∃ l es, S l = some es ∧ (a = l ∨ a ∈ es)

/-- The element `e` taken out of whatever list it is in, and detached. -/
def detach (S : State) (e : Addr) : State :=
  fun l => if l = e then some [] else (S l).map (·.filter (· ≠ e))

/-- The list `l` replaced. -/
def put (S : State) (l : Addr) (es : List Addr) : State :=
  fun x => if x = l then some es else S x

/-- The struct `e` has become an element of another list: it is no list of its own. -/
def absorb (S : State) (e : Addr) : State := fun x => if x = e then none else S x

/-- `e` may be added to `l`: it is initialised, is not `l`, and is not itself the head of a
non-empty list. -/
def Addable (S : State) (l e : Addr) : Prop :=
  e ≠ l ∧ Used S e ∧ (∀ es, S e = some es → es = [])

/-- All elements of `es` detached. -/
def detachAll (S : State) (es : List Addr) : State :=
  fun x => if x ∈ es then some [] else S x

/-- One operation. An element that is added is first taken out of the list it is in. -/
inductive Step : State → Op → Option Addr → State → Prop where
  | init (S l) (h : ¬ Used S l ∨ S l = some []) : Step S (.init l) none (put S l [])
  | addHead (S l e es) (h : Addable S l e) (hl : detach S e l = some es) :
      Step S (.addHead l e) none (put (absorb (detach S e) e) l (e :: es))
  | addTail (S l e es) (h : Addable S l e) (hl : detach S e l = some es) :
      Step S (.addTail l e) none (put (absorb (detach S e) e) l (es ++ [e]))
  | addAfter (S l p e as bs) (h : Addable S l e) (hl : detach S e l = some (as ++ p :: bs)) :
      Step S (.addAfter l p e) none (put (absorb (detach S e) e) l (as ++ p :: e :: bs))
  | addBefore (S l n e as bs) (h : Addable S l e) (hl : detach S e l = some (as ++ n :: bs)) :
      Step S (.addBefore l n e) none (put (absorb (detach S e) e) l (as ++ e :: n :: bs))
  | popHead_empty (S l) (h : S l = some []) : Step S (.popHead l) none S
  | popHead (S l e es) (h : S l = some (e :: es)) :
      Step S (.popHead l) (some e) (put (put S l es) e [])
  | popTail_empty (S l) (h : S l = some []) : Step S (.popTail l) none S
  | popTail (S l e es) (h : S l = some (es ++ [e])) :
      Step S (.popTail l) (some e) (put (put S l es) e [])
  | del (S l e) (h : Used S e) (h2 : ∀ es, S e = some es → es = []) :
      Step S (.del l e) none (detach S e)
  | clear (S l es) (h : S l = some es) : Step S (.clear l) none (put (detachAll S es) l [])

/-- A history of operations. -/
inductive Run : State → List Op → List (Option Addr) → State → Prop where
  | nil (S) : Run S [] [] S
  | cons {S op o S' ops os S''} :
      Step S op o S' → Run S' ops os S'' → Run S (op :: ops) (o :: os) S''

/-- Going through a list with a body that may `break`. -/
def walk (body : σ → Addr → σ × Bool) : σ → List Addr → σ
  | s, [] => s
  | s, e :: l =>
    let (s', brk) := body s e
    if brk then s' else walk body s' l

end Verif.LList.Spec
