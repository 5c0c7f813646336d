/-!
# Specification of pollers

What an application waits for, and what it is told, independent of the system interface a poller is
built on.
-/

namespace Verif.Poll.Spec

/-- What can be asked for: to be told of input, of room for output, and to be told once per change
rather than as long as it lasts. -/
inductive Ev where
  | read
  | write
  | edge
  deriving DecidableEq

/-- A set of them -/
abbrev Mask := Ev → Bool

/-- Nothing -/
def nothing : Mask := fun _ => false

/-- `edge` is a way to wait for `read` or `write`. By itself it is nothing, and is forgotten. -/
def norm (m : Mask) : Mask := if m .read || m .write then m else nothing

def Mask.union (a b : Mask) : Mask := fun e => a e || b e
def Mask.diff (a b : Mask) : Mask := fun e => a e && !b e

/-- A request that was granted, for the object with this number -/
inductive Req where
  | add (i : Nat) (evs : Mask)
  | del (i : Nat) (evs : Mask)

/-- What is waited for, for each object -/
abbrev State := Nat → Mask

def apply (σ : State) : Req → State
  | .add i evs => fun j => if j = i then norm ((σ i).union evs) else σ j
  | .del i evs => fun j => if j = i then norm ((σ i).diff evs) else σ j

def start : State := fun _ => nothing

/-- What is waited for after the requests, the last one last -/
def after (l : List Req) : State := l.foldl apply start

/-- Whether the last of the requests that mention this event of this object added it -/
def wanted (i : Nat) (e : Ev) (l : List Req) : Bool :=
  l.foldl (fun b r => match r with
    | .add j evs => if j = i then b || evs e else b
    | .del j evs => if j = i then b && !evs e else b) false

/-- For input and output `after` is the union of what was added and not deleted since. -/
theorem after_rw (l : List Req) (i : Nat) {e : Ev} (he : e ≠ .edge) : after l i e = wanted i e l := by
  unfold after wanted
  have hn : ∀ m : Mask, norm m e = m e := by
    intro m
    unfold norm nothing
    split
    · rfl
    · next h =>
      cases e with
      | read => grind
      | write => grind
      | edge => exact absurd rfl he
  have key : ∀ (l : List Req) (σ : State) (b : Bool), σ i e = b → l.foldl apply σ i e =
      l.foldl (fun b r => match r with
        | .add j evs => if j = i then b || evs e else b
        | .del j evs => if j = i then b && !evs e else b) b := by
    intro l
    induction l with
    | nil => intro σ b h; exact h
    | cons r l ih =>
      intro σ b h
      simp only [List.foldl_cons]
      apply ih
      cases r with
      | add j evs =>
        simp only [apply]
        by_cases hj : i = j
        · subst hj
          rw [if_pos rfl, if_pos rfl, hn]
          simp [Mask.union, h]
        · rw [if_neg hj, if_neg (Ne.symm hj), h]
      | del j evs =>
        simp only [apply]
        by_cases hj : i = j
        · subst hj
          rw [if_pos rfl, if_pos rfl, hn]
          simp [Mask.diff, h]
        · rw [if_neg hj, if_neg (Ne.symm hj), h]
  exact key l start false rfl

end Verif.Poll.Spec
