import Verif.Basic

/-!
# What a condition object is

A box that holds at most one value. A signal puts its value into the box, whatever is there; a wait
takes the value out, and cannot happen while the box is empty. Each happens at one moment between
the call and the return.
-/

namespace Verif.Cond.Spec

/-- The operations a thread can call. -/
inductive Op where
  /-- `sc_cond_signal` with a pointer -/
  | signal (d : Nat)
  /-- `sc_cond_wait` -/
  | wait
  deriving DecidableEq

/-- What can be observed: calls, and returns with the result (0 for a signal). -/
inductive Event where
  | call (t : Nat) (op : Op)
  | ret (t : Nat) (op : Op) (v : Nat)
  deriving DecidableEq

/-- Where a thread is. -/
inductive Phase where
  | idle
  /-- called, and has not happened -/
  | pending (op : Op)
  /-- has happened, and has not returned -/
  | finished (op : Op) (v : Nat)
  deriving DecidableEq

/-- The box and its users. -/
structure Box where
  slot : Option Nat
  th : Nat → Phase

/-- An empty box nobody uses. -/
def Box.empty : Box := ⟨none, fun _ => .idle⟩

/-- A thread moves on. -/
def Box.set (b : Box) (t : Nat) (p : Phase) : Box := { b with th := fun i => if i = t then p else b.th i }

/-- Steps of the box: observable ones, and the moments at which something happens. -/
inductive Act where
  | ev (e : Event)
  | put (t d : Nat)
  | take (t v : Nat)
  deriving DecidableEq

inductive Step : Box → Act → Box → Prop
  | call {b} (t : Nat) (op : Op) : b.th t = .idle → Step b (.ev (.call t op)) (b.set t (.pending op))
  | put {b t d} : b.th t = .pending (.signal d) →
      Step b (.put t d) { b.set t (.finished (.signal d) 0) with slot := some d }
  | take {b t v} : b.th t = .pending .wait → b.slot = some v →
      Step b (.take t v) { b.set t (.finished .wait v) with slot := none }
  | ret {b t op v} : b.th t = .finished op v → Step b (.ev (.ret t op v)) (b.set t .idle)

inductive Run : Box → List Act → Box → Prop
  | refl {b} : Run b [] b
  | step {b b' b'' a as} : Run b as b' → Step b' a b'' → Run b (as ++ [a]) b''

/-- What can be observed of a step. -/
def Act.seen : Act → Option Event
  | .ev e => some e
  | _ => none

/-- A history of calls and returns that a box can have. -/
def Linearizable (es : List Event) : Prop :=
  ∃ acts b, Run Box.empty acts b ∧ acts.filterMap Act.seen = es

end Verif.Cond.Spec
