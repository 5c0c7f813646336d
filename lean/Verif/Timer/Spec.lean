import Verif.Timer.Model

/-! # What a timer is supposed to do -/

namespace Verif.Timer.Spec

/-- A pending timer. -/
structure Entry where
  deadline : Nat
  type : Nat
  data : Nat
  deriving Repr, DecidableEq

/-- The pending timers by id, and the current time. -/
structure State where
  live : Nat → Option Entry
  now : Nat

/-- Change the entry of one id. -/
def upd (f : Nat → Option Entry) (id : Nat) (v : Option Entry) : Nat → Option Entry :=
  fun x => if x = id then v else f x

/-- What may happen: adding uses an id that no pending timer has; a timer fires only if it
is pending and its deadline has been reached, is given its own values, and is then no
longer pending. -/
inductive Trace : State → List Ev → State → Prop where
  | nil (S) : Trace S [] S
  | add {S timeout type data id es S'} : id ≠ INVALID → S.live id = none →
      Trace { S with live := upd S.live id (some ⟨S.now + timeout, type, data⟩) } es S' →
      Trace S (.add timeout type data id :: es) S'
  | addFail {S es S'} : Trace S es S' → Trace S (.addFail :: es) S'
  | cancel {S id es S'} : Trace { S with live := upd S.live id none } es S' →
      Trace S (.cancel id :: es) S'
  | clear {S es S'} : Trace { S with live := fun _ => none } es S' → Trace S (.clear :: es) S'
  | now {S ts es S'} : S.now ≤ ts → Trace { S with now := ts } es S' → Trace S (.now ts :: es) S'
  | fire {S id e es S'} : S.live id = some e → e.deadline ≤ S.now →
      Trace { S with live := upd S.live id none } es S' →
      Trace S (.fire id e.deadline e.type e.data :: es) S'

/-- The timer `id` has fired, or was cancelled or cleared, in the events. -/
def Resolved (es : List Ev) (id : Nat) : Prop :=
  (∃ d ty dat, Ev.fire id d ty dat ∈ es) ∨ .cancel id ∈ es ∨ .clear ∈ es

end Verif.Timer.Spec
