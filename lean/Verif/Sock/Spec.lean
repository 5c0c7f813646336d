import Verif.Basic

/-!
# What sockets promise

Independent of the model: which descriptors belong to which socket object, in which order addresses
are tried, and what a path means to the system.
-/

namespace Verif.Sock.Spec

/-- One result of `getaddrinfo`. -/
structure Addr where
  family : Int
  type : Int
  proto : Int
  addr : List UInt8
  deriving DecidableEq

/-- Addresses of the family asked for come first; apart from that the order is kept. -/
def preferred (family : Int) (as : List Addr) : List Addr :=
  as.filter (fun a => a.family = family) ++ as.filter (fun a => a.family ≠ family)

/-- What a user does with socket objects, which are numbered, and sees. -/
inductive Event where
  /-- listening, connecting or accepting gave the object a descriptor -/
  | opened (i : Nat) (fd : Int)
  /-- the object was closed -/
  | closed (i : Nat)
  /-- anything else, failed calls among them -/
  | other
  deriving DecidableEq

/-- The descriptor of each object, if it has one. -/
abbrev State := Nat → Option Int

/-- An object without a descriptor gets one that no other has; closing takes it; nothing else
changes what is held. -/
inductive Step : State → Event → State → Prop
  | opened {s i fd} : s i = none → (∀ j, s j ≠ some fd) → Step s (.opened i fd) (fun j => if j = i then some fd else s j)
  | closed {s i} : Step s (.closed i) (fun j => if j = i then none else s j)
  | other {s} : Step s .other s

inductive Run : State → List Event → State → Prop
  | refl {s} : Run s [] s
  | step {s s' s'' e es} : Run s es s' → Step s' e s'' → Run s (es ++ [e]) s''

/-- The name the system takes from the bytes of a path: what comes before the first zero. -/
def pathName (b : List UInt8) : List UInt8 := b.takeWhile (· ≠ 0)

end Verif.Sock.Spec
