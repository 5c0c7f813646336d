import Verif.Basic

/-!
# What a memory map promises

Independent of the model: which bytes of the address space a call for a range of addresses reaches,
and what a process holds because of one map object.
-/

namespace Verif.Mmap.Spec

/-- The system works on pages: a call for `[addr, addr + len)` reaches a byte if some address of the
range is in its page. -/
def Reaches (page addr len b : Nat) : Prop := ∃ x, addr ≤ x ∧ x < addr + len ∧ x / page = b / page

/-- A mapping: address, length and offset in the file. -/
structure Mapping where
  ptr : Nat
  len : Nat
  off : Nat
  deriving DecidableEq

/-- What one object stands for: nothing, or a descriptor and a mapping; and the mappings the system
refused to remove. -/
structure State where
  held : Option (Int × Mapping)
  lost : List Mapping

/-- The descriptors of the object -/
def State.fds (s : State) : List Int := (s.held.map Prod.fst).toList
/-- The mappings there are because of the object -/
def State.maps (s : State) : List Mapping := (s.held.map Prod.snd).toList ++ s.lost

/-- What a user does and sees. -/
inductive Event where
  /-- creation returned 0 -/
  | created (fd : Int) (x : Mapping)
  /-- creation returned -1 -/
  | failed
  /-- destruction returned 0 -/
  | destroyed
  /-- destruction returned -1 -/
  | stuck
  /-- anything else -/
  | used
  deriving DecidableEq

/-- Objects are created when they stand for nothing; a successful creation holds one descriptor and
one mapping, a failed one nothing, and destruction gives both back, unless the system refuses to
remove the mapping, which it can do only if there is one. -/
inductive Step : State → Event → State → Prop
  | created {l fd x} : Step ⟨none, l⟩ (.created fd x) ⟨some (fd, x), l⟩
  | failed {l} : Step ⟨none, l⟩ .failed ⟨none, l⟩
  | destroyed {h l} : Step ⟨h, l⟩ .destroyed ⟨none, l⟩
  | stuck {fd x l} : Step ⟨some (fd, x), l⟩ .stuck ⟨none, x :: l⟩
  | used {s} : Step s .used s

inductive Run : State → List Event → State → Prop
  | refl {s} : Run s [] s
  | step {s s' s'' e es} : Run s es s' → Step s' e s'' → Run s (es ++ [e]) s''

end Verif.Mmap.Spec
