/-!
# What a command line argument means

Arguments, names and values are strings of bytes. `-x`, `-x=value`, `--name` and `--name=value`
are the forms of an option with the letter `x` and the name `name`.
-/

namespace Verif.Opt.Spec

/-- An option: a letter and possibly a name. -/
structure Opt where
  letter : UInt8
  name : Option (List UInt8)

/-- The text behind the option's name: nothing, or `=` and a value. -/
def IsValue (rest v : List UInt8) : Prop := (rest = [] ∧ v = []) ∨ rest = 61 :: v

/-- `arg` is a short form of `o` with value `v`. -/
def Short (o : Opt) (arg v : List UInt8) : Prop :=
  ∃ rest, arg = 45 :: o.letter :: rest ∧ o.letter ≠ 45 ∧ IsValue rest v

/-- `arg` is a long form of `o` with value `v`. A name with a `=` has none. -/
def Long (o : Opt) (arg v : List UInt8) : Prop :=
  ∃ name rest, o.name = some name ∧ 61 ∉ name ∧ arg = [45, 45] ++ name ++ rest ∧ IsValue rest v

/-- `arg` is a form of `o` with value `v`. -/
def Form (o : Opt) (arg v : List UInt8) : Prop := Short o arg v ∨ Long o arg v

/-- `o` is the first of the options the argument is a form of. -/
def First (opts : List Opt) (arg : List UInt8) (o : Opt) (v : List UInt8) : Prop :=
  ∃ pre post, opts = pre ++ o :: post ∧ Form o arg v ∧ ∀ p ∈ pre, ∀ w, ¬ Form p arg w

end Verif.Opt.Spec
