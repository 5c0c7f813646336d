import Verif.CNum

/-!
# What the helpers of sc/sc.c should do

RC4 as published, numerals and size strings, with no reference to the model.
-/

namespace Verif.Sc.Spec

/-! ## RC4 -/

/-- A table of 256 bytes. -/
abbrev Table := UInt8 → UInt8

/-- The table with two entries exchanged. -/
def swap (S : Table) (a b : UInt8) : Table := fun x => if x = a then S b else if x = b then S a else S x

/-- Key scheduling: the steps for the indices in the list. -/
def schedule (key : Table) : List UInt8 → Table × UInt8 → Table × UInt8
  | [], st => st
  | i :: is, (S, j) =>
    let j := j + (S i + key i)
    schedule key is (swap S i j, j)

/-- All indices in increasing order. -/
def indices : List UInt8 := (List.range 256).map UInt8.ofNat

/-- The generator's state. -/
structure Gen where
  S : Table
  i : UInt8
  j : UInt8

/-- The state after one more byte. -/
def Gen.next (g : Gen) : Gen :=
  let i := g.i + 1
  let j := g.j + g.S i
  ⟨swap g.S i j, i, j⟩

/-- The byte the last step has produced. -/
def Gen.out (g : Gen) : UInt8 := g.S (g.S g.i + g.S g.j)

/-- The state after `n` bytes. -/
def Gen.after (g : Gen) : Nat → Gen
  | 0 => g
  | n + 1 => (g.after n).next

/-- Byte `n` of the stream. -/
def Gen.stream (g : Gen) (n : Nat) : UInt8 := (g.after (n + 1)).out

/-- RC4 with a 256-byte key: the table starts as the identity, and the generator at (0, 0). -/
def rc4 (key : Table) : Nat → UInt8 :=
  let st := schedule key indices (fun x => x, 0)
  Gen.stream ⟨st.1, 0, 0⟩

/-- The generator of the library: the table starts as the key itself, and the generator keeps
the index the key schedule ends with. -/
def generator (key : Table) : Gen :=
  let st := schedule key indices (key, 0)
  ⟨st.1, 0, st.2⟩

/-- The first 256 bytes of a block as a table. -/
def table (seed : List UInt8) : Table := fun x => (seed[x.toNat]?).getD 0

/-! ## Numerals -/

/-- `s` is the decimal numeral of `n`, without leading zeros. -/
structure IsDec (s : List UInt8) (n : Nat) : Prop where
  digits : ∀ c ∈ s, isDigit c
  value : decVal s = n
  nonempty : s ≠ []
  noZero : s.head? = some 48 → s.length = 1

/-- `s` is the numeral of `h / 100` with two decimals. -/
def IsDec2 (s : List UInt8) (h : Nat) : Prop :=
  ∃ w f, s = w ++ [46] ++ f ∧ IsDec w (h / 100) ∧ f.length = 2 ∧ (∀ c ∈ f, isDigit c) ∧
    decVal f = h % 100

/-- The names of the units from KB on. -/
def unitName : Nat → List UInt8
  | 0 => [75, 66]
  | 1 => [77, 66]
  | 2 => [71, 66]
  | 3 => [84, 66]
  | 4 => [80, 66]
  | _ => [69, 66]

/-- The value `h / 100` printed for `val` bytes in units of `u` bytes is the exact one within
half of the last digit. -/
def WithinHalfDigit (val u h : Nat) : Prop := 2 * h * u ≤ 200 * val + u ∧ 200 * val ≤ 2 * h * u + u

/-- The same within half of the last digit plus less than a 1024th of the unit (nothing when the
unit is 1024 bytes). -/
def WithinDigit (val u h : Nat) : Prop :=
  2 * h * u ≤ 200 * val + u ∧ 200 * val ≤ 2 * h * u + u + 200 * (u / 1024 - 1)

/-- `t` is a text for `val` bytes: below 1024 the number itself and `B`, else a number of at
least 1.00 and less than 1024.00 and the unit it counts, with the error `near` allows. -/
def SizeText (near : Nat → Nat → Nat → Prop) (val : Nat) (t : List UInt8) : Prop :=
  (val < 1024 ∧ ∃ d, IsDec d val ∧ t = d ++ [32, 66]) ∨
  (1024 ≤ val ∧ ∃ n h d, n < 6 ∧ IsDec2 d h ∧ t = d ++ [32] ++ unitName n ∧
    100 ≤ h ∧ h < 102400 ∧ near val (1024 ^ (n + 1)) h)

/-- The unit a letter stands for, in either case. -/
def letterUnit (c : UInt8) : Option Nat :=
  if c = 98 ∨ c = 66 then some 1
  else if c = 107 ∨ c = 75 then some 1024
  else if c = 109 ∨ c = 77 then some (1024 ^ 2)
  else if c = 103 ∨ c = 71 then some (1024 ^ 3)
  else if c = 116 ∨ c = 84 then some (1024 ^ 4)
  else if c = 112 ∨ c = 80 then some (1024 ^ 5)
  else if c = 101 ∨ c = 69 then some (1024 ^ 6)
  else none

/-- A suffix and the unit it stands for: nothing, a letter, or a letter and `b`. -/
def IsUnit (u : List UInt8) (m : Nat) : Prop :=
  (u = [] ∧ m = 1) ∨ (∃ c, u = [c] ∧ letterUnit c = some m) ∨
  (∃ c d, u = [c, d] ∧ letterUnit c = some m ∧ (d = 98 ∨ d = 66))

/-- `s` reads as the number `v` and the unit `m`: a decimal number, in which C allows white space
and a sign in front, and a suffix. -/
def IsSize (s : List UInt8) (v : Int) (m : Nat) : Prop :=
  ∃ t u neg n, s = t ++ u ∧ IsNum t neg n ∧ v = (if neg then -(n : Int) else n) ∧ IsUnit u m

/-- The number is an `int64_t`. -/
def Fits (v : Int) : Prop := -(2 ^ 63) ≤ v ∧ v < 2 ^ 63

end Verif.Sc.Spec
