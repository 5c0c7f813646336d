import Verif.CMem

/-!
# What formatting in a signal handler yields

The meaning of the conversions that signal/sc_signal.h:74-87 documents, as relations between a
format, its arguments and the text.
-/

namespace Verif.Signal.Spec

/-- The variable arguments of a call, after the default argument promotions. `long` has 64 bits. A
string is a block of memory, or NULL. -/
inductive Arg where
  | int (v : Int32)
  | uint (v : UInt32)
  | long (v : Int64)
  | ulong (v : UInt64)
  | llong (v : Int64)
  | ullong (v : UInt64)
  | str (s : Option (List UInt8))
  | ptr (p : UInt64)

/-- The value of a digit `0`–`9`, `a`–`f`. -/
def digitVal (c : UInt8) : Option Nat :=
  if 48 ≤ c ∧ c ≤ 57 then some (c.toNat - 48)
  else if 97 ≤ c ∧ c ≤ 102 then some (c.toNat - 87)
  else none

/-- `s` is the numeral of `n` in base `b`, without leading zeros. -/
structure Numeral (b : Nat) (s : List UInt8) (n : Nat) : Prop where
  digits : ∀ c ∈ s, ∃ d, d < b ∧ digitVal c = some d
  value : s.foldl (fun a c => a * b + (digitVal c).getD 0) 0 = n
  nonempty : s ≠ []
  noZero : s.head? = some 48 → s.length = 1

/-- `s` is the decimal numeral of `v`, with a minus sign if it is negative. -/
def Signed (s : List UInt8) (v : Int) : Prop :=
  0 ≤ v ∧ Numeral 10 s v.toNat ∨ v < 0 ∧ ∃ t, s = 45 :: t ∧ Numeral 10 t (-v).toNat

/-- `"(null)"` -/
def null : List UInt8 := [40, 110, 117, 108, 108, 41]

/-- What the conversion given by the letters after `%` makes of an argument. -/
inductive Conv : List UInt8 → Arg → List UInt8 → Prop
  | s {mem t} : CStr mem 0 t → Conv [115] (.str (some mem)) t
  | null : Conv [115] (.str none) null
  | d {v t} : Signed t v.toInt → Conv [100] (.int v) t
  | ld {v t} : Signed t v.toInt → Conv [108, 100] (.long v) t
  | lld {v t} : Signed t v.toInt → Conv [108, 108, 100] (.llong v) t
  | u {v t} : Numeral 10 t v.toNat → Conv [117] (.uint v) t
  | lu {v t} : Numeral 10 t v.toNat → Conv [108, 117] (.ulong v) t
  | llu {v t} : Numeral 10 t v.toNat → Conv [108, 108, 117] (.ullong v) t
  /-- C11 7.16.1.1: the signed and the unsigned type may stand for each other if both can represent the value. -/
  | du {v t} : v.toNat < 2 ^ 31 → Numeral 10 t v.toNat → Conv [100] (.uint v) t
  | ldu {v t} : v.toNat < 2 ^ 63 → Numeral 10 t v.toNat → Conv [108, 100] (.ulong v) t
  | lldu {v t} : v.toNat < 2 ^ 63 → Numeral 10 t v.toNat → Conv [108, 108, 100] (.ullong v) t
  | ud {v t} : 0 ≤ v.toInt → Numeral 10 t v.toInt.toNat → Conv [117] (.int v) t
  | lud {v t} : 0 ≤ v.toInt → Numeral 10 t v.toInt.toNat → Conv [108, 117] (.long v) t
  | llud {v t} : 0 ≤ v.toInt → Numeral 10 t v.toInt.toNat → Conv [108, 108, 117] (.llong v) t
  | p {v t} : Numeral 16 t v.toNat → Conv [112] (.ptr v) (48 :: 120 :: t)

/-- `Renders fmt args text`: the whole text of a format. Arguments left over are ignored. -/
inductive Renders : List UInt8 → List Arg → List UInt8 → Prop
  | nil {args} : Renders [] args []
  | char {c fmt args t} : c ≠ 37 → Renders fmt args t → Renders (c :: fmt) args (c :: t)
  | percent {fmt args t} : Renders fmt args t → Renders (37 :: 37 :: fmt) args (37 :: t)
  | conv {m fmt a args x t} : Conv m a x → Renders fmt args t →
      Renders (37 :: m ++ fmt) (a :: args) (x ++ t)

/-- The letters of the conversions. -/
def letters : List (List UInt8) :=
  [[37], [115], [100], [108, 100], [108, 108, 100], [117], [108, 117], [108, 108, 117], [112]]

/-- A format that goes on with a conversion that is not supported after text and conversions that
are. -/
inductive Unsupported : List UInt8 → List Arg → Prop
  | here {fmt args} : (∀ m ∈ letters, ¬ m <+: fmt) → Unsupported (37 :: fmt) args
  | char {c fmt args} : c ≠ 37 → Unsupported fmt args → Unsupported (c :: fmt) args
  | percent {fmt args} : Unsupported fmt args → Unsupported (37 :: 37 :: fmt) args
  | conv {m fmt a args x} : Conv m a x → Unsupported fmt args → Unsupported (37 :: m ++ fmt) (a :: args)

/-- A format that goes on with a conversion for which there is no argument of the right type, after
text and conversions that are right. Calls with such a format are undefined. -/
inductive Mismatch : List UInt8 → List Arg → Prop
  | here {m fmt args} : m ∈ letters → m ≠ [37] → (∀ a as x, args = a :: as → ¬ Conv m a x) →
      Mismatch (37 :: m ++ fmt) args
  | char {c fmt args} : c ≠ 37 → Mismatch fmt args → Mismatch (c :: fmt) args
  | percent {fmt args} : Mismatch fmt args → Mismatch (37 :: 37 :: fmt) args
  | conv {m fmt a args x} : Conv m a x → Mismatch fmt args → Mismatch (37 :: m ++ fmt) (a :: args)

/-- No argument is the least value of `long` or `long long`. -/
def NoMin (args : List Arg) : Prop :=
  ∀ v : Int64, v.toInt = -9223372036854775808 → Arg.long v ∉ args ∧ Arg.llong v ∉ args

end Verif.Signal.Spec
