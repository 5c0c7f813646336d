import Verif.Str.Model

/-!
# What the string functions are supposed to do

Nothing here refers to how `sc_str` works, except for `Holds`, which says what an object's
content is.
-/

namespace Verif.Str

/-- The object holds the content `c`: its length, its bytes, and a terminator. -/
structure Holds (s : S) (c : List UInt8) : Prop where
  len : s.len = c.length
  buf : s.buf = c ++ [0]
  small : c.length < W32

/-- The part of a content a C string function sees: up to the first NUL. -/
def ctext (c : List UInt8) : List UInt8 := c.takeWhile (· ≠ 0)

/-- `t` is `c` without the characters of `l` at both ends. -/
def Trimmed (l c t : List UInt8) : Prop :=
  ∃ a b, c = a ++ t ++ b ∧ (∀ x ∈ a, x ∈ l) ∧ (∀ x ∈ b, x ∈ l) ∧
    (∀ x, t.head? = some x → x ∉ l) ∧ (∀ x, t.getLast? = some x → x ∉ l)

/-- `t` is `s` with each leftmost occurrence of `r`, and the leftmost ones in what follows,
replaced by `w`. -/
inductive Subst (r w : List UInt8) : List UInt8 → List UInt8 → Prop where
  | none {s : List UInt8} : (∀ i, ¬ OccursAt r s i) → Subst r w s s
  | first {u v v' : List UInt8} : (∀ i < u.length, ¬ OccursAt r (u ++ r ++ v) i) →
      Subst r w v v' → Subst r w (u ++ r ++ v) (u ++ w ++ v')

/-- The pieces of `s` between the delimiters `d`; with `n` delimiters there are `n + 1`. -/
def pieces (d : List UInt8) : List UInt8 → List (List UInt8)
  | [] => [[]]
  | c :: s =>
    if c ∈ d then [] :: pieces d s
    else
      match pieces d s with
      | [] => [[c]]
      | p :: ps => (c :: p) :: ps

/-- `k` calls of `sc_str_token_begin`; the tokens are read when they are returned. -/
def walk (delim : List UInt8) : (k : Nat) → S → Option Nat →
    Res (S × Option Nat × List (Option (List UInt8)))
  | 0, s, save => .ok (s, save, [])
  | k + 1, s, save => do
    let (s, save, tok) ← tokenBegin s save delim
    match tok with
    | none => do
      let (s', save', toks) ← walk delim k s save
      .ok (s', save', none :: toks)
    | some p => do
      let t ← cstr s.buf p
      let (s', save', toks) ← walk delim k s save
      .ok (s', save', some t :: toks)

end Verif.Str
