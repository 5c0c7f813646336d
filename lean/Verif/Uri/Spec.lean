import Verif.CNum

/-!
# Uris

The components of a uri and how they make up its text (RFC 3986, section 5.3), with no reference
to the model.
-/

namespace Verif.Uri.Spec

/-- The components of a uri. `userinfo`, `port`, `query` and `fragment` may be undefined, and
there may be no authority at all. -/
structure Comp where
  scheme : List UInt8
  authority : Bool
  userinfo : Option (List UInt8)
  host : List UInt8
  port : Option (List UInt8)
  path : List UInt8
  query : Option (List UInt8)
  fragment : Option (List UInt8)

/-- A component and the delimiter in front of it. -/
def pre (d : UInt8) : Option (List UInt8) → List UInt8
  | none => []
  | some x => d :: x

/-- A component and the delimiter after it. -/
def post (d : UInt8) : Option (List UInt8) → List UInt8
  | none => []
  | some x => x ++ [d]

/-- `scheme ":" ["//"] [userinfo "@"] host [":" port] path ["?" query] ["#" fragment]` -/
def compose (c : Comp) : List UInt8 :=
  c.scheme ++ [58] ++ (if c.authority then [47, 47] else []) ++ post 64 c.userinfo ++ c.host ++
    pre 58 c.port ++ c.path ++ pre 63 c.query ++ pre 35 c.fragment

/-- Without an authority there are no userinfo, host and port. -/
def Comp.Consistent (c : Comp) : Prop :=
  c.authority = false → c.userinfo = none ∧ c.host = [] ∧ c.port = none

/-- All bytes of a list are allowed ones. -/
def Only (p : UInt8 → Prop) (l : List UInt8) : Prop := ∀ c ∈ l, p c

/-- What RFC 3986 demands of the components, as far as delimiters are concerned: a colon ends the
scheme, `@` the userinfo, a host is `[...]` or free of `: / ? # @`, a port has digits only, a path
contains no `?` and no `#` and begins with `/` (or is empty) if there is an authority and not with
`//` if there is none, and a query contains no `#`. -/
structure WellFormed (c : Comp) : Prop where
  consistent : c.Consistent
  scheme : 58 ∉ c.scheme
  userinfo : ∀ u, c.userinfo = some u → Only (fun b => b ∉ ([64, 47, 63, 35] : List UInt8)) u
  host : (∃ h, c.host = [91] ++ h ++ [93] ∧ Only (fun b => b ∉ ([93, 64, 47, 63, 35] : List UInt8)) h) ∨
    (Only (fun b => b ∉ ([58, 47, 63, 35, 64] : List UInt8)) c.host ∧ c.host.head? ≠ some 91)
  port : ∀ p, c.port = some p → p ≠ [] ∧ Only (fun b => isDigit b) p ∧ decVal p ≤ 65535
  path : Only (fun b => b ∉ ([63, 35] : List UInt8)) c.path
  pathAuth : c.authority = true → c.path = [] ∨ c.path.head? = some 47
  pathNoAuth : c.authority = false → c.path.take 2 ≠ [47, 47]
  query : ∀ q, c.query = some q → 35 ∉ q
  nul : ∀ b ∈ compose c, b ≠ 0

/-- What the parser needs beyond that: an `@` outside the userinfo only if there is a userinfo, a
colon after the authority only if there is a port, and a `?` in the fragment only if there is a
query. -/
structure Unambiguous (c : Comp) : Prop where
  at_ : c.authority = true → c.userinfo = none →
    64 ∉ c.path ++ pre 63 c.query ++ pre 35 c.fragment
  colon : c.authority = true → c.port = none →
    58 ∉ c.path ++ pre 63 c.query ++ pre 35 c.fragment
  question : c.query = none → 63 ∉ pre 35 c.fragment

end Verif.Uri.Spec
