import Verif.CNum

/-!
# Ini documents

What a line of an ini document means, and what parsing a document reports, in terms of lists of
bytes; and how documents are written.
-/

namespace Verif.Ini.Spec

/-- The sign of a comment, `;` or `#`. -/
def IsSign (c : UInt8) : Prop := c = 59 ∨ c = 35

instance (c : UInt8) : Decidable (IsSign c) := inferInstanceAs (Decidable (_ ∨ _))

/-- A line without the comment that a sign after a space begins. -/
def cutAfterSpace : List UInt8 → List UInt8
  | [] => []
  | [c] => [c]
  | c :: d :: l => if c = 32 ∧ IsSign d then [c] else c :: cutAfterSpace (d :: l)

/-- A line without its comment: a comment begins with a sign at the start of the line or after a
space. -/
def cut : List UInt8 → List UInt8
  | [] => []
  | c :: l => if IsSign c then [] else cutAfterSpace (c :: l)

/-- A text without white space at its end. -/
def stripRight (l : List UInt8) : List UInt8 := (l.reverse.dropWhile isSpace).reverse

/-- A text without white space around it. -/
def strip (l : List UInt8) : List UInt8 := stripRight (l.dropWhile isSpace)

/-- The kinds of lines. -/
inductive Kind where
  | blank
  | bad
  | header (name : List UInt8)
  | more (value : List UInt8)
  | pair (key value : List UInt8)
  deriving DecidableEq

/-- Whether a line is indented. -/
def indented (l : List UInt8) : Bool := (l.head?.map isSpace).getD false

/-- What a line is; `haveKey` says whether there is a key that an indented line continues. -/
def kind (haveKey : Bool) (l : List UInt8) : Kind :=
  let t := strip (cut l)
  if t = [] then .blank
  else if indented l && haveKey then .more t
  else if t.head? = some 91 then
    if 93 ∈ t then .header (t.tail.takeWhile (· ≠ 93)) else .bad
  else if 61 ∈ t ∨ 58 ∈ t then
    .pair (strip (t.takeWhile fun c => c ≠ 61 && c ≠ 58))
      (strip (t.dropWhile fun c => c ≠ 61 && c ≠ 58).tail)
  else .bad

/-- What is reported of one value: the arguments of a call of the callback,
ini/sc_ini.h:52-53. -/
structure Item where
  line : Nat
  sec : List UInt8
  key : List UInt8
  value : List UInt8
  deriving DecidableEq, Repr

/-- The reports of a document given as lines, and the number of the first bad line. Lines are
counted from `n + 1`. Names of sections and keys are remembered up to 255 bytes. -/
def reports (n : Nat) (sec key : List UInt8) : List (List UInt8) → List Item × Option Nat
  | [] => ([], none)
  | l :: ls =>
    match kind (key != []) l with
    | .blank => reports (n + 1) sec key ls
    | .bad => ([], some (n + 1))
    | .header name => reports (n + 1) (name.take 255) [] ls
    | .more v =>
      let (rs, bad) := reports (n + 1) sec key ls
      (⟨n + 1, sec, key, v⟩ :: rs, bad)
    | .pair k v =>
      let (rs, bad) := reports (n + 1) sec (k.take 255) ls
      (⟨n + 1, sec, k, v⟩ :: rs, bad)

/-- A callback that accepts all of `old` and refuses `r`, or accepts everything: how a run over
the reports `rs` ends. `cb` answers 0 to accept. -/
inductive Ends (cb : List Item → Item → Int) (rs : List Item) (bad : Option Nat) :
    List Item → Int → Prop
  /-- a report is refused: the calls end with it and its line is the result -/
  | refused (done r rest) (hrs : rs = done ++ r :: rest)
      (acc : ∀ i (h : i < done.length), cb (done.take i) done[i] = 0) (ref : cb done r ≠ 0) :
      Ends cb rs bad (done ++ [r]) r.line
  /-- all are accepted: the result is the bad line, or 0 -/
  | accepted (acc : ∀ i (h : i < rs.length), cb (rs.take i) rs[i] = 0) :
      Ends cb rs bad rs ((bad.getD 0 : Nat) : Int)

/-- `Lines s ls`: the lines of the text `s`, without the new line characters, are `ls`. Nothing
follows the last new line. -/
inductive Lines : List UInt8 → List (List UInt8) → Prop
  | nil : Lines [] []
  | last {l} : l ≠ [] → 10 ∉ l → Lines l [l]
  | cons {l s ls} : 10 ∉ l → Lines s ls → Lines (l ++ 10 :: s) (l :: ls)

/-- The lines in which a file is read: a line of more than 1021 bytes is cut in pieces of 1022
bytes. With `err` reading fails at the end of `bytes`, and an unfinished line is lost. -/
inductive Chunks (err : Bool) : List UInt8 → List (List UInt8) → Prop
  | eof {bytes} : (bytes = [] ∨ err = true ∧ bytes.length < 1022 ∧ 10 ∉ bytes) → Chunks err bytes []
  | line {l rest ls} : 10 ∉ l → l.length ≤ 1021 → Chunks err rest ls →
      Chunks err (l ++ 10 :: rest) (l :: ls)
  | part {l rest ls} : 10 ∉ l → l.length = 1022 → Chunks err rest ls → Chunks err (l ++ rest) (l :: ls)
  | last {l} : l ≠ [] → 10 ∉ l → l.length < 1022 → err = false → Chunks err l [l]

/-- The byte order mark. -/
def bom : List UInt8 := [0xEF, 0xBB, 0xBF]

/-- The first line without a byte order mark. -/
def dropBom : List (List UInt8) → List (List UInt8)
  | [] => []
  | l :: ls => (if bom.isPrefixOf l then l.drop 3 else l) :: ls

/-! ## Documents -/

/-- The end of a line: white space and a comment. -/
structure Trail where
  ws : List UInt8
  comment : Option (UInt8 × List UInt8)

/-- `ws [" " sign text]` -/
def Trail.text (t : Trail) : List UInt8 :=
  t.ws ++ match t.comment with
    | none => []
    | some (c, x) => 32 :: c :: x

/-- A line of a document. -/
inductive Elem where
  /-- white space and perhaps a comment after it -/
  | blank (t : Trail)
  /-- a comment at the start of the line -/
  | comment (c : UInt8) (text : List UInt8)
  /-- `[name]` -/
  | header (name : List UInt8) (t : Trail)
  /-- `key = value`, with any white space around the `=`, or `:` instead of it -/
  | item (key ws1 : List UInt8) (sep : UInt8) (ws2 value : List UInt8) (t : Trail)
  /-- an indented further value of the last key -/
  | more (indent value : List UInt8) (t : Trail)

/-- The text of a line. -/
def Elem.text : Elem → List UInt8
  | .blank t => t.text
  | .comment c x => c :: x
  | .header name t => [91] ++ name ++ [93] ++ t.text
  | .item key ws1 sep ws2 value t => key ++ ws1 ++ [sep] ++ ws2 ++ value ++ t.text
  | .more indent value t => indent ++ value ++ t.text

/-- All white space. -/
def White (l : List UInt8) : Prop := ∀ c ∈ l, isSpace c = true

/-- Neither begins nor ends with white space. -/
def Trimmed (l : List UInt8) : Prop :=
  (∀ c, l.head? = some c → isSpace c = false) ∧ (∀ c, l.getLast? = some c → isSpace c = false)

/-- Contains no comment: no sign at the start and none after a space. -/
def NoComment (l : List UInt8) : Prop :=
  (∀ c, l.head? = some c → ¬ IsSign c) ∧ ∀ a c b, l = a ++ 32 :: c :: b → ¬ IsSign c

/-- Well-formed ends of lines. -/
def Trail.Ok (t : Trail) : Prop := White t.ws ∧ ∀ c x, t.comment = some (c, x) → IsSign c

/-- Well-formed lines. -/
def Elem.Ok : Elem → Prop
  | .blank t => t.Ok
  | .comment c _ => IsSign c
  | .header name t => 93 ∉ name ∧ name.length ≤ 255 ∧ NoComment (91 :: name) ∧ t.Ok
  | .item key ws1 sep ws2 value t => key ≠ [] ∧ key.length ≤ 255 ∧ Trimmed key ∧ 61 ∉ key ∧ 58 ∉ key ∧
      key.head? ≠ some 91 ∧ White ws1 ∧ (sep = 61 ∨ sep = 58) ∧ White ws2 ∧ Trimmed value ∧
      NoComment (key ++ ws1 ++ [sep] ++ ws2 ++ value) ∧ t.Ok
  | .more indent value t => indent ≠ [] ∧ White indent ∧ value ≠ [] ∧ Trimmed value ∧
      NoComment (indent ++ value) ∧ t.Ok

/-- Well-formed documents: lines are well-formed, and a further value comes only where there is a
key in the same section. -/
def DocOk (haveKey : Bool) : List Elem → Prop
  | [] => True
  | e :: es => e.Ok ∧ match e with
    | .blank _ => DocOk haveKey es
    | .comment _ _ => DocOk haveKey es
    | .header _ _ => DocOk false es
    | .item .. => DocOk true es
    | .more .. => haveKey = true ∧ DocOk haveKey es

/-- What a document says: its values with their keys, sections and line numbers. -/
def items (n : Nat) (sec key : List UInt8) : List Elem → List Item
  | [] => []
  | .blank _ :: es => items (n + 1) sec key es
  | .comment _ _ :: es => items (n + 1) sec key es
  | .header name _ :: es => items (n + 1) name [] es
  | .item k _ _ _ v _ :: es => ⟨n + 1, sec, k, v⟩ :: items (n + 1) sec k es
  | .more _ v _ :: es => ⟨n + 1, sec, key, v⟩ :: items (n + 1) sec key es

end Verif.Ini.Spec
