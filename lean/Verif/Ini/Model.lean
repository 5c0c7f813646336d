import Verif.CChr
import Verif.Ini.Spec

/-!
# Model of ini/sc_ini.c

`buf`, `section` and `key` are blocks of memory, pointers into them are indices. The callback is
an arbitrary function of the calls so far and the present one, which covers every callback whose
answers are determined by what it has been told. `int` has 32 bits.
-/

namespace Verif.Ini

open Spec (Item)

/-- The first loop of `trim_space`, ini/sc_ini.c:48-50. -/
def skipSpace (mem : List UInt8) : (fuel p : Nat) → Res Nat
  | 0, _ => .ub
  | fuel + 1, p => do
    let c ← rd mem p
    if isSpace c then skipSpace mem fuel (p + 1) else .ok p

/-- The second loop of `trim_space`, ini/sc_ini.c:52-55. `e` is `end + 1`: `end` itself may be one
before the string, see `trimEnd`. -/
def backSpace (mem : List UInt8) (str : Nat) : (e : Nat) → Res Nat
  | 0 => .ok 0
  | e + 1 =>
    if e > str then do
      let c ← rd mem e
      if isSpace c then backSpace mem str e else .ok (e + 1)
    else .ok (e + 1)

/-- `trim_space`, ini/sc_ini.c:44-60: the memory and the pointer returned. -/
def trimSpace (mem : List UInt8) (str : Nat) : Res (List UInt8 × Nat) := do
  let str ← skipSpace mem (mem.length + 1) str
  let n ← strlen mem str
  let e ← backSpace mem str (str + n)
  let mem ← wr mem e 0
  .ok (mem, str)

/-- The pointer `end` that `trim_space` computes first, ini/sc_ini.c:52, as an offset in the
buffer. -/
def trimEnd (mem : List UInt8) (str : Nat) : Res Int := do
  let str ← skipSpace mem (mem.length + 1) str
  let n ← strlen mem str
  .ok ((str : Int) + n - 1)

/-- The loop of `trim_comment`, ini/sc_ini.c:71-77. -/
def commentLoop : (fuel : Nat) → (mem : List UInt8) → (s : Nat) → Res (List UInt8)
  | 0, _, _ => .ub
  | fuel + 1, mem, s => do
    let c ← rd mem s
    if c = 0 then .ok mem
    else do
      let r ← strchrAt mem s 32
      match r with
      | none => .ok mem
      | some s => do
        let s := s + 1
        let c ← rd mem s
        if c = 59 ∨ c = 35 then wr mem s 0 else commentLoop fuel mem s

/-- `trim_comment`, ini/sc_ini.c:62-80; it returns its argument. -/
def trimComment (mem : List UInt8) (str : Nat) : Res (List UInt8) := do
  let c ← rd mem str
  if c = 0 ∨ c = 59 ∨ c = 35 then wr mem str 0
  else commentLoop (mem.length + 1) mem str

/-- `trim_bom`, ini/sc_ini.c:82-93 -/
def trimBom (mem : List UInt8) (str : Nat) : Res Nat := do
  let n ← strlen mem str
  if n ≥ 3 then do
    let a ← rd mem str
    if a = 0xEF then do
      let b ← rd mem (str + 1)
      if b = 0xBB then do
        let c ← rd mem (str + 2)
        if c = 0xBF then .ok (str + 3) else .ok str
      else .ok str
    else .ok str
  else .ok str

/-- `strncpy(dst, mem + p, n)` (C11 7.24.2.4): the string is cut or padded to `n` bytes. -/
def strncpy (dst mem : List UInt8) (p n : Nat) : Res (List UInt8) := do
  let s ← cstr mem p
  let out := s.take n ++ List.replicate (n - s.length) 0
  if out.length ≤ dst.length then .ok (splice dst 0 out) else .ub

/-- `strpbrk(p, set)` (C11 7.24.5.4) -/
def strpbrk (mem : List UInt8) (p : Nat) (set : List UInt8) : Res (Option Nat) := do
  let s ← cstr mem p
  let n ← cspn mem p set
  .ok (if n < s.length then some (p + n) else none)

/-- What one line leads to: a syntax error, or new values of `section` and `key` and perhaps a
call of the callback with a section, a key and a value. -/
inductive Act where
  | stop
  | go (sec key : List UInt8) (call : Option (List UInt8 × List UInt8 × List UInt8))

/-- The body of the loop of `sc_ini_parse` up to the call of the callback, ini/sc_ini.c:104-132.
`first` is `line == 1`. -/
def stepLine (first : Bool) (buf sec key : List UInt8) : Res (List UInt8 × Act) := do
  let head ← (if first then trimBom buf 0 else .ok 0)
  let buf ← trimComment buf head
  let (buf, head) ← trimSpace buf head
  let c ← rd buf head
  if c = 0 then .ok (buf, .go sec key none)
  else do
    let k ← rd key 0
    if head > 0 ∧ k ≠ 0 then do
      let s ← cstr sec 0
      let k ← cstr key 0
      let v ← cstr buf head
      .ok (buf, .go sec key (some (s, k, v)))
    else if c = 91 then do
      let r ← strchrAt buf head 93
      match r with
      | none => .ok (buf, .stop)
      | some e => do
        let key ← wr key 0 0
        let buf ← wr buf e 0
        let sec ← strncpy sec buf (head + 1) 255
        .ok (buf, .go sec key none)
    else do
      let r ← strpbrk buf head [61, 58]
      match r with
      | none => .ok (buf, .stop)
      | some e => do
        let buf ← wr buf e 0
        let (buf, _) ← trimSpace buf head
        let key ← strncpy key buf head 255
        let (buf, v) ← trimSpace buf (e + 1)
        let s ← cstr sec 0
        let k ← cstr buf head
        let v ← cstr buf v
        .ok (buf, .go sec key (some (s, k, v)))

/-- The loop of `sc_ini_parse`, ini/sc_ini.c:103-139: the calls made and the result. `next` is
`next_line`, with the state of its source. -/
def parseLoop {σ : Type} (next : σ → List UInt8 → Res (Option (σ × List UInt8)))
    (cb : List Item → Item → Int) :
    (fuel : Nat) → σ → (buf sec key : List UInt8) → (line : Nat) → (calls : List Item) →
      Res (List Item × Int)
  | 0, _, _, _, _, _, _ => .ub
  | fuel + 1, st, buf, sec, key, line, calls => do
    let r ← next st buf
    match r with
    | none => .ok (calls, 0)
    | some (st, buf) =>
      if line ≥ 2147483647 then .ub
      else do
        let (buf, act) ← stepLine (line + 1 == 1) buf sec key
        match act with
        | .stop => .ok (calls, line + 1)
        | .go sec key none => parseLoop next cb fuel st buf sec key (line + 1) calls
        | .go sec key (some (s, k, v)) =>
          let item : Item := ⟨line + 1, s, k, v⟩
          if cb calls item ≠ 0 then .ok (calls ++ [item], line + 1)
          else parseLoop next cb fuel st buf sec key (line + 1) (calls ++ [item])

/-- `sc_ini_parse`, ini/sc_ini.c:95-140. `buf` is the uninitialised line buffer. -/
def parse {σ : Type} (next : σ → List UInt8 → Res (Option (σ × List UInt8)))
    (cb : List Item → Item → Int) (fuel : Nat) (st : σ) (buf : List UInt8) :
    Res (List Item × Int) :=
  parseLoop next cb fuel st buf (List.replicate 256 0) (List.replicate 256 0) 0 []

/-- `string_line`, ini/sc_ini.c:147-169, called with `size == 1023`. The state is the pointer
into the string, `none` for NULL. -/
def stringLine (mem : List UInt8) (p : Option Nat) (buf : List UInt8) :
    Res (Option (Option Nat × List UInt8)) :=
  match p with
  | none => .ok none
  | some str => do
    let c ← rd mem str
    if c = 0 then .ok none
    else do
      let r ← strchrAt mem str 10
      let t ← (match r with
        | some t => .ok t
        | none => do
          let n ← strlen mem str
          .ok (str + n))
      let diff := t - str
      let len := if diff < 1023 then diff else 1023
      let buf ← memcpy buf 0 mem str len
      let buf ← wr buf len 0
      let c ← rd mem t
      .ok (some (if c = 0 then none else some (t + 1), buf))

/-- `fgets(buf, n, file)` (C11 7.21.7.2): at most `n - 1` characters up to and including a new
line. The state is what is left of the file; with `err` reading on at its end fails instead of
reporting the end of the file. -/
def fgets (err : Bool) (n : Nat) (rest buf : List UInt8) : Res (Option (List UInt8 × List UInt8)) :=
  let t := rest.take (n - 1)
  let a := t.takeWhile (· ≠ 10)
  if a.length < t.length then
    if a.length + 1 < buf.length then
      .ok (some (rest.drop (a.length + 1), splice buf 0 (a ++ [10] ++ [0])))
    else .ub
  else if t.length < n - 1 ∧ (err ∨ t = []) then .ok none
  else if t.length < buf.length then .ok (some (rest.drop t.length, splice buf 0 (t ++ [0])))
  else .ub

/-- `file_line`, ini/sc_ini.c:142-145, called with `size == 1023`. -/
def fileLine (err : Bool) (rest buf : List UInt8) : Res (Option (List UInt8 × List UInt8)) :=
  fgets err 1023 rest buf

/-- `sc_ini_parse_string`, ini/sc_ini.c:191-195 -/
def parseString (cb : List Item → Item → Int) (buf : List UInt8) (str : Option (List UInt8)) :
    Res (List Item × Int) :=
  match str with
  | none => parse (stringLine []) cb 1 none buf
  | some mem => parse (stringLine mem) cb (mem.length + 1) (some 0) buf

/-- `sc_ini_parse_file`, ini/sc_ini.c:171-189. `file` is the content of the file, with a flag for
a read error after it, or `none` if it cannot be opened. -/
def parseFile (cb : List Item → Item → Int) (buf : List UInt8) (file : Option (List UInt8 × Bool)) :
    Res (List Item × Int) :=
  match file with
  | none => .ok ([], -1)
  | some (bytes, err) => do
    let (calls, rc) ← parse (fileLine err) cb (bytes.length + 1) bytes buf
    -- reading went on to the end of the file if the result is 0
    if rc = 0 then .ok (calls, if err then -1 else 0) else .ok (calls, rc)

end Verif.Ini
