import Verif.CLib

/-!
# Model of `sc_str` (string/sc_str.c, string/sc_str.h)

A length prefixed string is an object with a 32-bit length and a block of bytes; a `char *`
to such a string is an `Option S` (`none` is NULL). Arguments that are C strings are given by
the block they point to. `size_t` has 64 bits. Freeing is not modelled: no function reads an
object after it has freed it (`sc_str_append` must not be given a pointer into the string it
appends to).
-/

namespace Verif.Str

/-- `struct sc_str`, string/sc_str.c:50-53. -/
structure S where
  len : Nat
  buf : List UInt8
  deriving Repr, DecidableEq

/-- `SC_STR_MAX`, string/sc_str.c:60-62: `UINT32_MAX - sizeof(struct sc_str) - 1`. -/
notation "STR_MAX" => (4294967290 : Nat)

/-- `c->buf` of a new object with room for `n` bytes and the terminator (`sc_str_bytes`,
string/sc_str.c:58, less the length field). -/
def fresh (n : Nat) (fill : Nat → UInt8) : List UInt8 := resized [] (n + 1) fill

/-- `sc_str_create_len(str + off, len)`, string/sc_str.c:75-93. -/
def createLen (al : Alloc UInt8) (str : List UInt8) (off len : Nat) : Res (Option S) :=
  match al with
  | none => .ok none
  | some fill => do
    let b ← memcpy (fresh len fill) 0 str off len
    let b ← wr b len 0
    .ok (some ⟨len, b⟩)

/-- `sc_str_create`, string/sc_str.c:64-73. -/
def create (al : Alloc UInt8) (str : Option (List UInt8)) : Res (Option S) :=
  match str with
  | none => .ok none
  | some str => do
    let len ← strlen str 0
    if len > STR_MAX then .ok none else createLen al str 0 (len % W32)

/-- `sc_str_create_va` (and `sc_str_create_fmt`), string/sc_str.c:95-143. `text` is what the
format yields with its arguments, both times it is formatted; `tmp` is the content of the
local array before. -/
def createVa (al : Alloc UInt8) (tmp : Nat → UInt8) (text : Option (List UInt8)) :
    Res (Option S) := do
  let (tmp, rc) ← vsnprintf (resized [] 1024 tmp) 0 1024 text
  match rc with
  | none => .ok none
  | some rc =>
    match al with
    | none => .ok none
    | some fill =>
      let len := rc % W32
      if rc < 1024 then do
        let b ← memcpy (fresh rc fill) 0 tmp 0 (len + 1)
        .ok (some ⟨len, b⟩)
      else do
        let (b, rc') ← vsnprintf (fresh rc fill) 0 (len + 1) text
        match rc' with
        | none => .ok none
        | some rc' => if rc' > len then .ok none else .ok (some ⟨len, b⟩)

/-- `sc_str_destroy`, string/sc_str.c:145-153: the pointer afterwards. -/
def destroy (_str : Option S) : Option S := none

/-- `sc_str_len`, string/sc_str.c:155-162. -/
def len (str : Option S) : Int :=
  match str with
  | none => -1
  | some s => s.len

/-- `sc_str_dup`, string/sc_str.c:164-174. -/
def dup (al : Alloc UInt8) (str : Option S) : Res (Option S) :=
  match str with
  | none => .ok none
  | some s => createLen al s.buf 0 s.len

/-- `sc_str_set`, string/sc_str.c:176-189: the return value and the pointer afterwards. -/
def set (al : Alloc UInt8) (str : Option S) (param : Option (List UInt8)) :
    Res (Bool × Option S) := do
  match ← create al param with
  | none => .ok (false, str)
  | some c => .ok (true, some c)

/-- `sc_str_set_fmt`, string/sc_str.c:191-206. -/
def setFmt (al : Alloc UInt8) (tmp : Nat → UInt8) (str : Option S) (text : Option (List UInt8)) :
    Res (Bool × Option S) := do
  match ← createVa al tmp text with
  | none => .ok (false, str)
  | some c => .ok (true, some c)

/-- `INT_MAX`: a longer text makes `vsnprintf` fail. -/
notation "INT_MAX" => (2147483647 : Nat)

/-- `sc_str_append_fmt`, string/sc_str.h:134-136: the format is `"%s" fmt`, and `%s` prints
the old string up to its first NUL. -/
def appendFmt (al : Alloc UInt8) (tmp : Nat → UInt8) (str : Option S)
    (text : Option (List UInt8)) : Res (Bool × Option S) :=
  match str with
  | none => setFmt al tmp none text
  | some s => do
    let old ← cstr s.buf 0
    setFmt al tmp (some s) (match text with
      | none => none
      | some t => if (old ++ t).length ≤ INT_MAX then some (old ++ t) else none)

/-- `sc_str_append`, string/sc_str.c:208-233. -/
def append (al : Alloc UInt8) (str : Option S) (param : Option (List UInt8)) :
    Res (Bool × Option S) :=
  match str with
  | none => do
    let c ← create al param
    .ok (c.isSome, c)
  | some m =>
    match param with
    | none => .ub
    | some param => do
      let len ← strlen param 0
      if len > sub64 STR_MAX m.len then .ok (false, some m)
      else
        match al with
        | none => .ok (false, some m)
        | some fill => do
          let b := resized m.buf (m.len + len + 1) fill
          let b ← memcpy b m.len param 0 len
          let l := (m.len + len) % W32
          let b ← wr b l 0
          .ok (true, some ⟨l, b⟩)

/-- `sc_str_cmp`, string/sc_str.c:235-241. -/
def cmp (s1 s2 : S) : Res Bool :=
  if s1.len = s2.len then memcmpEq s1.buf s2.buf s1.len else .ok false

/-! ## Tokens -/

/-- `swap`, string/sc_str.c:243-251. -/
def swap (s : S) (d : Nat) : Res S := do
  let tmp ← rd s.buf s.len
  let v ← rd s.buf d
  let b ← wr s.buf s.len v
  let b ← wr b d tmp
  .ok { s with buf := b }

/-- `sc_str_token_begin`, string/sc_str.c:253-274, for a string that is not NULL: the string,
`*save` and the token, which are positions in the string. -/
def tokenBegin (s : S) (save : Option Nat) (delim : List UInt8) :
    Res (S × Option Nat × Option Nat) :=
  match save with
  | some it => do
    let s ← swap s it
    let c ← rd s.buf it
    if c = 0 then .ok (s, some it, none)
    else do
      let it := it + 1
      let n ← strcspn s.buf it delim
      let s ← swap s (it + n)
      .ok (s, some (it + n), some it)
  | none => do
    let n ← strcspn s.buf 0 delim
    let s ← swap s n
    .ok (s, some n, some 0)

/-- `sc_str_token_end`, string/sc_str.c:276-290. -/
def tokenEnd (s : S) (save : Option Nat) : Res S := do
  let c ← rd s.buf s.len
  if c = 0 then .ok s
  else
    match save with
    | none => .ub
    | some d => swap s d

/-! ## Trim, substring, replace -/

/-- The loop of `sc_str_trim`, string/sc_str.c:306-312; the fuel is an upper bound of
`end - head`. -/
def trimEnd (buf list : List UInt8) (head : Nat) : (fuel end_ : Nat) → Res Nat
  | 0, e => .ok e
  | fuel + 1, e =>
    if e > head then do
      let c ← rd buf (e - 1)
      let found ← strchr list c
      if !found then .ok e else trimEnd buf list head fuel (e - 1)
    else .ok e

/-- `sc_str_trim`, string/sc_str.c:292-326. -/
def trim (al : Alloc UInt8) (str : Option S) (list : List UInt8) : Res (Bool × Option S) :=
  match str with
  | none => .ok (true, none)
  | some s => do
    let head ← strspn s.buf 0 list
    let e ← trimEnd s.buf list head s.len s.len
    if head ≠ 0 ∨ e ≠ s.len then do
      match ← createLen al s.buf head ((e - head) % W32) with
      | none => .ok (false, some s)
      | some c => .ok (true, some c)
    else .ok (true, some s)

/-- `sc_str_substring`, string/sc_str.c:328-351. -/
def substring (al : Alloc UInt8) (str : Option S) (start end_ : Nat) : Res (Bool × Option S) :=
  match str with
  | none => .ok (false, none)
  | some s =>
    if start > s.len ∨ end_ > s.len ∨ start > end_ then .ok (false, some s)
    else do
      match ← createLen al s.buf start (end_ - start) with
      | none => .ok (false, some s)
      | some c => .ok (true, some c)

/-- The fast path of `sc_str_replace`, string/sc_str.c:380-387: the content after the loop.
`none`: the loop has not ended after `fuel` rounds. -/
def replaceSame (rep with_ : List UInt8) (repLen : Nat) :
    (fuel : Nat) → (buf : List UInt8) → (orig : Nat) → Res (Option (List UInt8))
  | 0, _, _ => .ok none
  | fuel + 1, buf, orig => do
    match ← strstr buf orig rep with
    | none => .ok (some buf)
    | some orig => do
      let buf ← memcpy buf orig with_ 0 repLen
      replaceSame rep with_ repLen fuel buf (orig + repLen)

/-- How counting the occurrences ends. -/
inductive Count where
  /-- the loop is not over -/
  | more
  /-- the result is too long -/
  | over
  /-- the number of occurrences and the size of the result -/
  | done (count size : Nat)
  deriving Repr, DecidableEq

/-- The counting loop, string/sc_str.c:389-399. -/
def countLoop (buf rep : List UInt8) (repLen : Nat) (diff : Int) :
    (fuel : Nat) → (tmp size count : Nat) → Res Count
  | 0, _, _, _ => .ok .more
  | fuel + 1, tmp, size, count => do
    match ← strstr buf tmp rep with
    | none => .ok (.done count size)
    | some tmp =>
      let tmp := tmp + repLen
      if (size : Int) > (STR_MAX : Int) - diff then .ok .over
      else countLoop buf rep repLen diff fuel tmp ((size : Int) + diff).toNat (count + 1)

/-- The copying loop, string/sc_str.c:414-423: the destination, and the positions `tmp` and
`orig` after it. -/
def copyLoop (buf rep with_ : List UInt8) (repLen withLen : Nat) :
    (count : Nat) → (dest : List UInt8) → (tmp orig : Nat) → Res (List UInt8 × Nat × Nat)
  | 0, dest, tmp, orig => .ok (dest, tmp, orig)
  | count + 1, dest, tmp, orig => do
    match ← strstr buf orig rep with
    | none => .ub
    | some p => do
      let lenUnmatch := p - orig
      let dest ← memcpy dest tmp buf orig lenUnmatch
      let tmp := tmp + lenUnmatch
      let dest ← memcpy dest tmp with_ 0 (withLen + 1)
      copyLoop buf rep with_ repLen withLen count dest (tmp + withLen) (orig + lenUnmatch + repLen)

/-- `sc_str_replace`, string/sc_str.c:353-431. `none`: it has not returned after `fuel` rounds
of its first loop. -/
def replace (al : Alloc UInt8) (fuel : Nat) (str : Option S) (rep with_ : Option (List UInt8)) :
    Res (Option (Bool × Option S)) :=
  match rep, with_ with
  | some rep, some with_ =>
    match str with
    | none => .ok (some (true, none))
    | some s => do
      let repLen ← strlen rep 0
      let withLen ← strlen with_ 0
      if repLen ≥ W32 - 1 ∨ withLen ≥ W32 - 1 then .ok (some (false, some s))
      else
        let diff : Int := (withLen : Int) - (repLen : Int)
        if diff = 0 then do
          match ← replaceSame rep with_ repLen fuel s.buf 0 with
          | none => .ok none
          | some b => .ok (some (true, some { s with buf := b }))
        else do
          match ← countLoop s.buf rep repLen diff fuel 0 s.len 0 with
          | .more => .ok none
          | .over => .ok (some (false, some s))
          | .done count size =>
            if count = 0 then .ok (some (true, some s))
            else
              match al with
              | none => .ok (some (false, some s))
              | some fill => do
                let (dest, tmp, orig) ←
                  copyLoop s.buf rep with_ repLen withLen count (fresh size fill) 0 0
                let dest ← memcpy dest tmp s.buf orig (s.len - orig + 1)
                .ok (some (true, some ⟨size % W32, dest⟩))
  | _, _ => .ub

end Verif.Str
