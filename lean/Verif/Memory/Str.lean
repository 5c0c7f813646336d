import Verif.Str.Model
import Verif.Memory.Store

/-! # The memory of strings: `string/sc_str.c` with pointers

A variable `char *` is NULL or points to the bytes of a string, which follow its length in one
block. A function may be given a pointer into the very string it changes. -/

namespace Verif.Memory.Str
open Verif.Str

/-- Memory for strings. -/
abbrev Mem := Store S

/-- What a NULL pointer would point to: nothing. -/
abbrev nul : S := ⟨0, []⟩

/-- The block of `i` gets a new content. It keeps its size. -/
def storeS (i : Nat) (s : S) (st : Mem) : Res Mem := do
  let old ← load nul (some i) st
  if s.buf.length = old.buf.length then .ok (st.put i (some s)) else .ub

/-- Where an argument `const char *` points to. -/
inductive Src where
  /-- to bytes that have nothing to do with the strings -/
  | ext (bytes : List UInt8)
  /-- into the string at `i` -/
  | str (i off : Nat)

/-- The bytes an argument points to, now. -/
def Src.read (p : Src) (st : Mem) : Res (List UInt8) :=
  match p with
  | .ext b => .ok b
  | .str i off => do
    let s ← load nul (some i) st
    if off ≤ s.buf.length then .ok (s.buf.drop off) else .ub

/-- `sc_str_create_len(str + off, len)`, string/sc_str.c:75-93. -/
def createLen (al : Alloc UInt8) (str : Src) (off len : Nat) (st : Mem) :
    Res (Option Nat × Mem) :=
  match al with
  | none => .ok (none, st)
  | some fill => do
    let (i, st) := alloc ⟨0, fresh len fill⟩ st
    let bytes ← str.read st
    let c ← load nul (some i) st
    let b ← memcpy c.buf 0 bytes off len
    let b ← wr b len 0
    let st ← storeS i ⟨len, b⟩ st
    .ok (some i, st)

/-- `sc_str_create`, string/sc_str.c:64-73. -/
def create (al : Alloc UInt8) (str : Option Src) (st : Mem) : Res (Option Nat × Mem) :=
  match str with
  | none => .ok (none, st)
  | some str => do
    let bytes ← str.read st
    let len ← strlen bytes 0
    if len > STR_MAX then .ok (none, st) else createLen al str 0 (len % W32) st

/-- What a format yields, when one of its arguments may be the string `o`. -/
def format (text : Option S → Option (List UInt8)) (o : Option Nat) (st : Mem) :
    Res (Option (List UInt8)) :=
  match o with
  | none => .ok (text none)
  | some i => do
    let s ← load nul (some i) st
    .ok (text (some s))

/-- `sc_str_create_va`, string/sc_str.c:95-131. -/
def createVa (al : Alloc UInt8) (tmp : Nat → UInt8) (text : Option S → Option (List UInt8))
    (o : Option Nat) (st : Mem) : Res (Option Nat × Mem) := do
  let t ← format text o st
  let (tmp, rc) ← vsnprintf (resized [] 1024 tmp) 0 1024 t
  match rc with
  | none => .ok (none, st)
  | some rc =>
    match al with
    | none => .ok (none, st)
    | some fill => do
      let (i, st) := alloc ⟨0, fresh rc fill⟩ st
      let len := rc % W32
      let c ← load nul (some i) st
      if rc < 1024 then do
        let b ← memcpy c.buf 0 tmp 0 (len + 1)
        let st ← storeS i ⟨len, b⟩ st
        .ok (some i, st)
      else do
        let t ← format text o st
        let (b, rc') ← vsnprintf c.buf 0 (len + 1) t
        let st ← storeS i ⟨len, b⟩ st
        match rc' with
        | none => do
          let st ← free (some i) st
          .ok (none, st)
        | some rc' =>
          if rc' > len then do
            let st ← free (some i) st
            .ok (none, st)
          else .ok (some i, st)

/-- `sc_str_destroy`, string/sc_str.c:145-153. -/
def destroy (o : Option Nat) (st : Mem) : Res (Option Nat × Mem) :=
  match o with
  | none => .ok (none, st)
  | some i => do
    let st ← free (some i) st
    .ok (none, st)

/-- `sc_str_dup`, string/sc_str.c:164-174. -/
def dup (al : Alloc UInt8) (o : Option Nat) (st : Mem) : Res (Option Nat × Mem) :=
  match o with
  | none => .ok (none, st)
  | some i => do
    let s ← load nul (some i) st
    createLen al (.str i 0) 0 s.len st

/-- `sc_str_set`, string/sc_str.c:176-189. -/
def set (al : Alloc UInt8) (o : Option Nat) (param : Option Src) (st : Mem) :
    Res ((Option Nat × Bool) × Mem) := do
  let (c, st) ← create al param st
  match c with
  | none => .ok ((o, false), st)
  | some c => do
    let (_, st) ← destroy o st
    .ok ((some c, true), st)

/-- `sc_str_set_fmt`, string/sc_str.c:191-206. -/
def setFmt (al : Alloc UInt8) (tmp : Nat → UInt8) (o : Option Nat)
    (text : Option S → Option (List UInt8)) (st : Mem) : Res ((Option Nat × Bool) × Mem) := do
  let (c, st) ← createVa al tmp text o st
  match c with
  | none => .ok ((o, false), st)
  | some c => do
    let (_, st) ← destroy o st
    .ok ((some c, true), st)

/-- `sc_str_append`, string/sc_str.c:208-233. -/
def append (al : Alloc UInt8) (o : Option Nat) (param : Option Src) (st : Mem) :
    Res ((Option Nat × Bool) × Mem) :=
  match o with
  | none => do
    let (c, st) ← create al param st
    .ok ((c, c.isSome), st)
  | some i =>
    match param with
    | none => .ub
    | some param => do
      let m ← load nul (some i) st
      let bytes ← param.read st
      let len ← strlen bytes 0
      if len > sub64 STR_MAX m.len then .ok ((some i, false), st)
      else do
        let (c, st) ← realloc nul
          (al.map fun fill s => { s with buf := resized s.buf (m.len + len + 1) fill }) (some i) st
        match c with
        | none => .ok ((some i, false), st)
        | some c => do
          let m ← load nul (some c) st
          let bytes ← param.read st
          let b ← memcpy m.buf m.len bytes 0 len
          let l := (m.len + len) % W32
          let b ← wr b l 0
          let st ← storeS c ⟨l, b⟩ st
          .ok ((some c, true), st)

/-- `sc_str_trim`, string/sc_str.c:292-326. -/
def trim (al : Alloc UInt8) (o : Option Nat) (list : List UInt8) (st : Mem) :
    Res ((Option Nat × Bool) × Mem) :=
  match o with
  | none => .ok ((none, true), st)
  | some i => do
    let s ← load nul (some i) st
    let head ← strspn s.buf 0 list
    let e ← trimEnd s.buf list head s.len s.len
    if head ≠ 0 ∨ e ≠ s.len then do
      let (c, st) ← createLen al (.str i 0) head ((e - head) % W32) st
      match c with
      | none => .ok ((some i, false), st)
      | some c => do
        let (_, st) ← destroy (some i) st
        .ok ((some c, true), st)
    else .ok ((some i, true), st)

/-- `sc_str_substring`, string/sc_str.c:328-351. -/
def substring (al : Alloc UInt8) (o : Option Nat) (start end_ : Nat) (st : Mem) :
    Res ((Option Nat × Bool) × Mem) :=
  match o with
  | none => .ok ((none, false), st)
  | some i => do
    let s ← load nul (some i) st
    if start > s.len ∨ end_ > s.len ∨ start > end_ then .ok ((some i, false), st)
    else do
      let (c, st) ← createLen al (.str i 0) start (end_ - start) st
      match c with
      | none => .ok ((some i, false), st)
      | some c => do
        let (_, st) ← destroy (some i) st
        .ok ((some c, true), st)

/-- `sc_str_replace`, string/sc_str.c:353-431; a call that has not returned after `fuel` rounds
of its loop counts as undefined here. -/
def replace (al : Alloc UInt8) (fuel : Nat) (o : Option Nat) (rep with_ : Option (List UInt8))
    (st : Mem) : Res ((Option Nat × Bool) × Mem) :=
  match rep, with_ with
  | some rep, some with_ =>
    match o with
    | none => .ok ((none, true), st)
    | some i => do
      let s ← load nul (some i) st
      let repLen ← strlen rep 0
      let withLen ← strlen with_ 0
      if repLen ≥ W32 - 1 ∨ withLen ≥ W32 - 1 then .ok ((some i, false), st)
      else
        let diff : Int := (withLen : Int) - (repLen : Int)
        if diff = 0 then do
          match ← replaceSame rep with_ repLen fuel s.buf 0 with
          | none => .ub
          | some b => do
            let st ← storeS i { s with buf := b } st
            .ok ((some i, true), st)
        else do
          match ← countLoop s.buf rep repLen diff fuel 0 s.len 0 with
          | .more => .ub
          | .over => .ok ((some i, false), st)
          | .done count size =>
            if count = 0 then .ok ((some i, true), st)
            else
              match al with
              | none => .ok ((some i, false), st)
              | some fill => do
                let (c, st) := alloc ⟨0, fresh size fill⟩ st
                let s ← load nul (some i) st
                let m ← load nul (some c) st
                let (dest, tmp, orig) ← copyLoop s.buf rep with_ repLen withLen count m.buf 0 0
                let dest ← memcpy dest tmp s.buf orig (s.len - orig + 1)
                let st ← storeS c ⟨size % W32, dest⟩ st
                let (_, st) ← destroy (some i) st
                .ok ((some c, true), st)
  | _, _ => .ub

/-- An argument of a call: bytes, or a pointer into the string that the call changes. -/
inductive Param where
  | ext (bytes : List UInt8)
  | self (off : Nat)

/-- Where the argument points to. A pointer into the string needs a string. -/
def Param.src (p : Param) (o : Option Nat) : Res Src :=
  match p with
  | .ext b => .ok (.ext b)
  | .self off => match o with
    | none => .ub
    | some i => .ok (.str i off)

/-- The bytes of the argument, in the model without memory. -/
def Param.bytes (p : Param) (s : Option S) : Res (List UInt8) :=
  match p with
  | .ext b => .ok b
  | .self off => match s with
    | none => .ub
    | some s => if off ≤ s.buf.length then .ok (s.buf.drop off) else .ub

/-- The calls that change a string. -/
inductive Op where
  | set (al : Alloc UInt8) (param : Option Param)
  | setFmt (al : Alloc UInt8) (tmp : Nat → UInt8) (text : Option S → Option (List UInt8))
  | append (al : Alloc UInt8) (param : Option (List UInt8))
  | trim (al : Alloc UInt8) (list : List UInt8)
  | substring (al : Alloc UInt8) (start end_ : Nat)
  | replace (al : Alloc UInt8) (fuel : Nat) (rep with_ : Option (List UInt8))
  | tokenBegin (save : Option Nat) (delim : List UInt8)
  | tokenEnd (save : Option Nat)
  | len

/-- What a call tells. -/
inductive Out where
  | ok (b : Bool)
  | token (save tok : Option Nat)
  | num (n : Int)
  | none

/-- Code that neither allocates nor frees: it reads and writes the block of the string. -/
def keep (f : S → Res (S × ρ)) (i : Nat) (st : Mem) : Res (ρ × Mem) := do
  let s ← load nul (some i) st
  let (s, r) ← f s
  let st ← storeS i s st
  .ok (r, st)

/-- One call on memory, string/sc_str.c:155-431. -/
def step (o : Option Nat) (op : Op) (st : Mem) : Res ((Option Nat × Out) × Mem) :=
  match op with
  | .set al param => do
    let p ← (match param with
      | .none => .ok .none
      | .some p => do let x ← p.src o; .ok (.some x))
    let ((o, r), st) ← set al o p st
    .ok ((o, .ok r), st)
  | .setFmt al tmp text => do let ((o, r), st) ← setFmt al tmp o text st; .ok ((o, .ok r), st)
  | .append al param => do
    let ((o, r), st) ← append al o (param.map .ext) st
    .ok ((o, .ok r), st)
  | .trim al list => do let ((o, r), st) ← trim al o list st; .ok ((o, .ok r), st)
  | .substring al a b => do let ((o, r), st) ← substring al o a b st; .ok ((o, .ok r), st)
  | .replace al fuel rep with_ => do
    let ((o, r), st) ← replace al fuel o rep with_ st
    .ok ((o, .ok r), st)
  | .tokenBegin save delim =>
    match o with
    | .none => .ok ((.none, .token save .none), st)
    | some i => do
      let ((sv, tok), st) ← keep (fun s => tokenBegin s save delim) i st
      .ok ((some i, .token sv tok), st)
  | .tokenEnd save =>
    match o with
    | .none => .ok ((.none, .none), st)
    | some i => do
      let (_, st) ← keep (fun s => do let s ← tokenEnd s save; .ok (s, ())) i st
      .ok ((some i, .none), st)
  | .len =>
    match o with
    | .none => .ok ((.none, .num (-1)), st)
    | some i => do
      let s ← load nul (some i) st
      .ok ((some i, .num s.len), st)

/-- One call, in the model without memory. -/
def step' (v : Option S) (op : Op) : Res (Option S × Out) :=
  match op with
  | .set al param => do
    let p ← (match param with
      | .none => .ok .none
      | .some p => do let x ← p.bytes v; .ok (.some x))
    let (r, v) ← Verif.Str.set al v p
    .ok (v, .ok r)
  | .setFmt al tmp text => do
    let (r, v) ← Verif.Str.setFmt al tmp v (text v)
    .ok (v, .ok r)
  | .append al param => do let (r, v) ← Verif.Str.append al v param; .ok (v, .ok r)
  | .trim al list => do let (r, v) ← Verif.Str.trim al v list; .ok (v, .ok r)
  | .substring al a b => do let (r, v) ← Verif.Str.substring al v a b; .ok (v, .ok r)
  | .replace al fuel rep with_ => do
    match ← Verif.Str.replace al fuel v rep with_ with
    | .none => .ub
    | .some (r, v) => .ok (v, .ok r)
  | .tokenBegin save delim =>
    match v with
    | .none => .ok (.none, .token save .none)
    | some s => do
      let (s, sv, tok) ← tokenBegin s save delim
      .ok (some s, .token sv tok)
  | .tokenEnd save =>
    match v with
    | .none => .ok (.none, .none)
    | some s => do
      let s ← tokenEnd s save
      .ok (some s, .none)
  | .len => .ok (v, .num (Verif.Str.len v))

/-- How a string is made. -/
inductive Arg where
  | null
  | create (al : Alloc UInt8) (str : Option (List UInt8))
  | createLen (al : Alloc UInt8) (str : List UInt8) (len : Nat)
  | createFmt (al : Alloc UInt8) (tmp : Nat → UInt8) (text : Option (List UInt8))

/-- The pointer a new variable has. -/
def make (a : Arg) (st : Mem) : Res (Option Nat × Mem) :=
  match a with
  | .null => .ok (none, st)
  | .create al str => create al (str.map .ext) st
  | .createLen al str len => createLen al (.ext str) 0 len st
  | .createFmt al tmp text => createVa al tmp (fun _ => text) none st

/-- The same in the model without memory. -/
def made (a : Arg) : Res (Option S) :=
  match a with
  | .null => .ok none
  | .create al str => Verif.Str.create al str
  | .createLen al str len => Verif.Str.createLen al str 0 len
  | .createFmt al tmp text => Verif.Str.createVa al tmp text

/-- Variables that hold a string. -/
def kind : Kind where
  Obj := Option Nat
  Blk := S
  View := Option S
  Arg := Arg
  Op := Op
  Out := Out
  null := nul
  ptr o := o
  view o s := o.map fun _ => s
  inv _ _ := True
  initP a st := do
    let (o, st) ← make a st
    .ok (some o, st)
  init a := do
    let v ← made a
    .ok (some v)
  stepP := step
  step := step'
  termP := destroy

/-! ## The two models do the same -/

/-- The variable `o` holds the string `v`. -/
def Rep (o : Option Nat) (st : Mem) (v : Option S) : Prop :=
  Both (fun i s => load nul (some i) st = .ok s) o v

theorem Rep.load {o : Option Nat} {st : Mem} {v : Option S} (h : Rep o st v) :
    ∃ s, load nul o st = .ok s := by
  cases o with
  | none => exact ⟨nul, rfl⟩
  | some i =>
    cases v with
    | none => exact h.elim
    | some s => exact ⟨s, h⟩

theorem Rep.valid {o : Option Nat} {st : Mem} {v : Option S} (h : Rep o st v) : Valid o st := by
  obtain ⟨s, hs⟩ := h.load
  exact load_valid hs

/-- Nothing was allocated in the end. -/
theorem _root_.Verif.Memory.Moves.idle {st st' : Store β} {p : Option Nat} (h : Moves st st' none none)
    (hv : Valid p st) : Moves st st' p p where
  wf := h.wf
  live i hi := by rw [h.frame i (by simp) (by simp)]; exact hv i hi
  frame i _ _ := h.frame i (by simp) (by simp)
  new _ h1 h2 := absurd h1 h2
  old _ h1 h2 := absurd h1 h2
  unused _ h1 h2 := absurd h1 h2
  mono := h.mono

theorem Rep.keeps {o p' : Option Nat} {st st' : Mem} {v : Option S} (h : Rep o st v)
    (hm : Moves st st' none p') : Rep o st' v := by
  have := (hm.load_other (null := nul) h.valid (fun i hi => by simp)).1
  cases o with
  | none =>
    cases v with
    | none => trivial
    | some s => exact h.elim
  | some i =>
    cases v with
    | none => exact h.elim
    | some s => exact this.trans h

theorem storeS_ok {i : Nat} {s c : S} {st : Mem} (hw : st.WF) (h : load nul (some i) st = .ok s)
    (hl : c.buf.length = s.buf.length) :
    ∃ st', storeS i c st = .ok st' ∧ Moves st st' (some i) (some i) ∧
      load nul (some i) st' = .ok c := by
  have hv := load_valid h i rfl
  refine ⟨st.put i (some c), by simp [storeS, h, hl], ⟨?_, ?_, ?_, ?_, ?_,
    fun _ h h' => absurd h h', Nat.le_refl _⟩, by simp [load, Store.put]⟩
  · intro j hj
    have hj' := hw j hj
    simp only [Store.put]
    split
    · next e => subst e; simp [hj'] at hv
    · exact hj'
  · intro j hj
    cases hj
    simp [Store.put]
  · intro j hj _
    simp only [Store.put]
    rw [if_neg (fun e => hj (by rw [e]))]
  · exact fun _ h h' => absurd h h'
  · exact fun _ h h' => absurd h h'

theorem memcpy_length {m src m' : List UInt8} {d s n : Nat} (h : memcpy m d src s n = .ok m') :
    m'.length = m.length := by
  unfold memcpy at h
  split at h
  · next hc =>
    cases h
    exact length_splice (by rw [length_slice hc.2]; exact hc.1)
  · cases h

theorem wr_length {m m' : List α} {i : Nat} {x : α} (h : wr m i x = .ok m') :
    m'.length = m.length := by
  rw [(wr_eq_ok.1 h).2]; simp

theorem vsnprintf_length {m m' : List UInt8} {pos n : Nat} {t : Option (List UInt8)}
    {rc : Option Nat} (h : vsnprintf m pos n t = .ok (m', rc)) : m'.length = m.length := by
  unfold vsnprintf at h
  split at h
  · cases h; rfl
  · split at h
    · cases h; rfl
    · dsimp only at h
      split at h
      · next hc => cases h; exact length_splice hc
      · cases h

/-- A pointer into a string other than those that change reads the same bytes. -/
theorem Src.read_keeps {p : Src} {st st' : Mem} {q : Option Nat} {b : List UInt8}
    (h : p.read st = .ok b) (hm : Moves st st' none q) : p.read st' = .ok b := by
  cases p with
  | ext b => exact h
  | str i off =>
    obtain ⟨s, hs, h⟩ := Res.bind_eq_ok.1 h
    have := (hm.load_other (null := nul) (load_valid hs) (fun i hi => by simp)).1
    simp only [Src.read, this, hs, Res.ok_bind]
    exact h

theorem createLen_ok {al : Alloc UInt8} {p : Src} {off len : Nat} {st : Mem} {bytes : List UInt8}
    {r : Option S} (hw : st.WF) (hp : p.read st = .ok bytes)
    (h : Verif.Str.createLen al bytes off len = .ok r) :
    ∃ o st', createLen al p off len st = .ok (o, st') ∧ Moves st st' none o ∧ Rep o st' r := by
  cases al with
  | none =>
    cases h
    exact ⟨none, st, rfl, .refl hw (fun _ hi => (by cases hi)), trivial⟩
  | some fill =>
    obtain ⟨b1, h1, h⟩ := Res.bind_eq_ok.1 h
    obtain ⟨b2, h2, h⟩ := Res.bind_eq_ok.1 h
    cases h
    obtain ⟨hm, hl⟩ := alloc_ok nul (⟨0, fresh len fill⟩ : S) hw
    have hp' := Src.read_keeps hp hm
    obtain ⟨st', hs, hm', hl'⟩ := storeS_ok (c := ⟨len, b2⟩) hm.wf hl
      ((wr_length h2).trans (memcpy_length h1))
    exact ⟨_, st', by simp only [createLen, hp', hl, h1, h2, hs, Res.ok_bind], hm.trans hm', hl'⟩

theorem create_ok {al : Alloc UInt8} {p : Option Src} {st : Mem} {bytes : Option (List UInt8)}
    {r : Option S} (hw : st.WF) (hp : Both (fun p b => Src.read p st = .ok b) p bytes)
    (h : Verif.Str.create al bytes = .ok r) :
    ∃ o st', create al p st = .ok (o, st') ∧ Moves st st' none o ∧ Rep o st' r := by
  cases p with
  | none =>
    cases bytes with
    | some b => exact hp.elim
    | none =>
      cases h
      exact ⟨none, st, rfl, .refl hw (fun _ hi => (by cases hi)), trivial⟩
  | some p =>
    cases bytes with
    | none => exact hp.elim
    | some b =>
      have hp : p.read st = .ok b := hp
      obtain ⟨len, hl, h⟩ := Res.bind_eq_ok.1 h
      by_cases h0 : len > STR_MAX
      · rw [if_pos h0] at h
        cases h
        exact ⟨none, st, by simp only [create, hp, hl, Res.ok_bind, if_pos h0],
          .refl hw (fun _ hi => (by cases hi)), trivial⟩
      · rw [if_neg h0] at h
        obtain ⟨o, st', e, hm, hr⟩ := createLen_ok hw hp h
        exact ⟨o, st', by simp only [create, hp, hl, Res.ok_bind, if_neg h0, e], hm, hr⟩

theorem format_ok {text : Option S → Option (List UInt8)} {o : Option Nat} {st : Mem}
    {v : Option S} (h : Rep o st v) : format text o st = .ok (text v) := by
  cases o with
  | none =>
    cases v with
    | none => rfl
    | some s => exact h.elim
  | some i =>
    cases v with
    | none => exact h.elim
    | some s =>
      have h : load nul (some i) st = .ok s := h
      simp only [format, h, Res.ok_bind]

theorem createVa_ok {al : Alloc UInt8} {tmp : Nat → UInt8}
    {text : Option S → Option (List UInt8)} {o : Option Nat} {v : Option S} {st : Mem}
    {r : Option S} (hw : st.WF) (ho : Rep o st v)
    (h : Verif.Str.createVa al tmp (text v) = .ok r) :
    ∃ c st', createVa al tmp text o st = .ok (c, st') ∧ Moves st st' none c ∧ Rep c st' r := by
  have hrefl : Moves st st none none := .refl hw (fun _ hi => (by cases hi))
  obtain ⟨⟨t, rc⟩, h1, h⟩ := Res.bind_eq_ok.1 h
  unfold createVa
  simp only [format_ok ho, h1, Res.ok_bind]
  dsimp only at h
  cases rc with
  | none =>
    cases h
    exact ⟨none, st, rfl, hrefl, trivial⟩
  | some rc =>
    cases al with
    | none =>
      cases h
      exact ⟨none, st, rfl, hrefl, trivial⟩
    | some fill =>
      dsimp only at h ⊢
      obtain ⟨hm, hl⟩ := alloc_ok nul (⟨0, fresh rc fill⟩ : S) hw
      simp only [hl, Res.ok_bind]
      by_cases hr : rc < 1024
      · rw [if_pos hr] at h ⊢
        obtain ⟨b, h2, h⟩ := Res.bind_eq_ok.1 h
        cases h
        obtain ⟨st', hs, hm', hl'⟩ := storeS_ok (c := ⟨rc % W32, b⟩) hm.wf hl (memcpy_length h2)
        exact ⟨_, st', by simp only [h2, hs, Res.ok_bind], hm.trans hm', hl'⟩
      · rw [if_neg hr] at h ⊢
        obtain ⟨⟨b, rc'⟩, h2, h⟩ := Res.bind_eq_ok.1 h
        obtain ⟨st', hs, hm', hl'⟩ := storeS_ok (c := ⟨rc % W32, b⟩) hm.wf hl (vsnprintf_length h2)
        simp only [format_ok (ho.keeps hm), h2, hs, Res.ok_bind]
        dsimp only at h
        obtain ⟨st2, hf, hm2⟩ := free_ok hm'.wf hl'
        cases rc' with
        | none =>
          cases h
          exact ⟨none, st2, by simp only [hf, Res.ok_bind], (hm.trans hm').trans hm2, trivial⟩
        | some rc' =>
          dsimp only at h ⊢
          by_cases hc : rc' > rc % W32
          · rw [if_pos hc] at h ⊢
            cases h
            exact ⟨none, st2, by simp only [hf, Res.ok_bind], (hm.trans hm').trans hm2, trivial⟩
          · rw [if_neg hc] at h ⊢
            cases h
            exact ⟨_, st', rfl, hm.trans hm', hl'⟩

theorem destroy_ok {o : Option Nat} {st : Mem} {s : S} (hw : st.WF) (h : load nul o st = .ok s) :
    ∃ st', destroy o st = .ok (none, st') ∧ free o st = .ok st' ∧ Moves st st' o none := by
  obtain ⟨st', hf, hm⟩ := free_ok hw h
  refine ⟨st', ?_, hf, hm⟩
  cases o with
  | none => cases hf; rfl
  | some i => simp only [destroy, hf, Res.ok_bind]

/-- A new string `c` takes the place of `o`, which is given back. -/
theorem assign_ok {o : Option Nat} {c : Nat} {v : Option S} {s : S} {st st' : Mem}
    (ho : Rep o st v) (hm : Moves st st' none (some c)) (hc : Rep (some c) st' (some s)) :
    ∃ st2, destroy o st' = .ok (none, st2) ∧ Moves st st2 o (some c) ∧
      Rep (some c) st2 (some s) := by
  obtain ⟨x, hx⟩ := ho.load
  obtain ⟨h1, st2, hf, hm2, hl⟩ := replace_ok hx hm
  obtain ⟨st3, hd, hf', _⟩ := destroy_ok hm.wf h1
  rw [hf] at hf'
  cases hf'
  exact ⟨st2, hd, hm2, hl.trans hc⟩

/-- Make a new string, and put it in the place of the old one. -/
theorem swap_ok {o : Option Nat} {v w : Option S} {r : Option Nat} {st st' : Mem}
    (ho : Rep o st v) (hm : Moves st st' none r) (hr : Rep r st' w) :
    ∃ o' st2,
      (match r with
        | none => .ok ((o, false), st')
        | some c => do
          let (_, st) ← destroy o st'
          .ok ((some c, true), st) : Res ((Option Nat × Bool) × Mem)) = .ok ((o', w.isSome), st2) ∧
      Moves st st2 o o' ∧ Rep o' st2 (w.or v) := by
  cases r with
  | none =>
    cases w with
    | some s => exact hr.elim
    | none => exact ⟨o, st', rfl, hm.idle ho.valid, ho.keeps hm⟩
  | some c =>
    cases w with
    | none => exact hr.elim
    | some s =>
      obtain ⟨st2, hd, hm2, hr2⟩ := assign_ok ho hm hr
      exact ⟨some c, st2, by simp only [hd, Res.ok_bind, Option.isSome_some], hm2, hr2⟩

theorem set_ok {al : Alloc UInt8} {o : Option Nat} {v v' : Option S} {p : Option Src}
    {bytes : Option (List UInt8)} {st : Mem} {r : Bool} (hw : st.WF) (ho : Rep o st v)
    (hp : Both (fun p b => Src.read p st = .ok b) p bytes)
    (h : Verif.Str.set al v bytes = .ok (r, v')) :
    ∃ o' st', set al o p st = .ok ((o', r), st') ∧ Moves st st' o o' ∧ Rep o' st' v' := by
  obtain ⟨w, h1, h⟩ := Res.bind_eq_ok.1 h
  obtain ⟨c, st1, e1, m1, r1⟩ := create_ok hw hp h1
  obtain ⟨o', st2, e2, m2, r2⟩ := swap_ok ho m1 r1
  have hv : r = w.isSome ∧ v' = w.or v := by
    cases w <;> cases h <;> exact ⟨rfl, rfl⟩
  rw [hv.1, hv.2]
  exact ⟨o', st2, by simp only [set, e1, Res.ok_bind]; exact e2, m2, r2⟩

theorem setFmt_ok {al : Alloc UInt8} {tmp : Nat → UInt8} {o : Option Nat} {v v' : Option S}
    {text : Option S → Option (List UInt8)} {st : Mem} {r : Bool} (hw : st.WF) (ho : Rep o st v)
    (h : Verif.Str.setFmt al tmp v (text v) = .ok (r, v')) :
    ∃ o' st', setFmt al tmp o text st = .ok ((o', r), st') ∧ Moves st st' o o' ∧
      Rep o' st' v' := by
  obtain ⟨w, h1, h⟩ := Res.bind_eq_ok.1 h
  obtain ⟨c, st1, e1, m1, r1⟩ := createVa_ok hw ho h1
  obtain ⟨o', st2, e2, m2, r2⟩ := swap_ok ho m1 r1
  have hv : r = w.isSome ∧ v' = w.or v := by
    cases w <;> cases h <;> exact ⟨rfl, rfl⟩
  rw [hv.1, hv.2]
  exact ⟨o', st2, by simp only [setFmt, e1, Res.ok_bind]; exact e2, m2, r2⟩

theorem append_ok {al : Alloc UInt8} {o : Option Nat} {v v' : Option S}
    {param : Option (List UInt8)} {st : Mem} {r : Bool} (hw : st.WF) (ho : Rep o st v)
    (h : Verif.Str.append al v param = .ok (r, v')) :
    ∃ o' st', append al o (param.map .ext) st = .ok ((o', r), st') ∧ Moves st st' o o' ∧
      Rep o' st' v' := by
  cases o with
  | none =>
    cases v with
    | some s => exact ho.elim
    | none =>
      obtain ⟨w, h1, h⟩ := Res.bind_eq_ok.1 h
      cases h
      obtain ⟨c, st1, e1, m1, r1⟩ := create_ok (p := param.map .ext) hw
        (by cases param <;> trivial) h1
      have hs : c.isSome = v'.isSome := by
        cases c <;> cases v' <;> simp_all [Rep, Both]
      exact ⟨c, st1, by simp only [append, e1, Res.ok_bind, hs], m1, r1⟩
  | some i =>
    cases v with
    | none => exact ho.elim
    | some m =>
      have ho : load nul (some i) st = .ok m := ho
      have hrefl := Moves.refl hw (load_valid ho)
      cases param with
      | none => cases h
      | some p =>
        obtain ⟨len, hl, h⟩ := Res.bind_eq_ok.1 h
        unfold append
        simp only [Option.map_some, ho, Src.read, hl, Res.ok_bind]
        by_cases h0 : len > sub64 STR_MAX m.len
        · rw [if_pos h0] at h ⊢
          cases h
          exact ⟨_, st, rfl, hrefl, ho⟩
        · rw [if_neg h0] at h ⊢
          cases al with
          | none =>
            cases h
            refine ⟨some i, st, ?_, hrefl, ho⟩
            simp only [Option.map_none, realloc_none ho, Res.ok_bind]
          | some fill =>
            obtain ⟨b1, h1, h⟩ := Res.bind_eq_ok.1 h
            obtain ⟨b2, h2, h⟩ := Res.bind_eq_ok.1 h
            cases h
            obtain ⟨c, st1, e1, m1, l1⟩ := realloc_some
              (fun s : S => { s with buf := resized s.buf (m.len + len + 1) fill }) hw ho
            obtain ⟨st2, e2, m2, l2⟩ := storeS_ok (c := ⟨(m.len + len) % W32, b2⟩) m1.wf l1
              ((wr_length h2).trans (memcpy_length h1))
            refine ⟨some c, st2, ?_, m1.trans m2, l2⟩
            simp only [Option.map_some, e1, Res.ok_bind, l1, h1, h2, e2]

theorem read_str {i : Nat} {st : Mem} {s : S} (h : load nul (some i) st = .ok s) :
    Src.read (.str i 0) st = .ok s.buf := by
  simp [Src.read, h]

theorem trim_ok {al : Alloc UInt8} {o : Option Nat} {v v' : Option S} {list : List UInt8}
    {st : Mem} {r : Bool} (hw : st.WF) (ho : Rep o st v)
    (h : Verif.Str.trim al v list = .ok (r, v')) :
    ∃ o' st', trim al o list st = .ok ((o', r), st') ∧ Moves st st' o o' ∧ Rep o' st' v' := by
  cases o with
  | none =>
    cases v with
    | some s => exact ho.elim
    | none =>
      cases h
      exact ⟨none, st, rfl, .refl hw (fun _ hi => (by cases hi)), trivial⟩
  | some i =>
    cases v with
    | none => exact ho.elim
    | some s =>
      have ho' : load nul (some i) st = .ok s := ho
      obtain ⟨hd, h1, h⟩ := Res.bind_eq_ok.1 h
      obtain ⟨e, h2, h⟩ := Res.bind_eq_ok.1 h
      unfold trim
      simp only [ho', h1, h2, Res.ok_bind]
      by_cases hc : hd ≠ 0 ∨ e ≠ s.len
      · rw [if_pos hc] at h ⊢
        obtain ⟨w, h3, h⟩ := Res.bind_eq_ok.1 h
        obtain ⟨c, st1, e1, m1, r1⟩ := createLen_ok hw (read_str ho') h3
        obtain ⟨o', st2, e2, m2, r2⟩ := swap_ok ho m1 r1
        have hv : r = w.isSome ∧ v' = w.or (some s) := by
          cases w <;> cases h <;> exact ⟨rfl, rfl⟩
        rw [hv.1, hv.2]
        exact ⟨o', st2, by simp only [e1, Res.ok_bind]; exact e2, m2, r2⟩
      · rw [if_neg hc] at h ⊢
        cases h
        exact ⟨_, st, rfl, .refl hw (load_valid ho'), ho⟩

theorem substring_ok {al : Alloc UInt8} {o : Option Nat} {v v' : Option S} {a b : Nat} {st : Mem}
    {r : Bool} (hw : st.WF) (ho : Rep o st v)
    (h : Verif.Str.substring al v a b = .ok (r, v')) :
    ∃ o' st', substring al o a b st = .ok ((o', r), st') ∧ Moves st st' o o' ∧ Rep o' st' v' := by
  cases o with
  | none =>
    cases v with
    | some s => exact ho.elim
    | none =>
      cases h
      exact ⟨none, st, rfl, .refl hw (fun _ hi => (by cases hi)), trivial⟩
  | some i =>
    cases v with
    | none => exact ho.elim
    | some s =>
      have ho' : load nul (some i) st = .ok s := ho
      unfold substring
      unfold Verif.Str.substring at h
      simp only [ho', Res.ok_bind]
      dsimp only at h
      by_cases hc : a > s.len ∨ b > s.len ∨ a > b
      · rw [if_pos hc] at h ⊢
        cases h
        exact ⟨_, st, rfl, .refl hw (load_valid ho'), ho⟩
      · rw [if_neg hc] at h ⊢
        obtain ⟨w, h3, h⟩ := Res.bind_eq_ok.1 h
        obtain ⟨c, st1, e1, m1, r1⟩ := createLen_ok hw (read_str ho') h3
        obtain ⟨o', st2, e2, m2, r2⟩ := swap_ok ho m1 r1
        have hv : r = w.isSome ∧ v' = w.or (some s) := by
          cases w <;> cases h <;> exact ⟨rfl, rfl⟩
        rw [hv.1, hv.2]
        exact ⟨o', st2, by simp only [e1, Res.ok_bind]; exact e2, m2, r2⟩

theorem replaceSame_length {rep w : List UInt8} {n : Nat} :
    ∀ {fuel : Nat} {buf buf' : List UInt8} {orig : Nat},
      replaceSame rep w n fuel buf orig = .ok (some buf') → buf'.length = buf.length := by
  intro fuel
  induction fuel with
  | zero => intro buf buf' orig h; cases h
  | succ k ih =>
    intro buf buf' orig h
    obtain ⟨x, hx, h⟩ := Res.bind_eq_ok.1 h
    cases x with
    | none => cases h; rfl
    | some p =>
      obtain ⟨b, hb, h⟩ := Res.bind_eq_ok.1 h
      rw [ih h, memcpy_length hb]

theorem copyLoop_length {buf rep w : List UInt8} {rl wl : Nat} :
    ∀ {count : Nat} {dest dest' : List UInt8} {tmp orig t o : Nat},
      copyLoop buf rep w rl wl count dest tmp orig = .ok (dest', t, o) →
      dest'.length = dest.length := by
  intro count
  induction count with
  | zero => intro dest dest' tmp orig t o h; cases h; rfl
  | succ k ih =>
    intro dest dest' tmp orig t o h
    obtain ⟨x, hx, h⟩ := Res.bind_eq_ok.1 h
    cases x with
    | none => cases h
    | some p =>
      obtain ⟨b, hb, h⟩ := Res.bind_eq_ok.1 h
      obtain ⟨c, hc, h⟩ := Res.bind_eq_ok.1 h
      rw [ih h, memcpy_length hc, memcpy_length hb]

theorem replace_str_ok {al : Alloc UInt8} {fuel : Nat} {o : Option Nat} {v v' : Option S}
    {rep w : Option (List UInt8)} {st : Mem} {r : Bool} (hw : st.WF) (ho : Rep o st v)
    (h : Verif.Str.replace al fuel v rep w = .ok (some (r, v'))) :
    ∃ o' st', replace al fuel o rep w st = .ok ((o', r), st') ∧ Moves st st' o o' ∧
      Rep o' st' v' := by
  cases rep with
  | none => cases h
  | some rep =>
  cases w with
  | none => cases h
  | some w =>
  cases o with
  | none =>
    cases v with
    | some s => exact ho.elim
    | none =>
      cases h
      exact ⟨none, st, rfl, .refl hw (fun _ hi => (by cases hi)), trivial⟩
  | some i =>
  cases v with
  | none => exact ho.elim
  | some s =>
    have ho' : load nul (some i) st = .ok s := ho
    have hrefl := Moves.refl hw (load_valid ho')
    obtain ⟨rl, h1, h⟩ := Res.bind_eq_ok.1 h
    obtain ⟨wl, h2, h⟩ := Res.bind_eq_ok.1 h
    unfold replace
    simp only [ho', h1, h2, Res.ok_bind]
    by_cases hc : rl ≥ W32 - 1 ∨ wl ≥ W32 - 1
    · rw [if_pos hc] at h ⊢
      cases h
      exact ⟨_, st, rfl, hrefl, ho⟩
    · rw [if_neg hc] at h ⊢
      dsimp only at h
      by_cases hd : ((wl : Int) - (rl : Int)) = 0
      · rw [if_pos hd] at h ⊢
        obtain ⟨x, hx, h⟩ := Res.bind_eq_ok.1 h
        cases x with
        | none => cases h
        | some b =>
          cases h
          obtain ⟨st', e, hm, hl⟩ := storeS_ok (c := { s with buf := b }) hw ho'
            (replaceSame_length hx)
          exact ⟨some i, st', by simp only [hx, Res.ok_bind, e], hm, hl⟩
      · rw [if_neg hd] at h ⊢
        obtain ⟨x, hx, h⟩ := Res.bind_eq_ok.1 h
        simp only [hx, Res.ok_bind]
        cases x with
        | more => cases h
        | over =>
          cases h
          exact ⟨_, st, rfl, hrefl, ho⟩
        | done count size =>
          dsimp only at h ⊢
          by_cases h0 : count = 0
          · rw [if_pos h0] at h ⊢
            cases h
            exact ⟨_, st, rfl, hrefl, ho⟩
          · rw [if_neg h0] at h ⊢
            cases al with
            | none =>
              cases h
              exact ⟨_, st, rfl, hrefl, ho⟩
            | some fill =>
              dsimp only at h ⊢
              obtain ⟨⟨d1, t, og⟩, h3, h⟩ := Res.bind_eq_ok.1 h
              obtain ⟨d2, h4, h⟩ := Res.bind_eq_ok.1 h
              cases h
              obtain ⟨hm, hl⟩ := alloc_ok nul (⟨0, fresh size fill⟩ : S) hw
              have hk : load nul (some i) _ = .ok s := ho.keeps hm
              obtain ⟨st1, e1, m1, l1⟩ := storeS_ok (c := ⟨size % W32, d2⟩) hm.wf hl
                ((memcpy_length h4).trans (copyLoop_length h3))
              obtain ⟨st2, e2, m2, r2⟩ := assign_ok ho (hm.trans m1) (s := ⟨size % W32, d2⟩) l1
              refine ⟨_, st2, ?_, m2, r2⟩
              simp only [hk, hl, h3, Res.ok_bind]
              simp only [h4, e1, e2, Res.ok_bind]

theorem swap_length {s s' : S} {d : Nat} (h : Verif.Str.swap s d = .ok s') :
    s'.buf.length = s.buf.length := by
  obtain ⟨a, _, h⟩ := Res.bind_eq_ok.1 h
  obtain ⟨b, _, h⟩ := Res.bind_eq_ok.1 h
  obtain ⟨c, hc, h⟩ := Res.bind_eq_ok.1 h
  obtain ⟨d, hd, h⟩ := Res.bind_eq_ok.1 h
  cases h
  exact (wr_length hd).trans (wr_length hc)

theorem tokenBegin_length {s s' : S} {save sv tok : Option Nat} {delim : List UInt8}
    (h : tokenBegin s save delim = .ok (s', sv, tok)) : s'.buf.length = s.buf.length := by
  cases save with
  | none =>
    obtain ⟨n, _, h⟩ := Res.bind_eq_ok.1 h
    obtain ⟨s1, h1, h⟩ := Res.bind_eq_ok.1 h
    cases h
    exact swap_length h1
  | some it =>
    obtain ⟨s1, h1, h⟩ := Res.bind_eq_ok.1 h
    obtain ⟨c, _, h⟩ := Res.bind_eq_ok.1 h
    split at h
    · cases h; exact swap_length h1
    · obtain ⟨n, _, h⟩ := Res.bind_eq_ok.1 h
      obtain ⟨s2, h2, h⟩ := Res.bind_eq_ok.1 h
      cases h
      exact (swap_length h2).trans (swap_length h1)

theorem tokenEnd_length {s s' : S} {save : Option Nat} (h : tokenEnd s save = .ok s') :
    s'.buf.length = s.buf.length := by
  obtain ⟨c, _, h⟩ := Res.bind_eq_ok.1 h
  split at h
  · cases h; rfl
  · split at h
    · cases h
    · exact swap_length h

theorem keep_ok {f : S → Res (S × ρ)} {i : Nat} {st : Mem} {s s' : S} {r : ρ} (hw : st.WF)
    (hl : load nul (some i) st = .ok s) (h : f s = .ok (s', r))
    (hlen : s'.buf.length = s.buf.length) :
    ∃ st', keep f i st = .ok (r, st') ∧ Moves st st' (some i) (some i) ∧
      load nul (some i) st' = .ok s' := by
  obtain ⟨st', e, hm, hl'⟩ := storeS_ok hw hl hlen
  exact ⟨st', by simp only [keep, hl, h, e, Res.ok_bind], hm, hl'⟩

theorem param_ok {param : Param} {o : Option Nat} {v : Option S} {st : Mem} {b : List UInt8}
    (ho : Rep o st v) (h : param.bytes v = .ok b) :
    ∃ p, param.src o = .ok p ∧ p.read st = .ok b := by
  cases param with
  | ext b' => cases h; exact ⟨_, rfl, rfl⟩
  | self off =>
    cases v with
    | none => cases h
    | some s =>
      cases o with
      | none => exact ho.elim
      | some i =>
        have ho : load nul (some i) st = .ok s := ho
        refine ⟨.str i off, rfl, ?_⟩
        simp only [Src.read, ho, Res.ok_bind]
        exact h

theorem step_ok {o : Option Nat} {v v' : Option S} {op : Op} {out : Out} {st : Mem} (hw : st.WF)
    (ho : Rep o st v) (h : step' v op = .ok (v', out)) :
    ∃ o' st', step o op st = .ok ((o', out), st') ∧ Moves st st' o o' ∧ Rep o' st' v' := by
  cases op with
  | set al param =>
    obtain ⟨p, hp, h⟩ := Res.bind_eq_ok.1 h
    obtain ⟨⟨r, w⟩, h1, h⟩ := Res.bind_eq_ok.1 h
    cases h
    cases param with
    | none =>
      cases hp
      obtain ⟨o', st', e, hm, hr⟩ := set_ok (p := none) (bytes := none) hw ho trivial h1
      exact ⟨o', st', by simp only [step, e, Res.ok_bind], hm, hr⟩
    | some q =>
      obtain ⟨b, hb, hp⟩ := Res.bind_eq_ok.1 hp
      cases hp
      obtain ⟨x, hx, hrd⟩ := param_ok ho hb
      obtain ⟨o', st', e, hm, hr⟩ := set_ok (p := some x) (bytes := some b) hw ho hrd h1
      exact ⟨o', st', by simp only [step, hx, e, Res.ok_bind], hm, hr⟩
  | setFmt al tmp text =>
    obtain ⟨⟨r, w⟩, h1, h⟩ := Res.bind_eq_ok.1 h
    cases h
    obtain ⟨o', st', e, hm, hr⟩ := setFmt_ok hw ho h1
    exact ⟨o', st', by simp only [step, e, Res.ok_bind], hm, hr⟩
  | append al param =>
    obtain ⟨⟨r, w⟩, h1, h⟩ := Res.bind_eq_ok.1 h
    cases h
    obtain ⟨o', st', e, hm, hr⟩ := append_ok hw ho h1
    exact ⟨o', st', by simp only [step, e, Res.ok_bind], hm, hr⟩
  | trim al list =>
    obtain ⟨⟨r, w⟩, h1, h⟩ := Res.bind_eq_ok.1 h
    cases h
    obtain ⟨o', st', e, hm, hr⟩ := trim_ok hw ho h1
    exact ⟨o', st', by simp only [step, e, Res.ok_bind], hm, hr⟩
  | substring al a b =>
    obtain ⟨⟨r, w⟩, h1, h⟩ := Res.bind_eq_ok.1 h
    cases h
    obtain ⟨o', st', e, hm, hr⟩ := substring_ok hw ho h1
    exact ⟨o', st', by simp only [step, e, Res.ok_bind], hm, hr⟩
  | replace al fuel rep w =>
    obtain ⟨x, h1, h⟩ := Res.bind_eq_ok.1 h
    cases x with
    | none => cases h
    | some x =>
      cases h
      obtain ⟨o', st', e, hm, hr⟩ := replace_str_ok hw ho h1
      exact ⟨o', st', by simp only [step, e, Res.ok_bind], hm, hr⟩
  | tokenBegin save delim =>
    cases o with
    | none =>
      cases v with
      | some s => exact ho.elim
      | none =>
        cases h
        exact ⟨none, st, rfl, .refl hw (fun _ hi => (by cases hi)), trivial⟩
    | some i =>
      cases v with
      | none => exact ho.elim
      | some s =>
        obtain ⟨⟨s1, sv, tok⟩, h1, h⟩ := Res.bind_eq_ok.1 h
        cases h
        obtain ⟨st', e, hm, hl⟩ := keep_ok (f := fun s => tokenBegin s save delim) hw
          (show load nul (some i) st = .ok s from ho) h1 (tokenBegin_length h1)
        exact ⟨some i, st', by simp only [step, e, Res.ok_bind], hm, hl⟩
  | tokenEnd save =>
    cases o with
    | none =>
      cases v with
      | some s => exact ho.elim
      | none =>
        cases h
        exact ⟨none, st, rfl, .refl hw (fun _ hi => (by cases hi)), trivial⟩
    | some i =>
      cases v with
      | none => exact ho.elim
      | some s =>
        obtain ⟨s1, h1, h⟩ := Res.bind_eq_ok.1 h
        cases h
        obtain ⟨st', e, hm, hl⟩ := keep_ok (f := fun s => do let s ← tokenEnd s save; .ok (s, ())) hw
          (show load nul (some i) st = .ok s from ho)
          (show _ = Res.ok (s1, ()) by simp only [h1, Res.ok_bind]) (tokenEnd_length h1)
        exact ⟨some i, st', by simp only [step, e, Res.ok_bind], hm, hl⟩
  | len =>
    cases h
    have hrefl := Moves.refl hw ho.valid
    cases o with
    | none =>
      cases v with
      | some s => exact ho.elim
      | none => exact ⟨none, st, rfl, hrefl, trivial⟩
    | some i =>
      cases v with
      | none => exact ho.elim
      | some s =>
        have ho' : load nul (some i) st = .ok s := ho
        refine ⟨some i, st, ?_, hrefl, ho⟩
        simp only [step, ho', Res.ok_bind, Verif.Str.len]

theorem make_ok {a : Arg} {r : Option S} {st : Mem} (hw : st.WF) (h : made a = .ok r) :
    ∃ o st', make a st = .ok (o, st') ∧ Moves st st' none o ∧ Rep o st' r := by
  cases a with
  | null =>
    cases h
    exact ⟨none, st, rfl, .refl hw (fun _ hi => (by cases hi)), trivial⟩
  | create al str => exact create_ok hw (by cases str <;> trivial) h
  | createLen al str len => exact createLen_ok (p := .ext str) hw rfl h
  | createFmt al tmp text =>
    exact createVa_ok (text := fun _ => text) (o := none) (v := none) hw trivial h

theorem rep_iff {o : Option Nat} {st : Mem} {v : Option S} : kind.Rep o st v ↔ Rep o st v := by
  constructor
  · rintro ⟨s, hl, hv, -⟩
    cases o with
    | none => cases hv; trivial
    | some i => cases hv; exact hl
  · intro h
    obtain ⟨s, hs⟩ := h.load
    refine ⟨s, hs, ?_, trivial⟩
    cases o with
    | none =>
      cases v with
      | none => rfl
      | some _ => exact h.elim
    | some i =>
      cases v with
      | none => exact h.elim
      | some x =>
        have h : load nul (some i) st = .ok x := h
        rw [hs] at h
        cases h
        rfl

/-- Strings take memory for themselves only, and give back all they no longer use, also when a
call is given a pointer into the string it changes. -/
theorem kind_sound : kind.Sound where
  init a st r hw h := by
    obtain ⟨v, hv, h⟩ := Res.bind_eq_ok.1 h
    cases h
    obtain ⟨o, st', e, hm, hr⟩ := make_ok hw hv
    refine ⟨some o, st', ?_, hm, rep_iff.2 hr⟩
    show (do let (o, st) ← make a st; Res.ok (some o, st)) = _
    simp only [e, Res.ok_bind]
    rfl
  step o op st v v' out hw hr h := by
    obtain ⟨o', st', e, hm, hr'⟩ := step_ok hw (rep_iff.1 hr) h
    exact ⟨o', st', e, hm, rep_iff.2 hr'⟩
  term o st v hw hr := by
    obtain ⟨s, hs⟩ := (rep_iff.1 hr).load
    obtain ⟨st', e, _, hm⟩ := destroy_ok hw hs
    exact ⟨none, st', e, rfl, hm⟩

/-- `sc_str_dup` makes a string of its own: the other is as before. -/
theorem dup_ok {al : Alloc UInt8} {o : Option Nat} {v r : Option S} {st : Mem} (hw : st.WF)
    (ho : Rep o st v) (h : Verif.Str.dup al v = .ok r) :
    ∃ c st', dup al o st = .ok (c, st') ∧ Moves st st' none c ∧ Rep c st' r ∧ Rep o st' v := by
  cases o with
  | none =>
    cases v with
    | some s => exact ho.elim
    | none =>
      cases h
      exact ⟨none, st, rfl, .refl hw (fun _ hi => (by cases hi)), trivial, trivial⟩
  | some i =>
    cases v with
    | none => exact ho.elim
    | some s =>
      have ho' : load nul (some i) st = .ok s := ho
      obtain ⟨c, st', e, hm, hr⟩ := createLen_ok hw (read_str ho') h
      exact ⟨c, st', by simp only [dup, ho', e, Res.ok_bind], hm, hr, ho.keeps hm⟩

end Verif.Memory.Str
