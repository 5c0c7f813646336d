import Verif.Buf.Model
import Verif.Memory.Store

/-! # The memory of buffers: `buffer/sc_buf.c` with pointers

A buffer has memory of its own, or (flag `SC_BUF_REF`) works in memory of its caller, which it
must neither give to `realloc` nor free. -/

namespace Verif.Memory.Buf
open Verif.Buf

/-- `struct sc_buf`, buffer/sc_buf.h:59-68. The pointer `mem` of the C structure is here `mem`
when it is memory from the allocator, and `none` when it is NULL or memory of the caller; `lent`
are the bytes of the memory of the caller. -/
structure Obj where
  mem : Option Nat
  lent : List UInt8
  cap : Nat
  limit : Nat
  rpos : Nat
  wpos : Nat
  err : Nat
  ref : Bool

/-- The buffer of the model without memory: with the bytes its pointer points to. -/
abbrev Obj.view (o : Obj) (b : List UInt8) : B :=
  ⟨if o.ref then o.lent else b, o.cap, o.limit, o.rpos, o.wpos, o.err, o.ref⟩

/-- The structure with the pointer `p`, bytes `l` of the caller, and everything else from `b`. -/
abbrev ofB (p : Option Nat) (l : List UInt8) (b : B) : Obj :=
  ⟨p, l, b.cap, b.limit, b.rpos, b.wpos, b.err, b.ref⟩

/-- A buffer in memory of the caller has none of its own. -/
def Obj.Inv (o : Obj) : Prop := o.ref = true → o.mem = none

/-- Code that may allocate. -/
abbrev M (ρ : Type) := Obj → Store (List UInt8) → Res ((Obj × ρ) × Store (List UInt8))

/-- Code that neither allocates nor frees: it reads and writes the bytes `mem` points to and
leaves the pointer alone. -/
def keep (f : B → Res (B × ρ)) : M ρ := fun o st => do
  let m ← load [] o.mem st
  let (b, r) ← f (o.view m)
  if o.ref then
    if b.mem.length = o.lent.length then .ok ((ofB o.mem b.mem b, r), st) else .ub
  else do
    let st ← store b.mem o.mem st
    .ok ((ofB o.mem o.lent b, r), st)

/-- How a buffer is made. -/
inductive Arg where
  /-- `sc_buf_init` -/
  | init (ok : Bool) (cap : Nat)
  /-- `sc_buf_wrap` with memory from `malloc`, which the buffer takes over -/
  | wrap (data : List UInt8) (len : Nat) (isData : Bool)
  /-- `sc_buf_wrap` with `SC_BUF_REF`, in memory of the caller -/
  | lend (data : List UInt8) (len : Nat) (isData : Bool)

/-- `sc_buf_init`, buffer/sc_buf.c:42-58, and `sc_buf_wrap`, 60-73 (with the `malloc` of the
caller when the buffer takes the memory over). -/
def make (a : Arg) (st : Store (List UInt8)) : Obj × Store (List UInt8) :=
  match a with
  | .init ok cap =>
    if cap > 0 then
      if ok && cap < OBJ_MAX then
        let (i, st) := alloc (List.replicate cap 0) st
        (⟨some i, [], cap, BUF_MAX, 0, 0, 0, false⟩, st)
      else (⟨none, [], 0, 0, 0, 0, 0, false⟩, st)
    else (⟨none, [], cap, BUF_MAX, 0, 0, 0, false⟩, st)
  | .wrap data len isData =>
    let (i, st) := alloc data st
    (⟨some i, [], len, BUF_MAX, 0, if isData then len else 0, 0, false⟩, st)
  | .lend data len isData =>
    (⟨none, data, len, len, 0, if isData then len else 0, 0, true⟩, st)

/-- The buffer that `make` makes, in the model without memory. -/
def made : Arg → B
  | .init ok cap => (Verif.Buf.init ok cap).2
  | .wrap data len isData => Verif.Buf.wrap data len false isData
  | .lend data len isData => Verif.Buf.wrap data len true isData

/-- `sc_buf_term`, buffer/sc_buf.c:75-82. -/
def term (o : Obj) (st : Store (List UInt8)) : Res (Obj × Store (List UInt8)) := do
  let st ← (if !o.ref then free o.mem st else .ok st)
  .ok (⟨none, [], 0, BUF_MAX, 0, 0, 0, false⟩, st)

/-- `sc_buf_realloc(b->mem, size)`; see `Verif.Buf.realloc`. -/
def realloc (al : Alloc UInt8) (o : Obj) (size : Nat) (st : Store (List UInt8)) :
    Res (Option Nat × Store (List UInt8)) :=
  if size = 0 ∨ o.ref then .ub
  else if size < OBJ_MAX then
    Memory.realloc [] (al.map fun fill m => resized m size fill) o.mem st
  else .ok (none, st)

/-- `sc_buf_reserve`, buffer/sc_buf.c:99-128. -/
def reserve (al : Alloc UInt8) (len : Nat) : M Bool := fun o st =>
  if add64 o.wpos len > o.cap then
    if o.ref then .ok (({ o with err := o.err ||| OOM }, false), st)
    else
      let size := mul64 (add64 (add64 o.cap len) 4095 / 4096) 4096
      if size > o.limit ∨ o.cap ≥ BUF_MAX - 4096 then
        .ok (({ o with err := o.err ||| OOM }, false), st)
      else do
        let (m, st) ← realloc al o size st
        match m with
        | none => .ok (({ o with err := o.err ||| OOM }, false), st)
        | some i => .ok (({ o with cap := size, mem := some i }, true), st)
  else .ok ((o, true), st)

/-- `sc_buf_shrink`, buffer/sc_buf.c:130-152. -/
def shrink (al : Alloc UInt8) (len : Nat) : M Bool := fun o st => do
  let ((o, _), st) ← keep (fun b => do let b ← compact b; .ok (b, ())) o st
  if len > o.cap ∨ o.wpos ≥ len then .ok ((o, true), st)
  else
    let len := mul64 (add64 len 4095 / 4096) 4096
    let (m, st) ← realloc al o len st
    match m with
    | none => .ok (({ o with err := o.err ||| OOM }, false), st)
    | some i => .ok (({ o with cap := len, mem := some i }, true), st)

/-- `sc_buf_put_8` .. `sc_buf_put_64` after the reservation, buffer/sc_buf.c:643-677. -/
def putRest (w : Width) (val : Nat) (b : B) : Res (B × Unit) := do
  let (b', n) ← setPos w b b.wpos val
  .ok ({ b' with wpos := add64 b.wpos n }, ())

/-- `sc_buf_put_8` .. `sc_buf_put_64`, buffer/sc_buf.c:643-677. -/
def put (al : Alloc UInt8) (w : Width) (val : Nat) : M Unit := fun o st => do
  let ((o, ok), st) ← reserve al w.bytes o st
  if !ok then .ok ((o, ()), st) else keep (putRest w val) o st

/-- `sc_buf_put_raw` after the reservation, buffer/sc_buf.c:635. -/
def putRawRest (src : List UInt8) (len : Nat) (b : B) : Res (B × Unit) := do
  let (b', n) ← setData b b.wpos src len
  .ok ({ b' with wpos := add64 b.wpos n }, ())

/-- `sc_buf_put_raw`, buffer/sc_buf.c:629-636. -/
def putRaw (al : Alloc UInt8) (src : List UInt8) (len : Nat) : M Unit := fun o st => do
  let ((o, ok), st) ← reserve al len o st
  if !ok then .ok ((o, ()), st) else keep (putRawRest src len) o st

/-- `sc_buf_put_str`, buffer/sc_buf.c:687-704. -/
def putStr (al1 al2 : Alloc UInt8) (str : Option (List UInt8)) : M Unit := fun o st =>
  match str with
  | none => put al1 .w64 BUF_MAX o st
  | some str => do
    let sz ← strlen str 0
    if sz ≥ BUF_MAX then .ok (({ o with err := o.err ||| CORRUPT }, ()), st)
    else do
      let ((o, _), st) ← put al1 .w64 sz o st
      putRaw al2 str (sz + 1) o st

/-- `sc_buf_put_str_len`, buffer/sc_buf.c:706-716. -/
def putStrLen (al1 al2 al3 : Alloc UInt8) (str : Option (List UInt8)) (len : Nat) : M Unit :=
  fun o st =>
  match str with
  | none => put al1 .w64 BUF_MAX o st
  | some str => do
    let ((o, _), st) ← put al1 .w64 len o st
    let ((o, _), st) ← putRaw al2 str len o st
    put al3 .w8 0 o st

/-- `sc_buf_put_blob`, buffer/sc_buf.c:816-820. -/
def putBlob (al1 al2 : Alloc UInt8) (ptr : List UInt8) (len : Nat) : M Unit := fun o st => do
  let ((o, _), st) ← put al1 .w64 len o st
  putRaw al2 ptr len o st

/-- `vsnprintf` into the buffer at `pos`, with space for `n` bytes. -/
def print (pos n : Nat) (text : Option (List UInt8)) (b : B) : Res (B × Option Nat) := do
  let (m, rc) ← vsnprintf b.mem pos n text
  .ok ({ b with mem := m }, rc)

/-- The length and the new position, buffer/sc_buf.c:764-765. -/
def fmtEnd (pos wr : Nat) (b : B) : Res (B × Unit) := do
  let b ← setAt .w64 b pos wr
  .ok (markWrite b (add64 wr 9), ())

/-- `sc_buf_put_fmt`, buffer/sc_buf.c:718-768. -/
def putFmt (al : Alloc UInt8) (text : Option (List UInt8)) : M Unit := fun o st => do
  let pos := o.wpos
  let q := sub64 o.cap o.wpos
  let q := if q > 8 then sub64 q 8 else 0
  let ((o, rc), st) ← keep (print (o.wpos + 8) q text) o st
  match rc with
  | none => .ok (({ o with err := o.err ||| CORRUPT }, ()), st)
  | some wr =>
    if wr ≥ q then do
      let ((o, ok), st) ← reserve al (add64 wr 8) o st
      if !ok then .ok ((o, ()), st)
      else do
        let q := sub64 (sub64 o.cap o.wpos) 8
        let ((o, rc), st) ← keep (print (o.wpos + 8) q text) o st
        match rc with
        | none => .ok (({ o with err := o.err ||| OOM }, ()), st)
        | some wr =>
          if wr ≥ q then .ok (({ o with err := o.err ||| OOM }, ()), st)
          else keep (fmtEnd pos wr) o st
    else keep (fmtEnd pos wr) o st

/-- `sc_buf_put_text`, buffer/sc_buf.c:770-814. -/
def putText (al : Alloc UInt8) (text : Option (List UInt8)) : M Unit := fun o st => do
  let off := if sub64 o.wpos o.rpos > 0 then 1 else 0
  let q := sub64 o.cap o.wpos
  let ((o, rc), st) ← keep (print (o.wpos - off) q text) o st
  match rc with
  | none => keep (fun b => .ok (setWpos (b.fail CORRUPT) 0, ())) o st
  | some wr =>
    if wr ≥ q then do
      let ((o, ok), st) ← reserve al (add64 wr 1) o st
      if !ok then keep (fun b => .ok (setWpos b 0, ())) o st
      else do
        let q := sub64 o.cap o.wpos
        let ((o, rc), st) ← keep (print (o.wpos - off) q text) o st
        match rc with
        | none => keep (fun b => .ok (setWpos { b with err := OOM } 0, ())) o st
        | some rc =>
          if rc ≥ q then keep (fun b => .ok (setWpos { b with err := OOM } 0, ())) o st
          else keep (fun b => do let b ← textEnd b rc off; .ok (b, ())) o st
    else keep (fun b => do let b ← textEnd b wr off; .ok (b, ())) o st

/-- One call. -/
def step (o : Obj) (op : Op) (st : Store (List UInt8)) :
    Res ((Obj × Unit) × Store (List UInt8)) :=
  match op with
  | .reserve al n => do let ((o, _), st) ← reserve al n o st; .ok ((o, ()), st)
  | .shrink al n => do let ((o, _), st) ← shrink al n o st; .ok ((o, ()), st)
  | .put al w v => put al w v o st
  | .putRaw al src len => putRaw al src len o st
  | .putStr al1 al2 str => putStr al1 al2 str o st
  | .putStrLen al1 al2 al3 str len => putStrLen al1 al2 al3 str len o st
  | .putBlob al1 al2 src len => putBlob al1 al2 src len o st
  | .putFmt al text => putFmt al text o st
  | .putText al text => putText al text o st
  | op => keep (fun b => do let b ← Verif.Buf.step b op; .ok (b, ())) o st

/-- Buffers. -/
def kind : Kind where
  Obj := Obj
  Blk := List UInt8
  View := B
  Arg := Arg
  Op := Op
  Out := Unit
  null := []
  ptr o := o.mem
  view := Obj.view
  inv o _ := o.Inv
  initP a st := .ok (some (make a st).1, (make a st).2)
  init a := .ok (some (made a))
  stepP := step
  step b op := do let b ← Verif.Buf.step b op; .ok (b, ())
  termP := term

/-! ## The two models do the same -/

/-- The buffer `o` in the memory `st` is `b`. -/
def Rep (o : Obj) (st : Store (List UInt8)) (b : B) : Prop :=
  ∃ m, load [] o.mem st = .ok m ∧ o.view m = b ∧ o.Inv

/-- `F` does on memory what `f` does. -/
def Sim (f : B → Res (B × ρ)) (F : M ρ) : Prop :=
  ∀ o st b b' r, st.WF → Rep o st b → f b = .ok (b', r) →
    ∃ o' st', F o st = .ok ((o', r), st') ∧ Moves st st' o.mem o'.mem ∧ Rep o' st' b'

/-- Code that keeps the bytes where they are. -/
def Keeps (f : B → Res (B × ρ)) : Prop :=
  ∀ b b' r, f b = .ok (b', r) → b'.ref = b.ref ∧ b'.mem.length = b.mem.length

theorem Sim.keep {f : B → Res (B × ρ)} (hf : Keeps f) : Sim f (keep f) := by
  intro o st b b' r hw ⟨m, hb, hv, hi⟩ h
  subst hv
  obtain ⟨h1, h2⟩ := hf _ _ _ h
  have h1 : b'.ref = o.ref := h1
  by_cases hr : o.ref
  · have h2 : b'.mem.length = o.lent.length := by simpa [hr] using h2
    refine ⟨ofB o.mem b'.mem b', st, ?_, .refl hw (load_valid hb), m, hb, ?_, fun _ => hi hr⟩
    · simp only [Buf.keep, hb, Res.ok_bind, h, if_pos hr, if_pos h2]
    · cases b'; simp_all
  · have h2 : b'.mem.length = m.length := by simpa [hr] using h2
    obtain ⟨st', hs, hm, hl⟩ := store_ok hw hb h2
    refine ⟨ofB o.mem o.lent b', st', ?_, hm, _, hl, ?_, fun h => ?_⟩
    · simp only [Buf.keep, hb, Res.ok_bind, h, if_neg hr, hs]
    · cases b'; simp_all
    · exact absurd (h1 ▸ h) hr

theorem Sim.bind {f : B → Res (B × ρ)} {F : M ρ} {g : ρ → B → Res (B × σ)} {G : ρ → M σ}
    (hf : Sim f F) (hg : ∀ x, Sim (g x) (G x)) :
    Sim (fun b => do let (b, x) ← f b; g x b)
      (fun o st => do let ((o, x), st) ← F o st; G x o st) := by
  intro o st b b' r hw hr h
  obtain ⟨⟨b1, x⟩, h1, h⟩ := Res.bind_eq_ok.1 h
  obtain ⟨o1, st1, e1, m1, r1⟩ := hf o st b b1 x hw hr h1
  obtain ⟨o2, st2, e2, m2, r2⟩ := hg x o1 st1 b1 b' r m1.wf r1 h
  exact ⟨o2, st2, by simp only [e1, Res.ok_bind, e2], m1.trans m2, r2⟩

theorem Sim.congr {f f' : B → Res (B × ρ)} {F : M ρ} (h : Sim f F) (e : ∀ b, f' b = f b) :
    Sim f' F := by
  intro o st b b' r hw hr hh
  exact h o st b b' r hw hr (e b ▸ hh)

/-- A call that changes the structure only. -/
theorem Sim.fields {f : B → B} {F : Obj → Obj} (x : ρ)
    (h1 : ∀ o m, (F o).view m = f (o.view m)) (h2 : ∀ o, (F o).mem = o.mem ∧ (F o).ref = o.ref) :
    Sim (fun b => .ok (f b, x)) (fun o st => .ok ((F o, x), st)) := by
  intro o st b b' r hw ⟨m, hb, hv, hi⟩ h
  cases h
  subst hv
  obtain ⟨a, c⟩ := h2 o
  refine ⟨F o, st, rfl, by rw [a]; exact .refl hw (load_valid hb), m, by rw [a]; exact hb, h1 o m,
    fun h => by rw [a]; exact hi (c ▸ h)⟩

theorem Sim.fail (f : Nat) (x : ρ) :
    Sim (fun b => .ok (b.fail f, x)) (fun o st => .ok (({ o with err := o.err ||| f }, x), st)) :=
  Sim.fields (f := fun b => b.fail f) (F := fun o => { o with err := o.err ||| f }) x
    (fun _ _ => rfl) (fun _ => ⟨rfl, rfl⟩)

theorem Sim.pure (x : ρ) : Sim (fun b => .ok (b, x)) (fun o st => .ok ((o, x), st)) :=
  Sim.fields (f := id) (F := id) x (fun _ _ => rfl) (fun _ => ⟨rfl, rfl⟩)

theorem Sim.ite {c : Prop} [Decidable c] {f g : B → Res (B × ρ)} {F G : M ρ} (hf : Sim f F)
    (hg : Sim g G) : Sim (fun b => if c then f b else g b) (fun o st => if c then F o st else G o st) := by
  by_cases h : c
  · simpa [h] using hf
  · simpa [h] using hg

/-- What code on memory learns from the fields of the structure. -/
theorem Sim.read {f : Obj → B → Res (B × ρ)} {F : M ρ}
    (h : ∀ o1, Sim (f o1) (fun o st => F o st)) {g : B → Res (B × ρ)}
    (e : ∀ o m, g (o.view m) = f o (o.view m)) : Sim g F := by
  intro o st b b' r hw hr hh
  have hr' := hr
  obtain ⟨m, hb, hv, hi⟩ := hr
  subst hv
  exact h o o st _ b' r hw hr' (e o m ▸ hh)

theorem realloc_ok {al : Alloc UInt8} {o : Obj} {size : Nat} {st : Store (List UInt8)} {b : B}
    {r : Option (List UInt8)} (hw : st.WF) (hr : Rep o st b)
    (h : Verif.Buf.realloc al b size = .ok r) :
    ∃ p st', realloc al o size st = .ok (p, st') ∧
      ((r = none ∧ p = none ∧ st' = st) ∨
       ∃ m i, r = some m ∧ p = some i ∧ Moves st st' o.mem (some i) ∧
        load [] (some i) st' = .ok m ∧ o.ref = false) := by
  obtain ⟨m, hb, hv, hi⟩ := hr
  subst hv
  unfold Verif.Buf.realloc at h
  unfold realloc
  dsimp only at h
  by_cases h0 : size = 0 ∨ o.ref = true
  · rw [if_pos h0] at h; cases h
  · rw [if_neg h0] at h ⊢
    have href : o.ref = false := by
      cases hc : o.ref with
      | false => rfl
      | true => exact absurd (.inr hc) h0
    by_cases h1 : size < OBJ_MAX
    · rw [if_pos h1] at h ⊢
      cases al with
      | none =>
        cases h
        exact ⟨none, st, realloc_none hb, .inl ⟨rfl, rfl, rfl⟩⟩
      | some fill =>
        cases h
        obtain ⟨i, st', e, hm, hl⟩ := realloc_some (null := []) (fun m => resized m size fill) hw hb
        refine ⟨some i, st', e, .inr ⟨_, i, rfl, rfl, hm, ?_, href⟩⟩
        simpa [href] using hl
    · rw [if_neg h1] at h ⊢
      cases h
      exact ⟨none, st, rfl, .inl ⟨rfl, rfl, rfl⟩⟩

theorem reserve_ok (al : Alloc UInt8) (len : Nat) :
    Sim (fun b => do let (ok, b) ← Verif.Buf.reserve al b len; .ok (b, ok)) (reserve al len) := by
  intro o st b b' r hw hr h
  have hr' := hr
  obtain ⟨m, hb, hv, hi⟩ := hr
  subst hv
  obtain ⟨⟨ok, b1⟩, h1, h⟩ := Res.bind_eq_ok.1 h
  cases h
  unfold Verif.Buf.reserve at h1
  unfold reserve
  dsimp only at h1 ⊢
  have hrefl := Moves.refl hw (load_valid hb)
  by_cases h0 : add64 o.wpos len > o.cap
  · rw [if_pos h0] at h1 ⊢
    by_cases hf : o.ref = true
    · rw [if_pos hf] at h1
      cases h1
      rw [if_pos hf]
      exact ⟨_, st, rfl, hrefl, m, hb, rfl, hi⟩
    · rw [if_neg hf] at h1
      rw [if_neg hf]
      generalize hsz : mul64 (add64 (add64 o.cap len) 4095 / 4096) 4096 = size at h1 ⊢
      by_cases hl : size > o.limit ∨ o.cap ≥ BUF_MAX - 4096
      · rw [if_pos hl] at h1 ⊢
        cases h1
        exact ⟨_, st, rfl, hrefl, m, hb, rfl, hi⟩
      · rw [if_neg hl] at h1 ⊢
        obtain ⟨x, hx, h1⟩ := Res.bind_eq_ok.1 h1
        obtain ⟨p, st', e, hc⟩ := realloc_ok hw hr' hx
        rcases hc with ⟨rfl, rfl, rfl⟩ | ⟨m', i, rfl, rfl, hm, hl, href⟩
        · cases h1
          exact ⟨{ o with err := o.err ||| OOM }, st', by simp only [e, Res.ok_bind], hrefl, m, hb, rfl,
            hi⟩
        · cases h1
          refine ⟨{ o with cap := size, mem := some i }, st', by simp only [e, Res.ok_bind], hm, m',
            hl, ?_, fun h => absurd h hf⟩
          simp [href]
  · rw [if_neg h0] at h1 ⊢
    cases h1
    exact ⟨_, st, rfl, hrefl, m, hb, rfl, hi⟩

theorem store_length {w : Width} {m m' : List UInt8} {pos v : Nat} (h : w.store m pos v = .ok m') :
    m'.length = m.length := by
  cases w with
  | w8 => rw [(wr_eq_ok.1 h).2]; simp
  | w16 =>
    obtain ⟨m1, h1, h⟩ := Res.bind_eq_ok.1 h
    rw [(wr_eq_ok.1 h).2, (wr_eq_ok.1 h1).2]; simp
  | w32 =>
    obtain ⟨m1, h1, h⟩ := Res.bind_eq_ok.1 h
    obtain ⟨m2, h2, h⟩ := Res.bind_eq_ok.1 h
    obtain ⟨m3, h3, h⟩ := Res.bind_eq_ok.1 h
    rw [(wr_eq_ok.1 h).2, (wr_eq_ok.1 h3).2, (wr_eq_ok.1 h2).2, (wr_eq_ok.1 h1).2]; simp
  | w64 =>
    obtain ⟨m1, h1, h⟩ := Res.bind_eq_ok.1 h
    obtain ⟨m2, h2, h⟩ := Res.bind_eq_ok.1 h
    obtain ⟨m3, h3, h⟩ := Res.bind_eq_ok.1 h
    obtain ⟨m4, h4, h⟩ := Res.bind_eq_ok.1 h
    obtain ⟨m5, h5, h⟩ := Res.bind_eq_ok.1 h
    obtain ⟨m6, h6, h⟩ := Res.bind_eq_ok.1 h
    obtain ⟨m7, h7, h⟩ := Res.bind_eq_ok.1 h
    rw [(wr_eq_ok.1 h).2, (wr_eq_ok.1 h7).2, (wr_eq_ok.1 h6).2, (wr_eq_ok.1 h5).2,
      (wr_eq_ok.1 h4).2, (wr_eq_ok.1 h3).2, (wr_eq_ok.1 h2).2, (wr_eq_ok.1 h1).2]; simp

theorem memcpy_length {m src m' : List UInt8} {d s n : Nat} (h : memcpy m d src s n = .ok m') :
    m'.length = m.length := by
  unfold memcpy at h
  split at h
  · next hc =>
    cases h
    exact length_splice (by rw [length_slice hc.2]; exact hc.1)
  · cases h

theorem setPos_keeps {w : Width} {b b' : B} {pos v n : Nat} (h : setPos w b pos v = .ok (b', n)) :
    b'.ref = b.ref ∧ b'.mem.length = b.mem.length := by
  unfold setPos at h
  split at h
  · cases h; exact ⟨rfl, rfl⟩
  · obtain ⟨m, hm, h⟩ := Res.bind_eq_ok.1 h
    cases h
    exact ⟨rfl, store_length hm⟩

theorem peekPos_keeps {w : Width} {b b' : B} {pos v n : Nat}
    (h : peekPos w b pos = .ok (b', v, n)) : b'.ref = b.ref ∧ b'.mem.length = b.mem.length := by
  unfold peekPos at h
  split at h
  · cases h; exact ⟨rfl, rfl⟩
  · obtain ⟨m, hm, h⟩ := Res.bind_eq_ok.1 h
    cases h
    exact ⟨rfl, rfl⟩

theorem setData_keeps {b b' : B} {off len n : Nat} {src : List UInt8}
    (h : setData b off src len = .ok (b', n)) : b'.ref = b.ref ∧ b'.mem.length = b.mem.length := by
  unfold setData at h
  split at h
  · cases h; exact ⟨rfl, rfl⟩
  · split at h
    · cases h; exact ⟨rfl, rfl⟩
    · obtain ⟨m, hm, h⟩ := Res.bind_eq_ok.1 h
      cases h
      exact ⟨rfl, memcpy_length hm⟩

theorem compact_keeps {b b' : B} (h : compact b = .ok b') :
    b'.ref = b.ref ∧ b'.mem.length = b.mem.length := by
  unfold compact at h
  by_cases hz : b.rpos = b.wpos
  · simp only [if_pos hz] at h
    cases h
    exact ⟨rfl, rfl⟩
  · simp only [if_neg hz] at h
    split at h
    · obtain ⟨m, hm, h⟩ := Res.bind_eq_ok.1 h
      cases h
      exact ⟨rfl, memcpy_length hm⟩
    · cases h
      exact ⟨rfl, rfl⟩

theorem setRpos_keeps (b : B) (n : Nat) :
    (setRpos b n).ref = b.ref ∧ (setRpos b n).mem.length = b.mem.length := by
  unfold setRpos; split <;> exact ⟨rfl, rfl⟩

theorem setWpos_keeps (b : B) (n : Nat) :
    (setWpos b n).ref = b.ref ∧ (setWpos b n).mem.length = b.mem.length := by
  unfold setWpos; split <;> exact ⟨rfl, rfl⟩

theorem peekData_keeps {b b' : B} {pos len n : Nat} {d : List UInt8}
    (h : peekData b pos len = .ok (b', d, n)) : b'.ref = b.ref ∧ b'.mem.length = b.mem.length := by
  unfold peekData at h
  split at h
  · cases h; exact ⟨rfl, rfl⟩
  · split at h
    · cases h; exact ⟨rfl, rfl⟩
    · cases h

theorem get_keeps {w : Width} {b b' : B} {v : Nat} (h : Verif.Buf.get w b = .ok (b', v)) :
    b'.ref = b.ref ∧ b'.mem.length = b.mem.length := by
  obtain ⟨⟨b1, v, n⟩, h1, h⟩ := Res.bind_eq_ok.1 h
  cases h
  have := peekPos_keeps h1
  exact this

theorem print_keeps (pos n : Nat) (text : Option (List UInt8)) : Keeps (print pos n text) := by
  intro b b' r h
  obtain ⟨⟨m, rc⟩, h1, h⟩ := Res.bind_eq_ok.1 h
  cases h
  refine ⟨rfl, ?_⟩
  show m.length = _
  unfold vsnprintf at h1
  split at h1
  · cases h1; rfl
  · split at h1
    · cases h1; rfl
    · dsimp only at h1
      split at h1
      · next hc => cases h1; exact length_splice hc
      · cases h1

theorem fmtEnd_keeps (pos wr : Nat) : Keeps (fmtEnd pos wr) := by
  intro b b' r h
  obtain ⟨b1, h1, h⟩ := Res.bind_eq_ok.1 h
  cases h
  obtain ⟨⟨b2, n⟩, h2, h1⟩ := Res.bind_eq_ok.1 h1
  cases h1
  have := setPos_keeps h2
  exact this

theorem textEnd_keeps (rc off : Nat) :
    Keeps (fun b => do let b ← textEnd b rc off; .ok (b, ())) := by
  intro b b' r h
  obtain ⟨b1, h1, h⟩ := Res.bind_eq_ok.1 h
  cases h
  unfold textEnd at h1
  split at h1
  · cases h1
  · cases h1; exact ⟨rfl, rfl⟩

theorem shrink_ok (al : Alloc UInt8) (len : Nat) :
    Sim (fun b => do let (ok, b) ← Verif.Buf.shrink al b len; .ok (b, ok)) (shrink al len) := by
  intro o st b b' r hw hr h
  obtain ⟨⟨ok, b1⟩, h1, h⟩ := Res.bind_eq_ok.1 h
  cases h
  obtain ⟨b2, hc, h1⟩ := Res.bind_eq_ok.1 h1
  have hk : Keeps (fun b => do let b ← compact b; .ok (b, ())) := by
    intro b b' r h
    obtain ⟨b1, h1, h⟩ := Res.bind_eq_ok.1 h
    cases h
    exact compact_keeps h1
  obtain ⟨o1, st1, e1, m1, r1⟩ := Sim.keep hk o st b b2 () hw hr (by simp only [hc, Res.ok_bind])
  unfold shrink
  simp only [e1, Res.ok_bind]
  have hr1 := r1
  obtain ⟨m, hb, hv, hi⟩ := r1
  subst hv
  dsimp only at h1
  have hrefl := Moves.refl m1.wf (load_valid hb)
  by_cases h0 : len > o1.cap ∨ o1.wpos ≥ len
  · rw [if_pos h0] at h1 ⊢
    cases h1
    exact ⟨o1, st1, rfl, m1, m, hb, rfl, hi⟩
  · rw [if_neg h0] at h1 ⊢
    generalize hsz : mul64 (add64 len 4095 / 4096) 4096 = size at h1 ⊢
    obtain ⟨x, hx, h1⟩ := Res.bind_eq_ok.1 h1
    obtain ⟨p, st', e, hc⟩ := realloc_ok m1.wf hr1 hx
    rcases hc with ⟨rfl, rfl, rfl⟩ | ⟨m', i, rfl, rfl, hm, hl, href⟩
    · cases h1
      exact ⟨{ o1 with err := o1.err ||| OOM }, st', by simp only [e, Res.ok_bind], m1.trans hrefl, m,
        hb, rfl, hi⟩
    · cases h1
      refine ⟨{ o1 with cap := size, mem := some i }, st', by simp only [e, Res.ok_bind],
        m1.trans hm, m', hl, ?_, fun h => by rw [href] at h; cases h⟩
      simp [href]

/-- A reservation, and what follows when it succeeds. -/
theorem Sim.after_reserve {al : Alloc UInt8} {len : Nat} {f : B → Res (B × ρ)} {F : M ρ}
    {g : B → Res (B × ρ)} {G : M ρ} (hf : Sim f F) (hg : Sim g G) :
    Sim (fun b => do
        let (ok, b) ← Verif.Buf.reserve al b len
        if !ok then g b else f b)
      (fun o st => do
        let ((o, ok), st) ← reserve al len o st
        if !ok then G o st else F o st) := by
  refine Sim.congr (Sim.bind (reserve_ok al len) (g := fun ok b => if !ok then g b else f b)
    (G := fun ok o st => if !ok then G o st else F o st) fun ok => ?_) fun b => ?_
  · cases ok
    · exact hg
    · exact hf
  · simp only [bind_assoc, Res.ok_bind]

theorem put_ok (al : Alloc UInt8) (w : Width) (val : Nat) :
    Sim (fun b => do let b ← Verif.Buf.put al w b val; .ok (b, ())) (put al w val) := by
  refine Sim.congr (Sim.after_reserve (Sim.keep (f := putRest w val) ?_) (Sim.pure ())) fun b => ?_
  · intro b b' r h
    obtain ⟨⟨b1, n⟩, h1, h⟩ := Res.bind_eq_ok.1 h
    cases h
    have := setPos_keeps h1
    exact this
  · simp only [Verif.Buf.put, putRest, bind_assoc]
    congr 1
    funext x
    split
    · rfl
    · simp only [bind_assoc, Res.ok_bind]

theorem putRaw_ok (al : Alloc UInt8) (src : List UInt8) (len : Nat) :
    Sim (fun b => do let b ← Verif.Buf.putRaw al b src len; .ok (b, ())) (putRaw al src len) := by
  refine Sim.congr (Sim.after_reserve (Sim.keep (f := putRawRest src len) ?_) (Sim.pure ()))
    fun b => ?_
  · intro b b' r h
    obtain ⟨⟨b1, n⟩, h1, h⟩ := Res.bind_eq_ok.1 h
    cases h
    have := setData_keeps h1
    exact this
  · simp only [Verif.Buf.putRaw, putRawRest, bind_assoc]
    congr 1
    funext x
    split
    · rfl
    · simp only [bind_assoc, Res.ok_bind]

/-- One call after the other. -/
theorem Sim.seq {f g : B → Res B} {F G : M Unit}
    (hf : Sim (fun b => do let b ← f b; .ok (b, ())) F)
    (hg : Sim (fun b => do let b ← g b; .ok (b, ())) G) :
    Sim (fun b => do let b ← (do let b ← f b; g b); .ok (b, ()))
      (fun o st => do let ((o, _), st) ← F o st; G o st) := by
  refine Sim.congr (Sim.bind hf (g := fun _ b => do let b ← g b; .ok (b, ()))
    (G := fun _ => G) fun _ => hg) fun b => ?_
  simp only [bind_assoc, Res.ok_bind]

theorem putStr_ok (al1 al2 : Alloc UInt8) (str : Option (List UInt8)) :
    Sim (fun b => do let b ← Verif.Buf.putStr al1 al2 b str; .ok (b, ())) (putStr al1 al2 str) := by
  cases str with
  | none => exact put_ok al1 .w64 BUF_MAX
  | some s =>
    unfold putStr Verif.Buf.putStr
    dsimp only
    cases hs : strlen s 0 with
    | ub => intro o st b b' r _ _ h; cases h
    | ok sz =>
      simp only [Res.ok_bind]
      by_cases hz : sz ≥ BUF_MAX
      · simp only [if_pos hz, Res.ok_bind]
        exact Sim.fail CORRUPT ()
      · simp only [if_neg hz]
        exact Sim.seq (put_ok al1 .w64 sz) (putRaw_ok al2 s (sz + 1))

theorem putBlob_ok (al1 al2 : Alloc UInt8) (s : List UInt8) (len : Nat) :
    Sim (fun b => do let b ← Verif.Buf.putBlob al1 al2 b s len; .ok (b, ()))
      (putBlob al1 al2 s len) :=
  Sim.seq (put_ok al1 .w64 len) (putRaw_ok al2 s len)

theorem putStrLen_ok (al1 al2 al3 : Alloc UInt8) (str : Option (List UInt8)) (len : Nat) :
    Sim (fun b => do let b ← Verif.Buf.putStrLen al1 al2 al3 b str len; .ok (b, ()))
      (putStrLen al1 al2 al3 str len) := by
  cases str with
  | none => exact put_ok al1 .w64 BUF_MAX
  | some s =>
    exact Sim.seq (put_ok al1 .w64 len) (Sim.seq (putRaw_ok al2 s len) (put_ok al3 .w8 0))

theorem print_ok (pos n : Nat) (text : Option (List UInt8)) :
    Sim (print pos n text) (keep (print pos n text)) := Sim.keep (print_keeps pos n text)

theorem fmtEnd_ok (pos wr : Nat) : Sim (fmtEnd pos wr) (keep (fmtEnd pos wr)) :=
  Sim.keep (fmtEnd_keeps pos wr)

theorem putFmt_ok (al : Alloc UInt8) (text : Option (List UInt8)) :
    Sim (fun b => do let b ← Verif.Buf.putFmt al b text; .ok (b, ())) (putFmt al text) := by
  intro o st b b' r hw hr h
  obtain ⟨b0, h0, h⟩ := Res.bind_eq_ok.1 h
  cases h
  have hf : b.cap = o.cap ∧ b.wpos = o.wpos := by
    obtain ⟨m, _, hv, _⟩ := hr
    subst hv
    exact ⟨rfl, rfl⟩
  unfold Verif.Buf.putFmt quota at h0
  unfold putFmt
  dsimp only at h0 ⊢
  rw [← hf.1, ← hf.2]
  generalize (if sub64 b.cap b.wpos > 8 then sub64 (sub64 b.cap b.wpos) 8 else 0) = q at h0 ⊢
  obtain ⟨⟨m1, rc⟩, hp, h0⟩ := Res.bind_eq_ok.1 h0
  obtain ⟨o1, st1, e1, mv1, r1⟩ := print_ok (b.wpos + 8) q text o st b { b with mem := m1 } rc hw hr
    (by simp only [print, hp, Res.ok_bind])
  simp only [e1, Res.ok_bind]
  dsimp only at h0
  cases rc with
  | none =>
    cases h0
    obtain ⟨o2, st2, e2, mv2, r2⟩ := Sim.fail CORRUPT () o1 st1 _ _ () mv1.wf r1 rfl
    exact ⟨o2, st2, e2, mv1.trans mv2, r2⟩
  | some wr =>
    dsimp only at h0 ⊢
    by_cases hq : wr ≥ q
    · rw [if_pos hq] at h0 ⊢
      obtain ⟨⟨ok, b2⟩, h2, h0⟩ := Res.bind_eq_ok.1 h0
      obtain ⟨o2, st2, e2, mv2, r2⟩ := reserve_ok al (add64 wr 8) o1 st1 _ b2 ok mv1.wf r1
        (by simp only [h2, Res.ok_bind])
      simp only [e2, Res.ok_bind]
      dsimp only at h0
      cases ok with
      | false =>
        cases h0
        exact ⟨o2, st2, rfl, mv1.trans mv2, r2⟩
      | true =>
        have h0 : (do
          let q := sub64 (quota b2) 8
          let (m, rc) ← vsnprintf b2.mem (b2.wpos + 8) q text
          let c := { b2 with mem := m }
          match rc with
          | none => .ok (c.fail OOM)
          | some wr =>
            if wr ≥ q then .ok (c.fail OOM)
            else do
              let c ← setAt .w64 c b.wpos wr
              .ok (markWrite c (add64 wr 9))) = Res.ok b' := h0
        have hf2 : b2.cap = o2.cap ∧ b2.wpos = o2.wpos := by
          obtain ⟨m, _, hv, _⟩ := r2
          subst hv
          exact ⟨rfl, rfl⟩
        unfold quota at h0
        dsimp only at h0
        simp only [Bool.not_true, Bool.false_eq_true, if_false]
        rw [← hf2.1, ← hf2.2]
        generalize sub64 (sub64 b2.cap b2.wpos) 8 = q2 at h0 ⊢
        obtain ⟨⟨m3, rc3⟩, hp3, h0⟩ := Res.bind_eq_ok.1 h0
        obtain ⟨o3, st3, e3, mv3, r3⟩ := print_ok (b2.wpos + 8) q2 text o2 st2 b2
          { b2 with mem := m3 } rc3 mv2.wf r2 (by simp only [print, hp3, Res.ok_bind])
        simp only [e3, Res.ok_bind]
        have mv := (mv1.trans mv2).trans mv3
        dsimp only at h0
        cases rc3 with
        | none =>
          cases h0
          obtain ⟨o4, st4, e4, mv4, r4⟩ := Sim.fail OOM () o3 st3 _ _ () mv3.wf r3 rfl
          exact ⟨o4, st4, e4, mv.trans mv4, r4⟩
        | some wr3 =>
          dsimp only at h0 ⊢
          by_cases hq3 : wr3 ≥ q2
          · rw [if_pos hq3] at h0 ⊢
            cases h0
            obtain ⟨o4, st4, e4, mv4, r4⟩ := Sim.fail OOM () o3 st3 _ _ () mv3.wf r3 rfl
            exact ⟨o4, st4, e4, mv.trans mv4, r4⟩
          · rw [if_neg hq3] at h0 ⊢
            obtain ⟨b5, h5, h0⟩ := Res.bind_eq_ok.1 h0
            cases h0
            obtain ⟨o4, st4, e4, mv4, r4⟩ := fmtEnd_ok b.wpos wr3 o3 st3 _ _ () mv3.wf r3
              (by simp only [fmtEnd, h5, Res.ok_bind]; rfl)
            exact ⟨o4, st4, e4, mv.trans mv4, r4⟩
    · rw [if_neg hq] at h0 ⊢
      obtain ⟨b5, h5, h0⟩ := Res.bind_eq_ok.1 h0
      cases h0
      obtain ⟨o4, st4, e4, mv4, r4⟩ := fmtEnd_ok b.wpos wr o1 st1 _ _ () mv1.wf r1
        (by simp only [fmtEnd, h5, Res.ok_bind]; rfl)
      exact ⟨o4, st4, e4, mv1.trans mv4, r4⟩

theorem setWpos_ok (g : B → B) (hg : ∀ b, (g b).ref = b.ref ∧ (g b).mem.length = b.mem.length) :
    Sim (fun b => .ok (setWpos (g b) 0, ())) (keep fun b => .ok (setWpos (g b) 0, ())) := by
  refine Sim.keep ?_
  intro b b' r h
  cases h
  obtain ⟨h1, h2⟩ := setWpos_keeps (g b) 0
  obtain ⟨h3, h4⟩ := hg b
  exact ⟨h1.trans h3, h2.trans h4⟩

theorem putText_ok (al : Alloc UInt8) (text : Option (List UInt8)) :
    Sim (fun b => do let b ← Verif.Buf.putText al b text; .ok (b, ())) (putText al text) := by
  intro o st b b' r hw hr h
  obtain ⟨b0, h0, h⟩ := Res.bind_eq_ok.1 h
  cases h
  have hf : b.cap = o.cap ∧ b.wpos = o.wpos ∧ b.rpos = o.rpos := by
    obtain ⟨m, _, hv, _⟩ := hr
    subst hv
    exact ⟨rfl, rfl, rfl⟩
  unfold Verif.Buf.putText quota size at h0
  unfold putText
  dsimp only at h0 ⊢
  rw [← hf.1, ← hf.2.1, ← hf.2.2]
  generalize (if sub64 b.wpos b.rpos > 0 then 1 else 0) = off at h0 ⊢
  generalize sub64 b.cap b.wpos = q at h0 ⊢
  obtain ⟨⟨m1, rc⟩, hp, h0⟩ := Res.bind_eq_ok.1 h0
  obtain ⟨o1, st1, e1, mv1, r1⟩ := print_ok (b.wpos - off) q text o st b { b with mem := m1 } rc hw
    hr (by simp only [print, hp, Res.ok_bind])
  simp only [e1, Res.ok_bind]
  dsimp only at h0
  cases rc with
  | none =>
    cases h0
    obtain ⟨o2, st2, e2, mv2, r2⟩ := setWpos_ok (fun b => b.fail CORRUPT) (fun _ => ⟨rfl, rfl⟩)
      o1 st1 _ _ () mv1.wf r1 rfl
    exact ⟨o2, st2, e2, mv1.trans mv2, r2⟩
  | some wr =>
    dsimp only at h0 ⊢
    by_cases hq : wr ≥ q
    · rw [if_pos hq] at h0 ⊢
      obtain ⟨⟨ok, b2⟩, h2, h0⟩ := Res.bind_eq_ok.1 h0
      obtain ⟨o2, st2, e2, mv2, r2⟩ := reserve_ok al (add64 wr 1) o1 st1 _ b2 ok mv1.wf r1
        (by simp only [h2, Res.ok_bind])
      simp only [e2, Res.ok_bind]
      have mv := mv1.trans mv2
      dsimp only at h0
      cases ok with
      | false =>
        cases h0
        obtain ⟨o4, st4, e4, mv4, r4⟩ := setWpos_ok (fun b => b) (fun _ => ⟨rfl, rfl⟩)
          o2 st2 _ _ () mv2.wf r2 rfl
        exact ⟨o4, st4, e4, mv.trans mv4, r4⟩
      | true =>
        have h0 : (do
          let q := quota b2
          let (m, rc) ← vsnprintf b2.mem (b2.wpos - off) q text
          let b := { b2 with mem := m }
          match rc with
          | none => .ok (setWpos { b with err := OOM } 0)
          | some rc =>
            if rc ≥ q then .ok (setWpos { b with err := OOM } 0)
            else textEnd b rc off) = Res.ok b' := h0
        have hf2 : b2.cap = o2.cap ∧ b2.wpos = o2.wpos := by
          obtain ⟨m, _, hv, _⟩ := r2
          subst hv
          exact ⟨rfl, rfl⟩
        unfold quota at h0
        dsimp only at h0
        simp only [Bool.not_true, Bool.false_eq_true, if_false]
        rw [← hf2.1, ← hf2.2]
        generalize sub64 b2.cap b2.wpos = q2 at h0 ⊢
        obtain ⟨⟨m3, rc3⟩, hp3, h0⟩ := Res.bind_eq_ok.1 h0
        obtain ⟨o3, st3, e3, mv3, r3⟩ := print_ok (b2.wpos - off) q2 text o2 st2 b2
          { b2 with mem := m3 } rc3 mv2.wf r2 (by simp only [print, hp3, Res.ok_bind])
        simp only [e3, Res.ok_bind]
        have mv := mv.trans mv3
        dsimp only at h0
        cases rc3 with
        | none =>
          cases h0
          obtain ⟨o4, st4, e4, mv4, r4⟩ := setWpos_ok (fun b => { b with err := OOM })
            (fun _ => ⟨rfl, rfl⟩) o3 st3 _ _ () mv3.wf r3 rfl
          exact ⟨o4, st4, e4, mv.trans mv4, r4⟩
        | some wr3 =>
          dsimp only at h0 ⊢
          by_cases hq3 : wr3 ≥ q2
          · rw [if_pos hq3] at h0 ⊢
            cases h0
            obtain ⟨o4, st4, e4, mv4, r4⟩ := setWpos_ok (fun b => { b with err := OOM })
              (fun _ => ⟨rfl, rfl⟩) o3 st3 _ _ () mv3.wf r3 rfl
            exact ⟨o4, st4, e4, mv.trans mv4, r4⟩
          · rw [if_neg hq3] at h0 ⊢
            obtain ⟨o4, st4, e4, mv4, r4⟩ := Sim.keep (textEnd_keeps wr3 off) o3 st3 _ _ () mv3.wf r3
              (by simp only [h0, Res.ok_bind]; rfl)
            exact ⟨o4, st4, e4, mv.trans mv4, r4⟩
    · rw [if_neg hq] at h0 ⊢
      obtain ⟨o4, st4, e4, mv4, r4⟩ := Sim.keep (textEnd_keeps wr off) o1 st1 _ _ () mv1.wf r1
        (by simp only [h0, Res.ok_bind]; rfl)
      exact ⟨o4, st4, e4, mv1.trans mv4, r4⟩

/-- The calls that leave the memory alone. -/
theorem step_keeps {op : Op}
    (h1 : ∀ a n, op ≠ .reserve a n) (h2 : ∀ a n, op ≠ .shrink a n) (h3 : ∀ a w v, op ≠ .put a w v)
    (h4 : ∀ a s l, op ≠ .putRaw a s l) (h5 : ∀ a c s, op ≠ .putStr a c s)
    (h6 : ∀ a c d s l, op ≠ .putStrLen a c d s l) (h7 : ∀ a c s l, op ≠ .putBlob a c s l)
    (h8 : ∀ a t, op ≠ .putFmt a t) (h9 : ∀ a t, op ≠ .putText a t) :
    Keeps (fun b => do let b ← Verif.Buf.step b op; .ok (b, ())) := by
  intro b b' r h0
  obtain ⟨b1, h, hh⟩ := Res.bind_eq_ok.1 h0
  cases hh
  clear h0
  cases op with
  | reserve a n => exact absurd rfl (h1 a n)
  | shrink a n => exact absurd rfl (h2 a n)
  | put a w v => exact absurd rfl (h3 a w v)
  | putRaw a s l => exact absurd rfl (h4 a s l)
  | putStr a c s => exact absurd rfl (h5 a c s)
  | putStrLen a c d s l => exact absurd rfl (h6 a c d s l)
  | putBlob a c s l => exact absurd rfl (h7 a c s l)
  | putFmt a t => exact absurd rfl (h8 a t)
  | putText a t => exact absurd rfl (h9 a t)
  | limit n => cases h; exact ⟨rfl, rfl⟩
  | compact => exact compact_keeps h
  | clear => cases h; exact ⟨rfl, rfl⟩
  | markRead n => cases h; exact ⟨rfl, rfl⟩
  | markWrite n => cases h; exact ⟨rfl, rfl⟩
  | setRpos n => cases h; exact setRpos_keeps b n
  | setWpos n => cases h; exact setWpos_keeps b n
  | peekAt w pos =>
    obtain ⟨⟨b1, v⟩, h', h⟩ := Res.bind_eq_ok.1 h
    cases h
    obtain ⟨⟨b2, v, n⟩, h'', h'⟩ := Res.bind_eq_ok.1 h'
    cases h'
    exact peekPos_keeps h''
  | peekData pos len =>
    obtain ⟨⟨b1, d, n⟩, h', h⟩ := Res.bind_eq_ok.1 h
    cases h
    exact peekData_keeps h'
  | setAt w pos v =>
    obtain ⟨⟨b1, n⟩, h', h⟩ := Res.bind_eq_ok.1 h
    cases h
    exact setPos_keeps h'
  | setData off src len =>
    obtain ⟨⟨b1, n⟩, h', h⟩ := Res.bind_eq_ok.1 h
    cases h
    exact setData_keeps h'
  | get w =>
    obtain ⟨⟨b1, n⟩, h', h⟩ := Res.bind_eq_ok.1 h
    cases h
    exact get_keeps h'
  | getStr =>
    obtain ⟨⟨b1, n⟩, h', h⟩ := Res.bind_eq_ok.1 h
    cases h
    obtain ⟨⟨b2, n2⟩, h'', h'⟩ := Res.bind_eq_ok.1 h'
    have hk := get_keeps h''
    dsimp only at h'
    split at h'
    · cases h'; exact hk
    · split at h'
      · cases h'; exact hk
      · split at h'
        · cases h'; exact hk
        · cases h'; exact hk
  | getBlob n =>
    cases h
    unfold getBlob
    split
    · exact ⟨rfl, rfl⟩
    · split <;> exact ⟨rfl, rfl⟩
  | getData n =>
    obtain ⟨⟨b1, d⟩, h', h⟩ := Res.bind_eq_ok.1 h
    cases h
    unfold getData at h'
    split at h'
    · cases h'; exact ⟨rfl, rfl⟩
    · obtain ⟨⟨b2, d2, n2⟩, h'', h'⟩ := Res.bind_eq_ok.1 h'
      cases h'
      have := peekData_keeps h''
      exact this

theorem step_ok (op : Op) :
    Sim (fun b => do let b ← Verif.Buf.step b op; .ok (b, ())) (fun o st => step o op st) := by
  cases op with
  | reserve a n =>
    refine Sim.congr (Sim.bind (reserve_ok a n) (g := fun _ b => .ok (b, ()))
      (G := fun _ o st => .ok ((o, ()), st)) fun _ => Sim.pure ()) fun b => ?_
    simp only [Verif.Buf.step, bind_assoc, Res.ok_bind]
  | shrink a n =>
    refine Sim.congr (Sim.bind (shrink_ok a n) (g := fun _ b => .ok (b, ()))
      (G := fun _ o st => .ok ((o, ()), st)) fun _ => Sim.pure ()) fun b => ?_
    simp only [Verif.Buf.step, bind_assoc, Res.ok_bind]
  | put a w v => exact put_ok a w v
  | putRaw a s l => exact putRaw_ok a s l
  | putStr a c s => exact putStr_ok a c s
  | putStrLen a c d s l => exact putStrLen_ok a c d s l
  | putBlob a c s l => exact putBlob_ok a c s l
  | putFmt a t => exact putFmt_ok a t
  | putText a t => exact putText_ok a t
  | _ => exact Sim.keep (step_keeps (by simp) (by simp) (by simp) (by simp) (by simp) (by simp)
      (by simp) (by simp) (by simp))

theorem make_ok (a : Arg) {st : Store (List UInt8)} (hw : st.WF) :
    Moves st (make a st).2 none (make a st).1.mem ∧ Rep (make a st).1 (make a st).2 (made a) := by
  have hrefl : Moves st st none none := .refl hw (fun _ hi => (by cases hi))
  cases a with
  | init ok cap =>
    unfold make made Verif.Buf.init
    dsimp only
    by_cases h0 : cap > 0
    · simp only [if_pos h0]
      by_cases h1 : (ok && decide (cap < OBJ_MAX)) = true
      · simp only [if_pos h1]
        obtain ⟨hm, hl⟩ := alloc_ok [] (List.replicate cap (0 : UInt8)) hw
        exact ⟨hm, _, hl, rfl, fun h => (by cases h)⟩
      · simp only [if_neg h1]
        exact ⟨hrefl, [], rfl, rfl, fun h => (by cases h)⟩
    · simp only [if_neg h0]
      exact ⟨hrefl, [], rfl, rfl, fun h => (by cases h)⟩
  | wrap data len isData =>
    obtain ⟨hm, hl⟩ := alloc_ok [] data hw
    exact ⟨hm, _, hl, rfl, fun h => (by cases h)⟩
  | lend data len isData =>
    exact ⟨hrefl, [], rfl, rfl, fun _ => rfl⟩

theorem term_ok {o : Obj} {st : Store (List UInt8)} {b : B} (hw : st.WF) (hr : Rep o st b) :
    ∃ o' st', term o st = .ok (o', st') ∧ o'.mem = none ∧ Moves st st' o.mem none := by
  obtain ⟨m, hb, hv, hi⟩ := hr
  by_cases href : o.ref = true
  · refine ⟨⟨none, [], 0, BUF_MAX, 0, 0, 0, false⟩, st, by simp [term, href], rfl, ?_⟩
    rw [hi href]
    exact .refl hw (fun _ hi => (by cases hi))
  · obtain ⟨st', hf, hm⟩ := free_ok hw hb
    exact ⟨⟨none, [], 0, BUF_MAX, 0, 0, 0, false⟩, st', by simp [term, href, hf], rfl, hm⟩

/-- Buffers take memory for themselves only, give back all they no longer use, and never give
back the memory of their caller. -/
theorem kind_sound : kind.Sound where
  init a st r hw h := by
    cases h
    obtain ⟨hm, hr⟩ := make_ok a hw
    exact ⟨some _, _, rfl, hm, hr⟩
  step o op st v v' out hw hr h := step_ok op o st v v' out hw hr h
  term o st v hw hr := term_ok hw hr

end Verif.Memory.Buf
