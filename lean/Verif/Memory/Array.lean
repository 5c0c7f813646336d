import Verif.Array.Model
import Verif.Memory.Store

/-! # The memory of arrays: `array/sc_array.h` with pointers -/

namespace Verif.Memory.Array
open Verif.Array

/-- `struct sc_array_##name`, array/sc_array.h:55-62, with the pointer `elems`. -/
structure Obj where
  oom : Bool
  cap : Nat
  size : Nat
  elems : Option Nat

/-- The array of the model without memory: with the cells `elems` points to. -/
abbrev Obj.view (o : Obj) (b : List α) : Arr α := ⟨o.oom, o.cap, o.size, b⟩

/-- `sc_array_init`, array/sc_array.h:67-70. -/
def init : Obj := ⟨false, 0, 0, none⟩

/-- `sc_array_term`, array/sc_array.h:76-80. -/
def term (o : Obj) (st : Store (List α)) : Res (Obj × Store (List α)) := do
  let st ← free o.elems st
  .ok (init, st)

/-- A function that neither allocates nor frees: it reads and writes the cells `elems` points
to and leaves the pointer alone. -/
def keep (f : Arr α → Res (Arr α)) (o : Obj) (st : Store (List α)) :
    Res (Obj × Store (List α)) := do
  let b ← load [] o.elems st
  let a ← f (o.view b)
  let st ← store a.elems o.elems st
  .ok (⟨a.oom, a.cap, a.size, o.elems⟩, st)

/-- The end of `sc_array_add`, array/sc_array.h:110-111. -/
def push (k : α) (o : Obj) (st : Store (List α)) : Res (Obj × Store (List α)) := do
  let b ← load [] o.elems st
  let b ← wr b o.size k
  let st ← store b o.elems st
  .ok ({ o with oom := false, size := o.size + 1 }, st)

/-- `sc_array_add`, array/sc_array.h:89-112. -/
def add (sz : Nat) (al : Alloc α) (o : Obj) (k : α) (st : Store (List α)) :
    Res (Obj × Store (List α)) :=
  let max := SIZE_MAX / sz
  if o.cap = o.size then
    if o.cap > max / 2 then .ok ({ o with oom := true }, st)
    else do
      let cap := if o.cap = 0 then 8 else mul64 o.cap 2
      let (p, st) ← realloc []
        (al.map fun fill old => resized old (room (mul64 cap sz) sz) fill) o.elems st
      match p with
      | none => .ok ({ o with oom := true }, st)
      | some i => push k { o with cap := cap, elems := some i } st
  else push k o st

/-- The API calls, array/sc_array.h:89-187. -/
def step (sz : Nat) (o : Obj) (op : Op α) (st : Store (List α)) :
    Res ((Obj × Unit) × Store (List α)) := do
  let (o, st) ← (match op with
    | .add k al => add sz al o k st
    | op => keep (fun a => Verif.Array.step sz a op) o st)
  .ok ((o, ()), st)

/-- Arrays of elements of `sz` bytes. -/
def kind (sz : Nat) (α : Type) : Kind where
  Obj := Obj
  Blk := List α
  View := Arr α
  Arg := Unit
  Op := Op α
  Out := Unit
  null := []
  ptr o := o.elems
  view := Obj.view
  inv _ _ := True
  initP _ st := .ok (some init, st)
  init _ := .ok (some Verif.Array.init)
  stepP := step sz
  step a op := do let a ← Verif.Array.step sz a op; .ok (a, ())
  termP := term

theorem keep_ok {f : Arr α → Res (Arr α)}
    (hf : ∀ a a', f a = .ok a' → a'.elems.length = a.elems.length) {o : Obj}
    {st : Store (List α)} {b : List α} {a' : Arr α} (hw : st.WF)
    (hb : load [] o.elems st = .ok b) (h : f (o.view b) = .ok a') :
    ∃ o' st', keep f o st = .ok (o', st') ∧ Moves st st' o.elems o'.elems ∧
      load [] o'.elems st' = .ok a'.elems ∧ o'.view a'.elems = a' := by
  obtain ⟨st', hs, hm, hl⟩ := store_ok hw hb (hf _ _ h)
  exact ⟨⟨a'.oom, a'.cap, a'.size, o.elems⟩, st', by simp [keep, hb, h, hs], hm, hl, rfl⟩

theorem push_ok {k : α} {o : Obj} {st : Store (List α)} {b b' : List α} (hw : st.WF)
    (hb : load [] o.elems st = .ok b) (h : wr b o.size k = .ok b') :
    ∃ st', push k o st = .ok ({ o with oom := false, size := o.size + 1 }, st') ∧
      Moves st st' o.elems o.elems ∧ load [] o.elems st' = .ok b' := by
  have hl : b'.length = b.length := by
    rw [(wr_eq_ok.1 h).2]; simp
  obtain ⟨st', hs, hm, hl⟩ := store_ok hw hb hl
  exact ⟨st', by simp [push, hb, h, hs], hm, hl⟩

theorem add_ok {sz : Nat} {al : Alloc α} {o : Obj} {k : α} {st : Store (List α)} {b : List α}
    {a' : Arr α} (hw : st.WF) (hb : load [] o.elems st = .ok b)
    (h : Verif.Array.add sz al (o.view b) k = .ok a') :
    ∃ o' st', add sz al o k st = .ok (o', st') ∧ Moves st st' o.elems o'.elems ∧
      load [] o'.elems st' = .ok a'.elems ∧ o'.view a'.elems = a' := by
  unfold Verif.Array.add at h
  unfold add
  dsimp only [Obj.view] at h ⊢
  by_cases hc : o.cap = o.size
  · rw [if_pos hc] at h ⊢
    by_cases hm : o.cap > SIZE_MAX / sz / 2
    · rw [if_pos hm] at h ⊢
      cases h
      exact ⟨_, st, rfl, .refl hw (load_valid hb), hb, rfl⟩
    · rw [if_neg hm] at h ⊢
      cases al with
      | none =>
        cases h
        rw [Option.map_none, realloc_none hb]
        exact ⟨_, st, rfl, .refl hw (load_valid hb), hb, rfl⟩
      | some fill =>
        obtain ⟨b', hb', h⟩ := Res.bind_eq_ok.1 h
        cases h
        rw [Option.map_some]
        obtain ⟨i, st1, hr, hm1, hl1⟩ := realloc_some
          (fun old => resized old (room (mul64 (if o.cap = 0 then 8 else mul64 o.cap 2) sz) sz) fill)
          hw hb
        obtain ⟨st2, hp, hm2, hl2⟩ := push_ok
          (o := { o with cap := if o.cap = 0 then 8 else mul64 o.cap 2, elems := some i })
          hm1.wf hl1 hb'
        rw [hr]
        exact ⟨_, st2, hp, hm1.trans hm2, hl2, rfl⟩
  · rw [if_neg hc] at h ⊢
    obtain ⟨b', hb', h⟩ := Res.bind_eq_ok.1 h
    cases h
    obtain ⟨st2, hp, hm2, hl2⟩ := push_ok (o := o) hw hb hb'
    exact ⟨_, st2, hp, hm2, hl2, rfl⟩

theorem memmove_length {m m' : List α} {d s n : Nat} (h : memmove m d s n = .ok m') :
    m'.length = m.length := by
  simp only [memmove] at h
  split at h
  · cases h; simp only [List.length_append, List.length_take, List.length_drop]; omega
  · cases h

theorem step_length {sz : Nat} {op : Op α} (hop : ∀ k al, op ≠ .add k al) (a a' : Arr α)
    (h : Verif.Array.step sz a op = .ok a') : a'.elems.length = a.elems.length := by
  cases op with
  | add k al => exact absurd rfl (hop k al)
  | del i =>
    simp only [Verif.Array.step, del] at h
    obtain ⟨_, _, h⟩ := Res.bind_eq_ok.1 h
    split at h
    · obtain ⟨e, he, h⟩ := Res.bind_eq_ok.1 h
      cases h
      exact memmove_length he
    · cases h
      rfl
  | delUnordered i =>
    simp only [Verif.Array.step, delUnordered] at h
    obtain ⟨_, _, h⟩ := Res.bind_eq_ok.1 h
    obtain ⟨x, _, h⟩ := Res.bind_eq_ok.1 h
    obtain ⟨e, he, h⟩ := Res.bind_eq_ok.1 h
    cases h
    rw [(wr_eq_ok.1 he).2]
    simp
  | delLast =>
    simp only [Verif.Array.step, delLast] at h
    obtain ⟨_, _, h⟩ := Res.bind_eq_ok.1 h
    cases h
    rfl
  | clear => cases h; rfl

/-- Arrays take memory for themselves only, and give back all they no longer use. -/
theorem kind_sound (sz : Nat) (α : Type) : (kind sz α).Sound where
  init a st r hw h := by
    cases h
    exact ⟨some init, st, rfl, .refl hw (fun _ hi => (by cases hi)), [], rfl, rfl, trivial⟩
  step o op st v v' out hw hr h := by
    obtain ⟨b, hb, hv, -⟩ := hr
    obtain ⟨a', ha, h⟩ := Res.bind_eq_ok.1 h
    cases h
    cases hv
    by_cases hop : ∃ k al, op = .add k al
    · obtain ⟨k, al, rfl⟩ := hop
      obtain ⟨o', st', h1, h2, h3, h4⟩ := add_ok hw hb ha
      exact ⟨o', st', by simp only [kind, step, h1, Res.ok_bind], h2, _, h3, h4, trivial⟩
    · obtain ⟨o', st', h1, h2, h3, h4⟩ :=
        keep_ok (step_length (fun k al e => hop ⟨k, al, e⟩)) hw hb ha
      refine ⟨o', st', ?_, h2, _, h3, h4, trivial⟩
      cases op with
      | add k al => exact absurd ⟨k, al, rfl⟩ hop
      | _ => simp only [kind, step, h1, Res.ok_bind]
  term o st v hw hr := by
    obtain ⟨b, hb, hv, -⟩ := hr
    obtain ⟨st', hf, hm⟩ := free_ok hw hb
    exact ⟨init, st', (by show term o st = _; unfold term; erw [hf]; rfl), rfl, hm⟩

end Verif.Memory.Array
