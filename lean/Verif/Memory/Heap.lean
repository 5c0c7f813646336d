import Verif.Heap.Model
import Verif.Memory.Store

/-! # The memory of heaps: `heap/sc_heap.c` with pointers -/

namespace Verif.Memory.Heap
open Verif.Heap

/-- `struct sc_heap`, heap/sc_heap.h:53-57, with the pointer `elems`. -/
structure Obj where
  cap : Nat
  size : Nat
  elems : Option Nat

/-- The heap of the model without memory: with the cells `elems` points to. -/
abbrev Obj.view (o : Obj) (b : List (Data δ)) : Heap δ := ⟨o.cap, o.size, b⟩

/-- `sc_heap_init`, heap/sc_heap.c:40-59: the object is set up in any case; the second result
is the return value. -/
def init (cap : Nat) (al : Alloc (Data δ)) (st : Store (List (Data δ))) :
    (Obj × Bool) × Store (List (Data δ)) :=
  let sz := mul64 cap esz
  if cap = 0 then ((⟨0, 0, none⟩, true), st)
  else if cap > heapMax then ((⟨0, 0, none⟩, false), st)
  else match al with
    | none => ((⟨0, 0, none⟩, false), st)
    | some fill =>
      let (i, st) := alloc (resized [] (sz / esz) fill) st
      ((⟨cap, 0, some i⟩, true), st)

/-- `sc_heap_term`, heap/sc_heap.c:61-68. -/
def term (o : Obj) (st : Store (List (Data δ))) : Res (Obj × Store (List (Data δ))) := do
  let st ← free o.elems st
  .ok (⟨0, 0, none⟩, st)

/-- A function that neither allocates nor frees: it reads and writes the cells `elems` points
to and leaves the pointer alone. -/
def keep (f : Heap δ → Res (Heap δ × ρ)) (o : Obj) (st : Store (List (Data δ))) :
    Res ((Obj × ρ) × Store (List (Data δ))) := do
  let b ← load [] o.elems st
  let (h, r) ← f (o.view b)
  let st ← store h.elems o.elems st
  .ok ((⟨h.cap, h.size, o.elems⟩, r), st)

/-- The end of `sc_heap_add`, heap/sc_heap.c:98-107. -/
def place (key : Int) (data : δ) (h : Heap δ) : Res (Heap δ × Bool) := do
  let (m, i) ← siftUp key (h.size + 1) h.elems h.size
  let m ← wr m i { key := key, data := data }
  return ({ h with elems := m }, true)

/-- `sc_heap_add`, heap/sc_heap.c:80-108. -/
def add (al : Alloc (Data δ)) (o : Obj) (key : Int) (data : δ) (st : Store (List (Data δ))) :
    Res ((Obj × Bool) × Store (List (Data δ))) :=
  let size := add64 o.size 1
  if size ≥ o.cap then
    let cap := if o.cap ≠ 0 then mul64 o.cap 2 else 4
    let m := mul64 (mul64 cap 2) esz
    if o.cap ≥ heapMax / 2 then .ok (({ o with size := size }, false), st)
    else do
      let (p, st) ← realloc [] (al.map fun fill old => resized old (m / esz) fill) o.elems st
      match p with
      | none => .ok (({ o with size := size }, false), st)
      | some i => keep (place key data) ⟨cap, size, some i⟩ st
  else keep (place key data) { o with size := size } st

/-- The API calls, heap/sc_heap.c:75-152. -/
def step (o : Obj) (op : Op δ) (st : Store (List (Data δ))) :
    Res ((Obj × Out δ) × Store (List (Data δ))) :=
  match op with
  | .add k d al => do let ((o, b), st) ← add al o k d st; .ok ((o, .added b), st)
  | op => keep (fun h => Verif.Heap.step h op) o st

/-- Heaps. -/
def kind (δ : Type) : Kind where
  Obj := Obj
  Blk := List (Data δ)
  View := Heap δ
  Arg := Nat × Alloc (Data δ)
  Op := Op δ
  Out := Out δ
  null := []
  ptr o := o.elems
  view := Obj.view
  inv _ _ := True
  initP a st := .ok (some (init a.1 a.2 st).1.1, (init a.1 a.2 st).2)
  init a := .ok (some (Verif.Heap.init a.1 a.2).1)
  stepP := step
  step := Verif.Heap.step
  termP := term

theorem keep_ok {f : Heap δ → Res (Heap δ × ρ)}
    (hf : ∀ h h' r, f h = .ok (h', r) → h'.elems.length = h.elems.length) {o : Obj}
    {st : Store (List (Data δ))} {b : List (Data δ)} {h' : Heap δ} {r : ρ} (hw : st.WF)
    (hb : load [] o.elems st = .ok b) (h : f (o.view b) = .ok (h', r)) :
    ∃ o' st', keep f o st = .ok ((o', r), st') ∧ Moves st st' o.elems o'.elems ∧
      load [] o'.elems st' = .ok h'.elems ∧ o'.view h'.elems = h' := by
  obtain ⟨st', hs, hm, hl⟩ := store_ok hw hb (hf _ _ _ h)
  exact ⟨⟨h'.cap, h'.size, o.elems⟩, st', by simp [keep, hb, h, hs], hm, hl, rfl⟩

theorem wr_length {m m' : List α} {i : Nat} {x : α} (h : wr m i x = .ok m') :
    m'.length = m.length := by
  rw [(wr_eq_ok.1 h).2]; simp

theorem siftUp_length {key : Int} : ∀ {fuel : Nat} {m m' : List (Data δ)} {i j : Nat},
    siftUp key fuel m i = .ok (m', j) → m'.length = m.length := by
  intro fuel
  induction fuel with
  | zero => intro m m' i j h; cases h
  | succ n ih =>
    intro m m' i j h
    simp only [siftUp] at h
    split at h
    · obtain ⟨p, _, h⟩ := Res.bind_eq_ok.1 h
      split at h
      · obtain ⟨m1, h1, h⟩ := Res.bind_eq_ok.1 h
        rw [ih h, wr_length h1]
      · cases h; rfl
    · cases h; rfl

theorem siftDown_length {n : Nat} {lk : Int} :
    ∀ {fuel : Nat} {m m' : List (Data δ)} {i c j : Nat},
    siftDown n lk fuel m i c = .ok (m', j) → m'.length = m.length := by
  intro fuel
  induction fuel with
  | zero => intro m m' i c j h; cases h
  | succ k ih =>
    intro m m' i c j h
    simp only [siftDown] at h
    split at h
    · obtain ⟨c', _, h⟩ := Res.bind_eq_ok.1 h
      obtain ⟨x, _, h⟩ := Res.bind_eq_ok.1 h
      split at h
      · cases h; rfl
      · obtain ⟨m1, h1, h⟩ := Res.bind_eq_ok.1 h
        rw [ih h, wr_length h1]
    · cases h; rfl

theorem place_length {key : Int} {data : δ} (h h' : Heap δ) (r : Bool)
    (he : place key data h = .ok (h', r)) : h'.elems.length = h.elems.length := by
  obtain ⟨⟨m, i⟩, h1, he⟩ := Res.bind_eq_ok.1 he
  obtain ⟨m2, h2, he⟩ := Res.bind_eq_ok.1 he
  cases he
  show m2.length = _
  rw [wr_length h2, siftUp_length h1]

theorem step_length {op : Op δ} (h1 : ∀ k d al, op ≠ .add k d al) (q q' : Heap δ) (r : Out δ)
    (h : Verif.Heap.step q op = .ok (q', r)) : q'.elems.length = q.elems.length := by
  cases op with
  | add k d al => exact absurd rfl (h1 k d al)
  | clear => cases h; rfl
  | peek =>
    obtain ⟨e, _, h⟩ := Res.bind_eq_ok.1 h
    cases h
    rfl
  | pop =>
    obtain ⟨⟨_, _⟩, hd, h⟩ := Res.bind_eq_ok.1 h
    cases h
    simp only [pop] at hd
    split at hd
    · cases hd; rfl
    · obtain ⟨_, _, hd⟩ := Res.bind_eq_ok.1 hd
      obtain ⟨m1, h1, hd⟩ := Res.bind_eq_ok.1 hd
      obtain ⟨_, _, hd⟩ := Res.bind_eq_ok.1 hd
      obtain ⟨⟨m2, _⟩, h2, hd⟩ := Res.bind_eq_ok.1 hd
      obtain ⟨m3, h3, hd⟩ := Res.bind_eq_ok.1 hd
      obtain ⟨_, _, hd⟩ := Res.bind_eq_ok.1 hd
      cases hd
      show m3.length = _
      rw [wr_length h3, siftDown_length h2, wr_length h1]

theorem add_ok {al : Alloc (Data δ)} {o : Obj} {key : Int} {data : δ}
    {st : Store (List (Data δ))} {b : List (Data δ)} {h' : Heap δ} {r : Bool} (hw : st.WF)
    (hb : load [] o.elems st = .ok b) (h : Verif.Heap.add al (o.view b) key data = .ok (h', r)) :
    ∃ o' st', add al o key data st = .ok ((o', r), st') ∧ Moves st st' o.elems o'.elems ∧
      load [] o'.elems st' = .ok h'.elems ∧ o'.view h'.elems = h' := by
  unfold Verif.Heap.add at h
  unfold add
  dsimp only [Obj.view] at h ⊢
  by_cases hc : add64 o.size 1 ≥ o.cap
  · rw [if_pos hc] at h ⊢
    by_cases hm : o.cap ≥ heapMax / 2
    · rw [if_pos hm] at h ⊢
      cases h
      exact ⟨_, st, rfl, .refl hw (load_valid hb), hb, rfl⟩
    · rw [if_neg hm] at h ⊢
      cases al with
      | none =>
        cases h
        rw [Option.map_none, realloc_none hb]
        exact ⟨_, st, rfl, .refl hw (load_valid hb), hb, rfl⟩
      | some fill =>
        rw [Option.map_some]
        obtain ⟨i, st1, hr, hm1, hl1⟩ := realloc_some
          (fun old => resized old
            (mul64 (mul64 (if o.cap ≠ 0 then mul64 o.cap 2 else 4) 2) esz / esz) fill) hw hb
        obtain ⟨o', st2, hp, hm2, hl2, hv⟩ := keep_ok (f := place key data) place_length
          (o := ⟨if o.cap ≠ 0 then mul64 o.cap 2 else 4, add64 o.size 1, some i⟩) hm1.wf hl1 h
        rw [hr]
        exact ⟨o', st2, hp, hm1.trans hm2, hl2, hv⟩
  · rw [if_neg hc] at h ⊢
    exact keep_ok (f := place key data) place_length (o := { o with size := add64 o.size 1 }) hw hb h

theorem step_ok {o : Obj} {op : Op δ} {st : Store (List (Data δ))} {b : List (Data δ)}
    {h' : Heap δ} {r : Out δ} (hw : st.WF) (hb : load [] o.elems st = .ok b)
    (h : Verif.Heap.step (o.view b) op = .ok (h', r)) :
    ∃ o' st', step o op st = .ok ((o', r), st') ∧ Moves st st' o.elems o'.elems ∧
      load [] o'.elems st' = .ok h'.elems ∧ o'.view h'.elems = h' := by
  by_cases h1 : ∃ k d al, op = .add k d al
  · obtain ⟨k, d, al, rfl⟩ := h1
    obtain ⟨⟨q, x⟩, hq, h⟩ := Res.bind_eq_ok.1 h
    cases h
    obtain ⟨o1, st1, e1, m1, l1, w1⟩ := add_ok hw hb hq
    exact ⟨o1, st1, by simp only [step, e1, Res.ok_bind], m1, l1, w1⟩
  · obtain ⟨o', st', e, hm, l, w⟩ := keep_ok (step_length (fun k d al e => h1 ⟨k, d, al, e⟩)) hw hb h
    refine ⟨o', st', ?_, hm, l, w⟩
    cases op with
    | add k d al => exact absurd ⟨k, d, al, rfl⟩ h1
    | _ => exact e

theorem init_ok {cap : Nat} {al : Alloc (Data δ)} {st : Store (List (Data δ))} (hw : st.WF) :
    Moves st (init cap al st).2 none (init cap al st).1.1.elems ∧
    ∃ b, load [] (init cap al st).1.1.elems (init cap al st).2 = .ok b ∧
      (init cap al st).1.1.view b = (Verif.Heap.init cap al).1 ∧
      (init cap al st).1.2 = (Verif.Heap.init cap al).2 := by
  unfold init Verif.Heap.init
  dsimp only
  by_cases h0 : cap = 0
  · simp only [if_pos h0]
    exact ⟨.refl hw (fun _ hi => (by cases hi)), [], rfl, rfl, trivial⟩
  · simp only [if_neg h0]
    by_cases hm : cap > heapMax
    · simp only [if_pos hm]
      exact ⟨.refl hw (fun _ hi => (by cases hi)), [], rfl, rfl, trivial⟩
    · simp only [if_neg hm]
      cases al with
      | none => exact ⟨.refl hw (fun _ hi => (by cases hi)), [], rfl, rfl, rfl⟩
      | some fill =>
        obtain ⟨hm, hl⟩ := alloc_ok [] (resized [] (mul64 cap esz / esz) fill) hw
        exact ⟨hm, _, hl, rfl, rfl⟩

/-- Heaps take memory for themselves only, and give back all they no longer use. -/
theorem kind_sound (δ : Type) : (kind δ).Sound where
  init a st r hw h := by
    cases h
    obtain ⟨hm, b, hl, hv, _⟩ := init_ok (cap := a.1) (al := a.2) hw
    exact ⟨some _, _, rfl, hm, b, hl, hv, trivial⟩
  step o op st v v' out hw hr h := by
    obtain ⟨b, hb, hv, -⟩ := hr
    cases hv
    obtain ⟨o', st', h1, h2, h3, h4⟩ := step_ok hw hb h
    exact ⟨o', st', h1, h2, _, h3, h4, trivial⟩
  term o st v hw hr := by
    obtain ⟨b, hb, hv, -⟩ := hr
    obtain ⟨st', hf, hm⟩ := free_ok hw hb
    exact ⟨_, st', (by show term o st = _; unfold term; erw [hf]; rfl), rfl, hm⟩

end Verif.Memory.Heap
