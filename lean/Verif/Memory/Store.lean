import Verif.Basic

/-!
# Memory obtained from the allocator

The models of the containers keep the memory of an object inside the object. Here memory is
what it is in C: blocks with an address, shared by everything that runs. A block is obtained
with `malloc`, `calloc` or `realloc` and given back with `free` or `realloc`; an access to a
block that was given back, or giving it back twice, is undefined behaviour.
-/

namespace Verif.Memory

/-- The blocks obtained from the allocator and not given back yet. `next` is an address that
was never used: addresses are not reused, so that an old pointer is never valid again. -/
structure Store (β : Type) where
  next : Nat
  blk : Nat → Option β

/-- The memory before anything is allocated. -/
def Store.empty : Store β := ⟨0, fun _ => none⟩

/-- Change what is at address `i`. -/
def Store.put (st : Store β) (i : Nat) (b : Option β) : Store β :=
  { st with blk := fun j => if j = i then b else st.blk j }

/-- A successful `malloc` or `calloc`, C11 7.22.3: a new block. -/
def alloc (b : β) (st : Store β) : Nat × Store β :=
  (st.next, ⟨st.next + 1, fun j => if j = st.next then some b else st.blk j⟩)

/-- `free`, C11 7.22.3.3. -/
def free (p : Option Nat) (st : Store β) : Res (Store β) :=
  match p with
  | none => .ok st
  | some i => match st.blk i with
    | none => .ub
    | some _ => .ok (st.put i none)

/-- What `p` points to; `null` is what the models of the containers have for a NULL pointer
(no cells, so that every access is out of bounds). -/
def load (null : β) (p : Option Nat) (st : Store β) : Res β :=
  match p with
  | none => .ok null
  | some i => match st.blk i with
    | none => .ub
    | some b => .ok b

/-- Cells of the block of `p` get new values. The block keeps its length. -/
def store (b : List α) (p : Option Nat) (st : Store (List α)) : Res (Store (List α)) := do
  let old ← load [] p st
  if b.length = old.length then
    match p with
    | none => .ok st
    | some i => .ok (st.put i (some b))
  else .ub

/-- `realloc`, C11 7.22.3.5, to a size that is not 0. `none`: it fails and changes nothing.
`some f`: it gives a new block whose content `f` makes of the old one, and gives the old one
back. -/
def realloc (null : β) (al : Option (β → β)) (p : Option Nat) (st : Store β) :
    Res (Option Nat × Store β) := do
  let old ← load null p st
  match al with
  | none => .ok (none, st)
  | some f =>
    let st ← free p st
    let (i, st) := alloc (f old) st
    .ok (some i, st)

/-- Addresses from `next` on are unused. -/
def Store.WF (st : Store β) : Prop := ∀ i, st.next ≤ i → st.blk i = none

theorem Store.wf_empty : (Store.empty : Store β).WF := fun _ _ => rfl

/-- The memory changes from `st` to `st'` while the memory of one object moves from `p` to `p'`
(`none`: it has no memory): its old block, unless it keeps it, is given back, its new block is
new, at an address that was never used, and no other block changes. -/
structure Moves (st st' : Store β) (p p' : Option Nat) : Prop where
  wf : st'.WF
  live : ∀ i, p' = some i → (st'.blk i).isSome
  frame : ∀ i, p ≠ some i → p' ≠ some i → st'.blk i = st.blk i
  new : ∀ i, p' = some i → p ≠ some i → st.blk i = none
  old : ∀ i, p = some i → p' ≠ some i → st'.blk i = none
  unused : ∀ i, p' = some i → p ≠ some i → st.next ≤ i
  mono : st.next ≤ st'.next

theorem Moves.trans {st st1 st2 : Store β} {p p1 p2 : Option Nat} (h1 : Moves st st1 p p1)
    (h2 : Moves st1 st2 p1 p2) : Moves st st2 p p2 where
  wf := h2.wf
  live := h2.live
  frame i hp hp2 := by
    by_cases h : p1 = some i
    · rw [h2.old i h hp2, h1.new i h hp]
    · rw [h2.frame i h hp2, h1.frame i hp h]
  new i hp2 hp := by
    by_cases h : p1 = some i
    · exact h1.new i h hp
    · rw [← h1.frame i hp h, h2.new i hp2 h]
  old i hp hp2 := by
    by_cases h : p1 = some i
    · exact h2.old i h hp2
    · rw [h2.frame i h hp2, h1.old i hp h]
  unused i hp2 hp := by
    by_cases h : p1 = some i
    · exact h1.unused i h hp
    · exact Nat.le_trans h1.mono (h2.unused i hp2 h)
  mono := Nat.le_trans h1.mono h2.mono

/-- The pointer is NULL or points to a block. -/
def Valid (p : Option Nat) (st : Store β) : Prop := ∀ i, p = some i → (st.blk i).isSome

theorem Moves.valid {st st' : Store β} {p p' : Option Nat} (h : Moves st st' p p') :
    Valid p' st' := h.live

theorem Moves.refl {st : Store β} {p : Option Nat} (hw : st.WF) (hv : Valid p st) :
    Moves st st p p :=
  ⟨hw, hv, fun _ _ _ => rfl, fun _ h h' => absurd h h', fun _ h h' => absurd h h',
    fun _ h h' => absurd h h', Nat.le_refl _⟩

theorem load_valid {null : β} {p : Option Nat} {st : Store β} {b : β}
    (h : load null p st = .ok b) : Valid p st := by
  intro i hi
  subst hi
  simp only [load] at h
  split at h <;> simp_all

theorem free_ok {null : β} {p : Option Nat} {st : Store β} {b : β} (hw : st.WF)
    (h : load null p st = .ok b) : ∃ st', free p st = .ok st' ∧ Moves st st' p none := by
  cases p with
  | none => exact ⟨st, rfl, hw, by simp, fun _ _ _ => rfl, by simp, by simp, by simp, Nat.le_refl _⟩
  | some i =>
    simp only [load] at h
    split at h
    · cases h
    · next c hc =>
      refine ⟨st.put i none, by simp [free, hc], ?_, by simp, ?_, by simp, ?_, by simp, Nat.le_refl _⟩
      · intro j hj
        have := hw j hj
        simp only [Store.put]
        split <;> simp_all
      · intro j hj _
        simp only [Store.put]
        split
        · next e => exact absurd (by rw [e]) hj
        · rfl
      · intro j hj _
        cases hj
        simp [Store.put]

theorem alloc_ok (null b : β) {st : Store β} (hw : st.WF) :
    Moves st (alloc b st).2 none (some (alloc b st).1) ∧
      load null (some (alloc b st).1) (alloc b st).2 = .ok b := by
  refine ⟨⟨?_, ?_, ?_, ?_, by simp, ?_, by simp [alloc]⟩, by simp [alloc, load]⟩
  · intro j hj
    simp only [alloc] at hj ⊢
    rw [if_neg (by omega)]
    exact hw j (by omega)
  · intro i hi
    cases hi
    simp [alloc]
  · intro i _ hi
    simp only [alloc] at hi ⊢
    rw [if_neg (fun e => hi (by rw [e]))]
  · intro i hi _
    cases hi
    exact hw _ (Nat.le_refl _)
  · intro i hi _
    cases hi
    exact Nat.le_refl _

/-- A block of another object is not touched. -/
theorem Moves.load_other {null : β} {st st' : Store β} {p p' q : Option Nat}
    (h : Moves st st' p p') (hv : Valid q st) (hq : ∀ i, q = some i → p ≠ some i) :
    load null q st' = load null q st ∧ ∀ i, q = some i → p' ≠ some i := by
  have key : ∀ i, q = some i → p' ≠ some i := by
    intro i hi hp'
    have hn := h.new i hp' (hq i hi)
    have := hv i hi
    simp [hn] at this
  refine ⟨?_, key⟩
  cases q with
  | none => rfl
  | some i => simp [load, h.frame i (hq i rfl) (key i rfl)]

/-- A second block `d`, obtained while the object has `p`, replaces `p`, which is given back. -/
theorem replace_ok {null : β} {p : Option Nat} {d : Nat} {st st' : Store β} {b : β}
    (h : load null p st = .ok b) (hm : Moves st st' none (some d)) :
    load null p st' = .ok b ∧
    ∃ st2, free p st' = .ok st2 ∧ Moves st st2 p (some d) ∧
      load null (some d) st2 = load null (some d) st' := by
  obtain ⟨ho, hne⟩ := hm.load_other (null := null) (load_valid h) (by simp)
  rw [h] at ho
  refine ⟨ho, ?_⟩
  obtain ⟨st2, hf, hm'⟩ := free_ok hm.wf ho
  refine ⟨st2, hf, ⟨hm'.wf, ?_, ?_, ?_, ?_, fun i hi _ => hm.unused i hi (by simp),
    Nat.le_trans hm.mono hm'.mono⟩, ?_⟩
  · intro i hi
    rw [hm'.frame i (fun e => hne i e hi) (by simp)]
    exact hm.live i hi
  · intro i hp hi
    rw [hm'.frame i hp (by simp), hm.frame i (by simp) hi]
  · intro i hi _
    exact hm.new i hi (by simp)
  · intro i hp _
    exact hm'.old i hp (by simp)
  · exact (hm'.load_other (null := null) hm.valid (fun i hi e => hne i e hi)).1

theorem realloc_none {null : β} {p : Option Nat} {st : Store β} {b : β}
    (h : load null p st = .ok b) : realloc null none p st = .ok (none, st) := by
  simp [realloc, h]

theorem realloc_some {null : β} {p : Option Nat} {st : Store β} {b : β} (f : β → β) (hw : st.WF)
    (h : load null p st = .ok b) :
    ∃ i st', realloc null (some f) p st = .ok (some i, st') ∧ Moves st st' p (some i) ∧
      load null (some i) st' = .ok (f b) := by
  obtain ⟨st1, hf, hm⟩ := free_ok hw h
  obtain ⟨hm', hl⟩ := alloc_ok null (f b) hm.wf
  exact ⟨_, _, by simp only [realloc, h, hf, Res.ok_bind], hm.trans hm', hl⟩

theorem store_ok {p : Option Nat} {st : Store (List α)} {b c : List α} (hw : st.WF)
    (h : load [] p st = .ok b) (hl : c.length = b.length) :
    ∃ st', store c p st = .ok st' ∧ Moves st st' p p ∧ load [] p st' = .ok c := by
  cases p with
  | none =>
    simp only [load, Res.ok.injEq] at h
    subst h
    have : c = [] := List.length_eq_zero_iff.1 hl
    exact ⟨st, by simp [store, load, hl], .refl hw (by intro i hi; cases hi), by simp [load, this]⟩
  | some i =>
    refine ⟨st.put i (some c), by simp [store, h, hl], ⟨?_, ?_, ?_, ?_, ?_,
      fun _ h h' => absurd h h', Nat.le_refl _⟩, by simp [load, Store.put]⟩
    · intro j hj
      have := load_valid h i rfl
      have hj' := hw j hj
      simp only [Store.put]
      split
      · next e => subst e; simp [hj'] at this
      · exact hj'
    · intro j hj
      cases hj
      simp [Store.put]
    · intro j hj _
      simp only [Store.put]
      rw [if_neg (fun e => hj (by rw [e]))]
    · exact fun _ h h' => absurd h h'
    · exact fun _ h h' => absurd h h'

/-! ## Many objects -/

/-- A kind of container. `Obj` is its structure in C, with the pointer `ptr` to its memory;
`View` is what the model with the memory inside the object has, seen from an object and its
block. `initP`, `stepP`, `termP` are the functions of the API that work on memory, `init` and
`step` those of the model without. `sim`: they do the same. -/
structure Kind where
  Obj : Type
  Blk : Type
  View : Type
  Arg : Type
  Op : Type
  Out : Type
  null : Blk
  ptr : Obj → Option Nat
  view : Obj → Blk → View
  /-- what always holds of the structure and its block -/
  inv : Obj → Blk → Prop
  initP : Arg → Store Blk → Res (Option Obj × Store Blk)
  init : Arg → Res (Option View)
  stepP : Obj → Op → Store Blk → Res ((Obj × Out) × Store Blk)
  step : View → Op → Res (View × Out)
  termP : Obj → Store Blk → Res (Obj × Store Blk)

/-- What the object looks like to the model without memory. -/
def Kind.Rep (k : Kind) (o : k.Obj) (st : Store k.Blk) (v : k.View) : Prop :=
  ∃ b, load k.null (k.ptr o) st = .ok b ∧ k.view o b = v ∧ k.inv o b

/-- Both are missing, or both are there and related. -/
def Both (R : α → β → Prop) : Option α → Option β → Prop
  | some a, some b => R a b
  | none, none => True
  | _, _ => False

theorem Both.mono {R S : α → β → Prop} {x : Option α} {y : Option β} (h : Both R x y)
    (hi : ∀ a b, R a b → S a b) : Both S x y := by
  cases x <;> cases y
  · trivial
  · exact h
  · exact h
  · exact hi _ _ h

/-- The functions on memory do what the model without memory says, take no memory but their
own, and give back what they no longer use. -/
structure Kind.Sound (k : Kind) : Prop where
  init : ∀ (a : k.Arg) (st : Store k.Blk) (r : Option k.View), st.WF → k.init a = .ok r →
    ∃ o st', k.initP a st = .ok (o, st') ∧ Moves st st' none (o.bind k.ptr) ∧
      Both (fun o v => k.Rep o st' v) o r
  step : ∀ (o : k.Obj) (op : k.Op) (st : Store k.Blk) (v v' : k.View) (out : k.Out), st.WF →
    k.Rep o st v → k.step v op = .ok (v', out) →
    ∃ o' st', k.stepP o op st = .ok ((o', out), st') ∧ Moves st st' (k.ptr o) (k.ptr o') ∧
      k.Rep o' st' v'
  term : ∀ (o : k.Obj) (st : Store k.Blk) (v : k.View), st.WF → k.Rep o st v →
    ∃ o' st', k.termP o st = .ok (o', st') ∧ k.ptr o' = none ∧ Moves st st' (k.ptr o) none

/-- What a program does with its objects; objects have names. -/
inductive Act (k : Kind) where
  /-- create an object; nothing happens when the name is in use -/
  | create (n : Nat) (a : k.Arg)
  /-- call a function of the API on an object; nothing happens when there is none of that name -/
  | call (n : Nat) (op : k.Op)
  /-- destroy an object -/
  | destroy (n : Nat)

/-- What a program sees of an action. -/
inductive Seen (k : Kind) where
  | created (ok : Bool)
  | result (r : k.Out)
  | nothing

/-- The objects, by name. -/
def upd (f : Nat → Option α) (n : Nat) (x : Option α) : Nat → Option α :=
  fun m => if m = n then x else f m

/-- A program that runs on memory. -/
structure World (k : Kind) where
  objs : Nat → Option k.Obj
  st : Store k.Blk

/-- One action, on memory. -/
def World.act (k : Kind) (w : World k) : Act k → Res (World k × Seen k)
  | .create n a =>
    match w.objs n with
    | some _ => .ok (w, .nothing)
    | none => do
      let (o, st) ← k.initP a w.st
      .ok (⟨upd w.objs n o, st⟩, .created o.isSome)
  | .call n op =>
    match w.objs n with
    | none => .ok (w, .nothing)
    | some o => do
      let ((o, r), st) ← k.stepP o op w.st
      .ok (⟨upd w.objs n (some o), st⟩, .result r)
  | .destroy n =>
    match w.objs n with
    | none => .ok (w, .nothing)
    | some o => do
      let (_, st) ← k.termP o w.st
      .ok (⟨upd w.objs n none, st⟩, .nothing)

/-- One action, in the model without memory. -/
def act (k : Kind) (vs : Nat → Option k.View) : Act k → Res ((Nat → Option k.View) × Seen k)
  | .create n a =>
    match vs n with
    | some _ => .ok (vs, .nothing)
    | none => do
      let v ← k.init a
      .ok (upd vs n v, .created v.isSome)
  | .call n op =>
    match vs n with
    | none => .ok (vs, .nothing)
    | some v => do
      let (v, r) ← k.step v op
      .ok (upd vs n (some v), .result r)
  | .destroy n =>
    match vs n with
    | none => .ok (vs, .nothing)
    | some _ => .ok (upd vs n none, .nothing)

/-- A history, on memory. -/
def World.run (k : Kind) (w : World k) : List (Act k) → Res (World k × List (Seen k))
  | [] => .ok (w, [])
  | a :: as => do
    let (w, s) ← w.act k a
    let (w, ss) ← World.run k w as
    .ok (w, s :: ss)

/-- A history, in the model without memory. -/
def run (k : Kind) (vs : Nat → Option k.View) :
    List (Act k) → Res ((Nat → Option k.View) × List (Seen k))
  | [] => .ok (vs, [])
  | a :: as => do
    let (vs, s) ← act k vs a
    let (vs, ss) ← run k vs as
    .ok (vs, s :: ss)

/-- **What a program can rely on about the memory of its objects.** -/
structure World.Tidy (k : Kind) (w : World k) : Prop where
  wf : w.st.WF
  /-- every block belongs to an object that exists -/
  owned : ∀ i, (w.st.blk i).isSome → ∃ n o, w.objs n = some o ∧ k.ptr o = some i
  /-- the block of an object that exists has not been given back -/
  live : ∀ n o i, w.objs n = some o → k.ptr o = some i → (w.st.blk i).isSome
  /-- two objects never share a block -/
  apart : ∀ n m o o' i, w.objs n = some o → w.objs m = some o' → k.ptr o = some i →
    k.ptr o' = some i → n = m

/-- The objects on memory are those of the model without memory. -/
def World.Matches (k : Kind) (w : World k) (vs : Nat → Option k.View) : Prop :=
  ∀ n, Both (fun o v => k.Rep o w.st v) (w.objs n) (vs n)

theorem World.Matches.some_iff {k : Kind} {w : World k} {vs : Nat → Option k.View}
    (h : w.Matches k vs) {n : Nat} {v : k.View} (hv : vs n = some v) :
    ∃ o, w.objs n = some o ∧ k.Rep o w.st v := by
  have := h n
  rw [hv] at this
  cases ho : w.objs n with
  | none => rw [ho] at this; exact this.elim
  | some o => rw [ho] at this; exact ⟨o, rfl, this⟩

theorem World.Matches.none_iff {k : Kind} {w : World k} {vs : Nat → Option k.View}
    (h : w.Matches k vs) {n : Nat} (hv : vs n = none) : w.objs n = none := by
  have := h n
  rw [hv] at this
  cases ho : w.objs n with
  | none => rfl
  | some o => rw [ho] at this; exact this.elim

/-- The object `n` changes from `o` to `o'` (either may not exist) while its memory moves. -/
theorem World.moved {k : Kind} {w : World k} {vs : Nat → Option k.View} {n : Nat}
    (ht : w.Tidy k) (hm : w.Matches k vs) {o o' : Option k.Obj} {v' : Option k.View}
    {st' : Store k.Blk} (ho : w.objs n = o)
    (hmv : Moves w.st st' (o.bind k.ptr) (o'.bind k.ptr))
    (hr : Both (fun o v => k.Rep o st' v) o' v') :
    World.Tidy k ⟨upd w.objs n o', st'⟩ ∧ World.Matches k ⟨upd w.objs n o', st'⟩ (upd vs n v') := by
  have other : ∀ m x, m ≠ n → w.objs m = some x → ∀ i, k.ptr x = some i →
      o.bind k.ptr ≠ some i ∧ o'.bind k.ptr ≠ some i := by
    intro m x hmn hx i hi
    have h1 : o.bind k.ptr ≠ some i := by
      intro e
      cases o with
      | none => cases e
      | some y => exact hmn (ht.apart m n x y i hx ho hi e)
    refine ⟨h1, fun e => ?_⟩
    have := hmv.new i e h1
    have h2 := ht.live m x i hx hi
    simp [this] at h2
  refine ⟨⟨hmv.wf, ?_, ?_, ?_⟩, ?_⟩
  · intro i hi
    by_cases h' : o'.bind k.ptr = some i
    · cases o' with
      | none => cases h'
      | some y => exact ⟨n, y, by simp [upd], h'⟩
    · have hb : o.bind k.ptr ≠ some i := by
        intro e
        have := hmv.old i e h'
        simp only [this] at hi
        cases hi
      rw [hmv.frame i hb h'] at hi
      obtain ⟨m, x, hx, hxi⟩ := ht.owned i hi
      by_cases hmn : m = n
      · subst hmn
        rw [ho] at hx
        subst hx
        exact absurd hxi hb
      · exact ⟨m, x, by simp [upd, hmn, hx], hxi⟩
  · intro m x i hx hi
    by_cases hmn : m = n
    · subst hmn
      simp only [upd, if_true] at hx
      subst hx
      exact hmv.live i hi
    · simp only [upd, if_neg hmn] at hx
      obtain ⟨a, b⟩ := other m x hmn hx i hi
      show (st'.blk i).isSome
      rw [hmv.frame i a b]
      exact ht.live m x i hx hi
  · intro m1 m2 x y i hx hy hxi hyi
    by_cases h1 : m1 = n
    · by_cases h2 : m2 = n
      · rw [h1, h2]
      · subst h1
        simp only [upd, if_true, if_neg h2] at hx hy
        have := (other m2 y h2 hy i hyi).2
        rw [hx] at this
        exact absurd hxi this
    · by_cases h2 : m2 = n
      · subst h2
        simp only [upd, if_true, if_neg h1] at hx hy
        have := (other m1 x h1 hx i hxi).2
        rw [hy] at this
        exact absurd hyi this
      · simp only [upd, if_neg h1, if_neg h2] at hx hy
        exact ht.apart m1 m2 x y i hx hy hxi hyi
  · intro m
    by_cases hmn : m = n
    · subst hmn
      simp only [upd, if_true]
      exact hr
    · simp only [upd, if_neg hmn]
      have := hm m
      cases hx : w.objs m with
      | none =>
        cases hv : vs m with
        | none => trivial
        | some v => simp [hx, hv, Both] at this
      | some x =>
        cases hv : vs m with
        | none => simp [hx, hv, Both] at this
        | some v =>
          simp only [hx, hv, Both] at this ⊢
          obtain ⟨b, hb, hbv⟩ := this
          refine ⟨b, ?_, hbv⟩
          rw [← hb]
          exact (hmv.load_other (load_valid hb) (fun i hi => (other m x hmn hx i hi).1)).1

theorem World.act_ok {k : Kind} (hk : k.Sound) {w : World k} {vs vs' : Nat → Option k.View}
    {a : Act k} {s : Seen k} (ht : w.Tidy k) (hm : w.Matches k vs) (h : Memory.act k vs a = .ok (vs', s)) :
    ∃ w', w.act k a = .ok (w', s) ∧ w'.Tidy k ∧ w'.Matches k vs' := by
  cases a with
  | create n a =>
    simp only [Memory.act] at h
    cases hv : vs n with
    | some v =>
      rw [hv] at h
      cases h
      obtain ⟨o, ho, _⟩ := hm.some_iff hv
      exact ⟨w, by simp [World.act, ho], ht, hm⟩
    | none =>
      rw [hv] at h
      obtain ⟨r, hr, h⟩ := Res.bind_eq_ok.1 h
      cases h
      have ho := hm.none_iff hv
      obtain ⟨o, st', hi, hmv, hrep⟩ := hk.init a w.st r ht.wf hr
      have hs : o.isSome = r.isSome := by
        cases r <;> cases o <;> simp_all [Both]
      refine ⟨⟨upd w.objs n o, st'⟩, by simp [World.act, ho, hi, hs], ?_⟩
      exact World.moved ht hm (o := none) ho hmv hrep
  | call n op =>
    simp only [Memory.act] at h
    cases hv : vs n with
    | none =>
      rw [hv] at h
      cases h
      exact ⟨w, by simp [World.act, hm.none_iff hv], ht, hm⟩
    | some v =>
      rw [hv] at h
      obtain ⟨⟨v', r⟩, hr, h⟩ := Res.bind_eq_ok.1 h
      cases h
      obtain ⟨o, ho, hrep⟩ := hm.some_iff hv
      obtain ⟨o', st', hs, hmv, hrep'⟩ := hk.step o op w.st v v' r ht.wf hrep hr
      refine ⟨⟨upd w.objs n (some o'), st'⟩, by simp [World.act, ho, hs], ?_⟩
      exact World.moved ht hm (o := some o) (o' := some o') ho hmv hrep'
  | destroy n =>
    simp only [Memory.act] at h
    cases hv : vs n with
    | none =>
      rw [hv] at h
      cases h
      exact ⟨w, by simp [World.act, hm.none_iff hv], ht, hm⟩
    | some v =>
      rw [hv] at h
      cases h
      obtain ⟨o, ho, hrep⟩ := hm.some_iff hv
      obtain ⟨o', st', hs, _, hmv⟩ := hk.term o w.st v ht.wf hrep
      refine ⟨⟨upd w.objs n none, st'⟩, by simp [World.act, ho, hs], ?_⟩
      exact World.moved ht hm (o := some o) (o' := none) (v' := none) ho hmv trivial

theorem World.run_ok {k : Kind} (hk : k.Sound) {as : List (Act k)} :
    ∀ {w : World k} {vs vs' : Nat → Option k.View} {ss : List (Seen k)}, w.Tidy k →
      w.Matches k vs → Memory.run k vs as = .ok (vs', ss) →
      ∃ w', w.run k as = .ok (w', ss) ∧ w'.Tidy k ∧ w'.Matches k vs' := by
  induction as with
  | nil =>
    intro w vs vs' ss ht hm h
    cases h
    exact ⟨w, rfl, ht, hm⟩
  | cons a as ih =>
    intro w vs vs' ss ht hm h
    obtain ⟨⟨v1, s⟩, h1, h⟩ := Res.bind_eq_ok.1 h
    obtain ⟨⟨v2, s2⟩, h2, h⟩ := Res.bind_eq_ok.1 h
    cases h
    obtain ⟨w1, ha, ht1, hm1⟩ := World.act_ok hk ht hm h1
    obtain ⟨w2, hb, ht2, hm2⟩ := ih ht1 hm1 h2
    exact ⟨w2, by simp only [World.run, ha, hb, Res.ok_bind], ht2, hm2⟩

/-- The program before it has any object. -/
def World.start (k : Kind) : World k := ⟨fun _ => none, .empty⟩

theorem World.start_tidy (k : Kind) : (World.start k).Tidy k :=
  ⟨Store.wf_empty, fun _ hi => (by cases hi), fun _ _ _ h => (by cases h),
    fun _ _ _ _ _ h => (by cases h)⟩

/-- The memory of objects of a kind: every history that the model without memory defines is
defined on memory too, with the same results, and the memory is tidy at the end. -/
theorem history_ok {k : Kind} (hk : k.Sound) {as : List (Act k)} {vs : Nat → Option k.View}
    {ss : List (Seen k)} (h : run k (fun _ => none) as = .ok (vs, ss)) :
    ∃ w, (World.start k).run k as = .ok (w, ss) ∧ w.Tidy k ∧ w.Matches k vs :=
  World.run_ok hk (World.start_tidy k) (vs := fun _ => none) (fun _ => trivial) h

/-- When all objects have been destroyed no memory is left. -/
theorem World.Tidy.no_leak {k : Kind} {w : World k} (h : w.Tidy k) (hd : ∀ n, w.objs n = none)
    (i : Nat) : w.st.blk i = none := by
  cases hb : w.st.blk i with
  | none => rfl
  | some b =>
    obtain ⟨n, o, ho, _⟩ := h.owned i (by simp [hb])
    rw [hd n] at ho
    cases ho

end Verif.Memory
