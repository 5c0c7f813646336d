import Verif.Map.Model
import Verif.Memory.Store

/-! # The memory of maps: `map/sc_map.c` with pointers

A block holds the cell `mem[-1]` and the cells from `mem[0]` on. A map without memory of its own
points to the constant `empty_items` (map/sc_map.c:87), which must not be written and not be
freed. -/

namespace Verif.Memory.Map
open Verif.Map

variable {K C V : Type} [DecidableEq K] [DecidableEq C] [DecidableEq V]

/-- A block: `mem[-1]`, and `mem[0..]`. -/
abbrev Blk (K V : Type) := Item K V × List (Item K V)

/-- `struct sc_map_##name`, map/sc_map.h:67-77. `mem` is `none` for the address of
`empty_items[1]`, which all maps without memory share. -/
structure Obj where
  mem : Option Nat
  cap : Nat
  size : Nat
  loadFac : Nat
  remap : Nat
  used : Bool
  oom : Bool
  found : Bool

/-- The map of the model without memory: with the cells `mem` points to. -/
abbrev Obj.view (o : Obj) (b : Blk K V) : Map K V :=
  ⟨b.2, b.1, o.mem.isNone, o.cap, o.size, o.loadFac, o.remap, o.used, o.oom, o.found⟩

/-- `empty_items_##name`, map/sc_map.c:87. -/
abbrev emptyItems (k : Verif.Map.Kind K C) (v0 : V) : Blk K V := (zeroItem k v0, [zeroItem k v0])

/-- The structure with the pointer `p` and everything else from `m`. -/
abbrev ofMap (p : Option Nat) (m : Map K V) : Obj :=
  ⟨p, m.cap, m.size, m.loadFac, m.remap, m.used, m.oom, m.found⟩

/-- Cells of the block of `p` get new values. The constant `empty_items` keeps its values. -/
def storeM (null b : Blk K V) (p : Option Nat) (st : Store (Blk K V)) : Res (Store (Blk K V)) :=
  match p with
  | none => if b = null then .ok st else .ub
  | some i => match st.blk i with
    | none => .ub
    | some old => if b.2.length = old.2.length then .ok (st.put i (some b)) else .ub

/-- A function that neither allocates nor frees: it reads and writes the cells `mem` points to
and leaves the pointer alone. -/
def keep {ρ : Type} (null : Blk K V) (f : Map K V → Res (Map K V × ρ)) (o : Obj)
    (st : Store (Blk K V)) : Res ((Obj × ρ) × Store (Blk K V)) := do
  let b ← load null o.mem st
  let (m, r) ← f (o.view b)
  let st ← storeM null (m.mem1, m.mem) o.mem st
  .ok ((ofMap o.mem m, r), st)

/-- `sc_map_alloc_##name`, map/sc_map.c:93-113: the block and the capacity. -/
def alloc (k : Verif.Map.Kind K C) (v0 : V) (al : Bool) (cap factor : Nat) (st : Store (Blk K V)) :
    Option (Nat × Nat) × Store (Blk K V) :=
  match allocCap cap factor with
  | none => (none, st)
  | some c =>
    if al then
      let (i, st) := Memory.alloc (zeroItem k v0, List.replicate c (zeroItem k v0)) st
      (some (i, c), st)
    else (none, st)

/-- `sc_map_init_##name`, map/sc_map.c:115-144: no object for `false`. -/
def init (k : Verif.Map.Kind K C) (v0 : V) (al : Bool) (g : Bool × Bool) (cap loadFac : Nat)
    (st : Store (Blk K V)) : Option Obj × Store (Blk K V) :=
  let f := if loadFac = 0 then 75 else loadFac
  if f > 95 ∨ f < 25 then (none, st)
  else if cap = 0 then (some ⟨none, 1, 0, f, 0, false, false, false⟩, st)
  else match alloc k v0 al cap 1 st with
    | (none, st) => (none, st)
    | (some (i, c), st) => (some ⟨some i, c, 0, f, remapOf c f, false, g.1, g.2⟩, st)

/-- `sc_map_term_##name`, map/sc_map.c:146-152. -/
def term (o : Obj) (st : Store (Blk K V)) : Res (Obj × Store (Blk K V)) :=
  match o.mem with
  | none => .ok (o, st)
  | some i => do
    let st ← free (some i) st
    .ok (⟨none, 1, 0, 0, 0, false, false, false⟩, st)

/-- `sc_map_remap_##name`, map/sc_map.c:171-213. -/
def remap (k : Verif.Map.Kind K C) (v0 : V) (al : Bool) (o : Obj) (st : Store (Blk K V)) :
    Res ((Obj × Bool) × Store (Blk K V)) :=
  let null := emptyItems k v0
  if o.size < o.remap then .ok ((o, true), st)
  else match alloc k v0 al o.cap 2 st with
    | (none, st) => .ok ((o, false), st)
    | (some (i, cap), st) => do
      let mod := sub32 cap 1
      -- 188-201
      let old ← load null o.mem st
      let new ← load null (some i) st
      if old.2.length < o.cap then .ub
      else do
        let cells ← rehash k cap mod (old.2.take o.cap) new.2
        let st ← storeM null (new.1, cells) (some i) st
        -- 203-206
        let st ← (match o.mem with
          | none => .ok st
          | some j => do
            let old ← load null (some j) st
            let new ← load null (some i) st
            let st ← storeM null (old.1, new.2) (some i) st
            free (some j) st)
        .ok (({ o with mem := some i, cap := cap, remap := remapOf cap o.loadFac }, true), st)

/-- `sc_map_put_##name` after the remap, map/sc_map.c:227-254. -/
def putRest (k : Verif.Map.Kind K C) (v0 : V) (key : K) (value : V) (m : Map K V) : Res (Map K V × V) := do
  if key = k.zero then
    let ret := if m.used then m.mem1.value else v0
    return ({ m with
      found := m.used
      size := add32 m.size (if m.used then 0 else 1)
      used := true
      mem1 := { m.mem1 with value := value } }, ret)
  else
    let mod := sub32 m.cap 1
    let h := k.hash (k.cls key)
    let pos ← probe k mod key h (m.cap + 1) m.mem (h &&& mod)
    let c ← rd m.mem pos
    let size := if c.key = k.zero then add32 m.size 1 else m.size
    let found := decide (c.key ≠ k.zero)
    let ret := if found then c.value else v0
    let mem ← wr m.mem pos (k.assign c key value h)
    return ({ m with mem := mem, size := size, found := found }, ret)

/-- `sc_map_put_##name`, map/sc_map.c:215-255. -/
def put (k : Verif.Map.Kind K C) (v0 : V) (al : Bool) (o : Obj) (key : K) (value : V)
    (st : Store (Blk K V)) : Res ((Obj × V) × Store (Blk K V)) := do
  let o := { o with oom := false }
  let ((o, ok), st) ← remap k v0 al o st
  if !ok then .ok (({ o with oom := true }, v0), st)
  else keep (emptyItems k v0) (putRest k v0 key value) o st

/-- The API calls, map/sc_map.c:159-339. -/
def step (k : Verif.Map.Kind K C) (v0 : V) (o : Obj) (op : Op K V) (st : Store (Blk K V)) :
    Res ((Obj × Out V) × Store (Blk K V)) :=
  match op with
  | .put key v al => do
    let ((o, r), st) ← put k v0 al o key v st
    .ok ((o, ⟨some r, o.found, o.oom⟩), st)
  | op => keep (emptyItems k v0) (fun m => Verif.Map.step k v0 m op) o st

/-- What holds of a map without memory: it is empty, and the next `put` allocates. -/
def Obj.Inv (o : Obj) : Prop := o.mem = none → o.size = 0 ∧ o.remap = 0 ∧ o.used = false

/-- Maps. -/
def kind (k : Verif.Map.Kind K C) (v0 : V) : Memory.Kind where
  Obj := Obj
  Blk := Blk K V
  View := Map K V
  Arg := (Bool × (Bool × Bool)) × Nat × Nat
  Op := Op K V
  Out := Out V
  null := emptyItems k v0
  ptr o := o.mem
  view := Obj.view
  inv o _ := o.Inv
  initP a st := .ok (init k v0 a.1.1 a.1.2 a.2.1 a.2.2 st)
  init a := .ok (Verif.Map.init k v0 a.1.1 a.1.2 a.2.1 a.2.2)
  stepP := step k v0
  step := Verif.Map.step k v0
  termP := term

/-- The map `o` in the memory `st` is `m`. -/
def Rep (k : Verif.Map.Kind K C) (v0 : V) (o : Obj) (st : Store (Blk K V)) (m : Map K V) : Prop :=
  load (emptyItems k v0) o.mem st = .ok (m.mem1, m.mem) ∧ o.view (m.mem1, m.mem) = m ∧ o.Inv

theorem storeM_ok {null b c : Blk K V} {i : Nat} {st : Store (Blk K V)} (hw : st.WF)
    (h : load null (some i) st = .ok b) (hl : c.2.length = b.2.length) :
    ∃ st', storeM null c (some i) st = .ok st' ∧ Moves st st' (some i) (some i) ∧
      load null (some i) st' = .ok c := by
  have hb : st.blk i = some b := by
    simp only [load] at h
    split at h <;> simp_all
  refine ⟨st.put i (some c), by simp [storeM, hb, hl], ⟨?_, ?_, ?_, ?_, ?_,
    fun _ h h' => absurd h h', Nat.le_refl _⟩, by simp [load, Store.put]⟩
  · intro j hj
    have hj' := hw j hj
    simp only [Store.put]
    split
    · next e => subst e; simp [hj'] at hb
    · exact hj'
  · intro j hj
    cases hj
    simp [Store.put]
  · intro j hj _
    simp only [Store.put]
    rw [if_neg (fun e => hj (by rw [e]))]
  · exact fun _ h h' => absurd h h'
  · exact fun _ h h' => absurd h h'

/-- Code that does not change the length of the table, keeps the flag `static`, and leaves the
constant `empty_items` alone. -/
structure Keeps {ρ : Type} (f : Map K V → Res (Map K V × ρ)) (m m' : Map K V) : Prop where
  len : m'.mem.length = m.mem.length
  flag : m'.static = m.static
  const : m.static = true → m'.mem = m.mem ∧ m'.mem1 = m.mem1 ∧ m'.size = 0 ∧ m'.remap = 0 ∧
    m'.used = false

theorem keep_ok {ρ : Type} {k : Verif.Map.Kind K C} {v0 : V} {f : Map K V → Res (Map K V × ρ)} {o : Obj}
    {st : Store (Blk K V)} {m m' : Map K V} {r : ρ} (hw : st.WF) (hr : Rep k v0 o st m)
    (h : f m = .ok (m', r)) (hk : Keeps f m m') :
    ∃ o' st', keep (emptyItems k v0) f o st = .ok ((o', r), st') ∧ Moves st st' o.mem o'.mem ∧
      Rep k v0 o' st' m' ∧ o'.found = m'.found ∧ o'.oom = m'.oom := by
  obtain ⟨hb, hv, hi⟩ := hr
  have hst : m.static = o.mem.isNone := by rw [← hv]
  cases hp : o.mem with
  | none =>
    rw [hp] at hb
    have hs : m.static = true := by rw [hst, hp]; rfl
    obtain ⟨c1, c2, c3, c4, c5⟩ := hk.const hs
    have he : (m'.mem1, m'.mem) = emptyItems k v0 := by
      rw [c1, c2]
      simp only [load, Res.ok.injEq] at hb
      exact hb.symm
    refine ⟨ofMap none m', st, ?_, .refl hw (fun _ hi => (by cases hi)), ⟨?_, ?_, ?_⟩, rfl, rfl⟩
    · simp only [keep, hp, hb, Res.ok_bind, hv, h, storeM, he, if_true]
    · simp only [load, he]
    · have : m'.static = true := by rw [hk.flag, hs]
      cases m'; simp_all [Obj.view]
    · intro _
      exact ⟨c3, c4, c5⟩
  | some i =>
    rw [hp] at hb
    obtain ⟨st', hs, hm, hl⟩ := storeM_ok (c := (m'.mem1, m'.mem)) hw hb hk.len
    refine ⟨ofMap (some i) m', st', ?_, hm, ⟨hl, ?_, ?_⟩, rfl, rfl⟩
    · simp only [keep, hp, hb, Res.ok_bind, hv, h, hs]
    · have : m'.static = false := by rw [hk.flag, hst, hp]; rfl
      cases m'; simp_all [Obj.view]
    · intro h
      cases h

theorem insertFree_length {k : Verif.Map.Kind K C} {mod : Nat} {t : Item K V} :
    ∀ {fuel : Nat} {new new' : List (Item K V)} {pos : Nat},
      insertFree k mod t fuel new pos = .ok new' → new'.length = new.length := by
  intro fuel
  induction fuel with
  | zero => intro new new' pos h; cases h
  | succ n ih =>
    intro new new' pos h
    obtain ⟨c, _, h⟩ := Res.bind_eq_ok.1 h
    split at h
    · rw [(wr_eq_ok.1 h).2]; simp
    · exact ih h

theorem rehash_length {k : Verif.Map.Kind K C} {cap mod : Nat} :
    ∀ {ts new new' : List (Item K V)}, rehash k cap mod ts new = .ok new' →
      new'.length = new.length := by
  intro ts
  induction ts with
  | nil => intro new new' h; cases h; rfl
  | cons t ts ih =>
    intro new new' h
    simp only [rehash] at h
    split at h
    · obtain ⟨n1, h1, h⟩ := Res.bind_eq_ok.1 h
      rw [ih h, insertFree_length h1]
    · exact ih h

theorem shift_length {k : Verif.Map.Kind K C} {mod : Nat} :
    ∀ {fuel : Nat} {mem mem' : List (Item K V)} {a b : Nat}, shift k mod fuel mem a b = .ok mem' →
      mem'.length = mem.length := by
  intro fuel
  induction fuel with
  | zero => intro mem mem' a b h; cases h
  | succ n ih =>
    intro mem mem' a b h
    obtain ⟨c, _, h⟩ := Res.bind_eq_ok.1 h
    split at h
    · cases h; rfl
    · dsimp only at h
      split at h
      · obtain ⟨m1, h1, h⟩ := Res.bind_eq_ok.1 h
        obtain ⟨m2, h2, h⟩ := Res.bind_eq_ok.1 h
        rw [ih h, (wr_eq_ok.1 h2).2, (wr_eq_ok.1 h1).2]
        simp
      · exact ih h

theorem get_keeps {k : Verif.Map.Kind K C} {v0 : V} {m m' : Map K V} {key : K} {v : V}
    (h : Verif.Map.get k v0 m key = .ok (m', v)) : ∃ x, m' = { m with found := x } := by
  simp only [Verif.Map.get] at h
  split at h
  · cases h; exact ⟨_, rfl⟩
  · obtain ⟨p, _, h⟩ := Res.bind_eq_ok.1 h
    obtain ⟨c, _, h⟩ := Res.bind_eq_ok.1 h
    split at h
    · cases h; exact ⟨_, rfl⟩
    · cases h; exact ⟨_, rfl⟩

theorem step_ok_keep {k : Verif.Map.Kind K C} {v0 : V} {o : Obj} {st : Store (Blk K V)} {m m' : Map K V}
    {op : Op K V} {out : Out V} (hop : ∀ a b c, op ≠ .put a b c) (hr : Rep k v0 o st m)
    (h : Verif.Map.step k v0 m op = .ok (m', out)) :
    Keeps (fun m => Verif.Map.step k v0 m op) m m' := by
  obtain ⟨hb, hv, hi⟩ := hr
  have hconst : m.static = true → m.mem = [zeroItem k v0] ∧ m.size = 0 ∧ m.remap = 0 ∧ m.used = false := by
    intro hs
    have hp : o.mem = none := by
      have : m.static = o.mem.isNone := by rw [← hv]
      rw [this] at hs
      simpa using hs
    rw [hp] at hb
    simp only [load, Res.ok.injEq, Prod.mk.injEq] at hb
    obtain ⟨a, b, c⟩ := hi hp
    rw [← hv]
    exact ⟨hb.2.symm, a, b, c⟩
  cases op with
  | put a b c => exact absurd rfl (hop a b c)
  | get key =>
    obtain ⟨⟨m1, r⟩, h1, h⟩ := Res.bind_eq_ok.1 h
    cases h
    obtain ⟨x, rfl⟩ := get_keeps h1
    exact ⟨rfl, rfl, fun hs => ⟨rfl, rfl, (hconst hs).2⟩⟩
  | clear =>
    cases h
    by_cases h0 : m.size > 0
    · simp only [clear, if_pos h0]
      refine ⟨by simp, rfl, fun hs => ?_⟩
      have := (hconst hs).2.1
      omega
    · simp only [clear, if_neg h0]
      exact ⟨rfl, rfl, fun hs => ⟨rfl, rfl, (hconst hs).2⟩⟩
  | del key =>
    obtain ⟨⟨m1, r⟩, h1, h⟩ := Res.bind_eq_ok.1 h
    cases h
    simp only [del] at h1
    split at h1
    · cases h1
      refine ⟨rfl, rfl, fun hs => ⟨rfl, rfl, ?_, (hconst hs).2.2.1, rfl⟩⟩
      obtain ⟨_, a, b, c⟩ := hconst hs
      simp [a, c, sub32]
    · obtain ⟨p, _, h1⟩ := Res.bind_eq_ok.1 h1
      obtain ⟨c, hc, h1⟩ := Res.bind_eq_ok.1 h1
      split at h1
      · cases h1
        exact ⟨rfl, rfl, fun hs => ⟨rfl, rfl, (hconst hs).2⟩⟩
      · next hz =>
        obtain ⟨l1, hl1, h1⟩ := Res.bind_eq_ok.1 h1
        obtain ⟨l2, hl2, h1⟩ := Res.bind_eq_ok.1 h1
        cases h1
        refine ⟨?_, rfl, fun hs => ?_⟩
        · show l2.length = _
          rw [shift_length hl2, (wr_eq_ok.1 hl1).2]
          simp
        · exfalso
          rw [(hconst hs).1] at hc
          apply hz
          cases p with
          | zero => cases hc; rfl
          | succ p => simp [rd] at hc

theorem remap_ok {k : Verif.Map.Kind K C} {v0 : V} {al : Bool} {o : Obj} {st : Store (Blk K V)}
    {m m' : Map K V} {r : Bool} (hw : st.WF) (hr : Rep k v0 o st m)
    (h : Verif.Map.remap k v0 al m = .ok (m', r)) :
    ∃ o' st', remap k v0 al o st = .ok ((o', r), st') ∧ Moves st st' o.mem o'.mem ∧
      Rep k v0 o' st' m' ∧ (r = true → m'.static = false) := by
  obtain ⟨hb, hv, hi⟩ := hr
  obtain ⟨mem, mem1, static, cap, size, lf, rm, used, oom, found⟩ := m
  simp only [Map.mk.injEq, true_and] at hv
  obtain ⟨rfl, rfl, rfl, rfl, rfl, rfl, rfl, rfl⟩ := hv
  dsimp only at hb
  unfold Verif.Map.remap at h
  unfold remap
  dsimp only at h ⊢
  by_cases h0 : o.size < o.remap
  · rw [if_pos h0] at h ⊢
    cases h
    refine ⟨o, st, rfl, .refl hw (load_valid hb), ⟨hb, rfl, hi⟩, fun _ => ?_⟩
    cases hp : o.mem with
    | some i => rfl
    | none => have := hi hp; omega
  · rw [if_neg h0] at h ⊢
    unfold Verif.Map.alloc at h
    unfold alloc
    cases hc : allocCap o.cap 2 with
    | none =>
      rw [hc] at h
      cases h
      exact ⟨o, st, rfl, .refl hw (load_valid hb), ⟨hb, rfl, hi⟩, fun h => (by cases h)⟩
    | some c =>
      rw [hc] at h
      cases al with
      | false =>
        cases h
        exact ⟨o, st, rfl, .refl hw (load_valid hb), ⟨hb, rfl, hi⟩, fun h => (by cases h)⟩
      | true =>
        dsimp only [if_true] at h ⊢
        obtain ⟨hma, hla⟩ := alloc_ok (emptyItems k v0)
          ((zeroItem k v0, List.replicate c (zeroItem k v0)) : Blk K V) hw
        by_cases hlen : mem.length < o.cap
        · simp only [if_true, if_pos hlen] at h
          cases h
        · simp only [if_true, if_neg hlen] at h
          obtain ⟨new, hn, h⟩ := Res.bind_eq_ok.1 h
          cases h
          obtain ⟨hb1, -⟩ := replace_ok hb hma
          obtain ⟨st1, hs1, hm1, hl1⟩ := storeM_ok
            (c := ((zeroItem k v0, new) : Blk K V)) hma.wf hla (rehash_length hn)
          have hma1 := hma.trans hm1
          simp only [if_true, hb1, hla, Res.ok_bind, if_neg hlen, hn, hs1]
          cases hp : o.mem with
          | none =>
            rw [hp] at hb
            refine ⟨⟨some _, c, o.size, o.loadFac, remapOf c o.loadFac, o.used, o.oom, o.found⟩, st1,
              rfl, hma1, ⟨hl1, rfl, fun h => (by cases h)⟩, fun _ => trivial⟩
          | some j =>
            rw [hp] at hb
            obtain ⟨hb2, -⟩ := replace_ok hb hma1
            obtain ⟨st2, hs2, hm2, hl2⟩ := storeM_ok
              (c := ((mem1, new) : Blk K V)) hm1.wf hl1 rfl
            obtain ⟨-, st3, hf, hm3, hl3⟩ := replace_ok hb (hma1.trans hm2)
            rw [hl2] at hl3
            refine ⟨⟨some _, c, o.size, o.loadFac, remapOf c o.loadFac, o.used, o.oom, o.found⟩, st3,
              ?_, hm3, ⟨hl3, rfl, fun h => (by cases h)⟩, fun _ => trivial⟩
            simp only [hb2, hl1, hs2, hf, Res.ok_bind]

theorem putRest_keeps {k : Verif.Map.Kind K C} {v0 : V} {key : K} {value v : V} {m m' : Map K V}
    (hs : m.static = false) (h : putRest k v0 key value m = .ok (m', v)) :
    Keeps (putRest k v0 key value) m m' := by
  simp only [putRest] at h
  split at h
  · cases h
    exact ⟨rfl, rfl, fun h => (by rw [hs] at h; cases h)⟩
  · obtain ⟨p, _, h⟩ := Res.bind_eq_ok.1 h
    obtain ⟨c, _, h⟩ := Res.bind_eq_ok.1 h
    obtain ⟨l, hl, h⟩ := Res.bind_eq_ok.1 h
    cases h
    refine ⟨?_, rfl, fun h => (by rw [hs] at h; cases h)⟩
    show l.length = _
    rw [(wr_eq_ok.1 hl).2]
    simp

theorem put_ok {k : Verif.Map.Kind K C} {v0 : V} {al : Bool} {o : Obj} {key : K} {value v : V}
    {st : Store (Blk K V)} {m m' : Map K V} (hw : st.WF) (hr : Rep k v0 o st m)
    (h : Verif.Map.put k v0 al m key value = .ok (m', v)) :
    ∃ o' st', put k v0 al o key value st = .ok ((o', v), st') ∧ Moves st st' o.mem o'.mem ∧
      Rep k v0 o' st' m' ∧ o'.found = m'.found ∧ o'.oom = m'.oom := by
  obtain ⟨⟨m1, ok⟩, h1, h⟩ := Res.bind_eq_ok.1 h
  have hr0 : Rep k v0 { o with oom := false } st { m with oom := false } := by
    obtain ⟨hb, hv, hi⟩ := hr
    refine ⟨hb, ?_, hi⟩
    dsimp only
    rw [← hv]
  obtain ⟨o1, st1, e1, mv1, r1, hs1⟩ := remap_ok hw hr0 h1
  cases ok with
  | false =>
    cases h
    obtain ⟨hb, hv, hi⟩ := r1
    refine ⟨{ o1 with oom := true }, st1, ?_, mv1, ⟨hb, ?_, hi⟩, ?_, rfl⟩
    · simp only [put, e1, Res.ok_bind]
      rfl
    · dsimp only; rw [← hv]
    · dsimp only; rw [← hv]
  | true =>
    have h : putRest k v0 key value m1 = .ok (m', v) := h
    obtain ⟨o2, st2, e2, mv2, r2, f2, g2⟩ := keep_ok mv1.wf r1 h (putRest_keeps (hs1 rfl) h)
    refine ⟨o2, st2, ?_, mv1.trans mv2, r2, f2, g2⟩
    simp only [put, e1, Res.ok_bind]
    exact e2

theorem step_ok {k : Verif.Map.Kind K C} {v0 : V} {o : Obj} {op : Op K V} {st : Store (Blk K V)}
    {m m' : Map K V} {out : Out V} (hw : st.WF) (hr : Rep k v0 o st m)
    (h : Verif.Map.step k v0 m op = .ok (m', out)) :
    ∃ o' st', step k v0 o op st = .ok ((o', out), st') ∧ Moves st st' o.mem o'.mem ∧
      Rep k v0 o' st' m' := by
  by_cases h1 : ∃ a b c, op = .put a b c
  · obtain ⟨a, b, c, rfl⟩ := h1
    obtain ⟨⟨m1, r⟩, hp, h⟩ := Res.bind_eq_ok.1 h
    cases h
    obtain ⟨o', st', e1, mv, hr', f, g⟩ := put_ok hw hr hp
    exact ⟨o', st', by simp only [step, e1, Res.ok_bind, f, g], mv, hr'⟩
  · have hk := step_ok_keep (fun a b c e => h1 ⟨a, b, c, e⟩) hr h
    obtain ⟨o', st', e1, mv, hr', _⟩ := keep_ok hw hr h hk
    refine ⟨o', st', ?_, mv, hr'⟩
    cases op with
    | put a b c => exact absurd ⟨a, b, c, rfl⟩ h1
    | _ => exact e1

theorem init_ok {k : Verif.Map.Kind K C} {v0 : V} {al : Bool} {g : Bool × Bool} {cap lf : Nat}
    {st : Store (Blk K V)} (hw : st.WF) :
    Moves st (init k v0 al g cap lf st).2 none ((init k v0 al g cap lf st).1.bind (·.mem)) ∧
    Both (fun o m => Rep k v0 o (init k v0 al g cap lf st).2 m) (init k v0 al g cap lf st).1
      (Verif.Map.init k v0 al g cap lf) := by
  have hrefl : Moves st st none none := .refl hw (fun _ hi => (by cases hi))
  unfold init Verif.Map.init
  dsimp only
  generalize (if lf = 0 then 75 else lf) = f
  by_cases h1 : f > 95 ∨ f < 25
  · simp only [if_pos h1]
    exact ⟨hrefl, trivial⟩
  · simp only [if_neg h1]
    by_cases h2 : cap = 0
    · simp only [if_pos h2]
      exact ⟨hrefl, rfl, rfl, fun _ => ⟨rfl, rfl, rfl⟩⟩
    · simp only [if_neg h2]
      unfold alloc Verif.Map.alloc
      cases hc : allocCap cap 1 with
      | none => exact ⟨hrefl, trivial⟩
      | some c =>
        cases al with
        | false => exact ⟨hrefl, trivial⟩
        | true =>
          obtain ⟨hm, hl⟩ := alloc_ok (emptyItems k v0)
            ((zeroItem k v0, List.replicate c (zeroItem k v0)) : Blk K V) hw
          exact ⟨hm, hl, rfl, fun h => (by cases h)⟩

theorem term_ok {null : Blk K V} {o : Obj} {st : Store (Blk K V)} {b : Blk K V} (hw : st.WF)
    (hb : load null o.mem st = .ok b) :
    ∃ o' st', term o st = .ok (o', st') ∧ o'.mem = none ∧ Moves st st' o.mem none := by
  cases hp : o.mem with
  | none => exact ⟨o, st, by simp [term, hp], hp, .refl hw (fun _ hi => (by cases hi))⟩
  | some i =>
    rw [hp] at hb
    obtain ⟨st', hf, hm⟩ := free_ok hw hb
    exact ⟨⟨none, 1, 0, 0, 0, false, false, false⟩, st',
      by simp only [term, hp, hf, Res.ok_bind], rfl, hm⟩

/-- Maps take memory for themselves only, and give back all they no longer use; the constant
they share when they are empty is neither written nor given back. -/
theorem kind_sound (k : Verif.Map.Kind K C) (v0 : V) : (kind k v0).Sound where
  init a st r hw h := by
    cases h
    obtain ⟨hm, hb⟩ := init_ok (k := k) (v0 := v0) (al := a.1.1) (g := a.1.2) (cap := a.2.1)
      (lf := a.2.2) hw
    exact ⟨_, _, rfl, hm, hb.mono fun _ _ h => ⟨_, h⟩⟩
  step o op st v v' out hw hr h := by
    obtain ⟨b, hb, hv, hi⟩ := hr
    cases hv
    obtain ⟨o', st', h1, h2, h3⟩ := step_ok (k := k) (v0 := v0) (o := o) (m := Obj.view o b) hw
      ⟨hb, rfl, hi⟩ h
    exact ⟨o', st', h1, h2, _, h3⟩
  term o st v hw hr := by
    obtain ⟨b, hb, hv, -⟩ := hr
    exact term_ok hw hb

end Verif.Memory.Map
