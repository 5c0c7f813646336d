import Verif.Basic

/-! # Model of `map/sc_map.c` and `map/sc_map.h`

The C code is a macro instantiated for several key and value types. The model is
parametric in a `Kind`, which says how keys are compared and hashed. -/

namespace Verif.Map

/-- An instantiation of the macros of map/sc_map.c:40-83.

* `K` is the C key type (an integer, or a `const char *`), `zero` is the key `0`/`NULL`;
* `cls k` is what `cmp` compares: the key itself for scalars (`sc_map_eq`, 393), the
  content of the string for `const char *` (`sc_map_streq`, 394);
* `hash` is `hash_fn` (341-391), a function of `cls k` with values in `uint32_t`;
* `cached` tells the string variant (40-60), which stores the hash in the item, from the
  scalar variant (62-83). -/
structure Kind (K C : Type) where
  zero : K
  cls : K → C
  hash : C → Nat
  cached : Bool

/-- `struct sc_map_item_##name`, map/sc_map.h:50-63. The scalar variant has no `hash`
member; it is never read there. -/
structure Item (K V : Type) where
  key : K
  value : V
  hash : Nat
  deriving Repr, DecidableEq

/-- `struct sc_map_##name`, map/sc_map.h:67-77. `mem` are the cells `mem[0..]`, `mem1` is
`mem[-1]`. `static` tells that `mem` is the shared constant `empty_items`
(map/sc_map.c:87-91). -/
structure Map (K V : Type) where
  mem : List (Item K V)
  mem1 : Item K V
  static : Bool
  cap : Nat
  size : Nat
  loadFac : Nat
  remap : Nat
  used : Bool
  oom : Bool
  found : Bool
  deriving Repr, DecidableEq

section
variable {K C V : Type} [DecidableEq K] [DecidableEq C]

/-- `sc_map_cmp_##name`, map/sc_map.c:41-45 and 63-68. -/
def Kind.cmp (k : Kind K C) (t : Item K V) (key : K) (h : Nat) : Bool :=
  if k.cached then t.hash == h && k.cls t.key == k.cls key
  else k.cls t.key == k.cls key

/-- `sc_map_assign_##name`, map/sc_map.c:47-53 and 70-76. -/
def Kind.assign (k : Kind K C) (t : Item K V) (key : K) (value : V) (h : Nat) : Item K V :=
  if k.cached then { key := key, value := value, hash := h }
  else { t with key := key, value := value }

/-- `sc_map_hashof_##name`, map/sc_map.c:55-58 and 78-81. -/
def Kind.hashof (k : Kind K C) (t : Item K V) : Nat :=
  if k.cached then t.hash else k.hash (k.cls t.key)

/-- Unsigned 32-bit subtraction. -/
def sub32 (a b : Nat) : Nat := (a + W32 - b) % W32
/-- Unsigned 32-bit addition. -/
def add32 (a b : Nat) : Nat := (a + b) % W32

/-- A zeroed item. `v0` is the value `0`. -/
def zeroItem (k : Kind K C) (v0 : V) : Item K V := { key := k.zero, value := v0, hash := 0 }

/-- The loop "find next power of two", map/sc_map.c:102-108, on `uint32_t`. -/
def nextPow2 (v : Nat) : Nat :=
  let v := sub32 v 1
  let v := v ||| (v >>> 1)
  let v := v ||| (v >>> 2)
  let v := v ||| (v >>> 4)
  let v := v ||| (v >>> 8)
  let v := v ||| (v >>> 16)
  add32 v 1

/-- The capacity `sc_map_alloc_##name` computes, or `none` when it refuses,
map/sc_map.c:93-110, with `SC_MAP_MAX = UINT32_MAX`. -/
def allocCap (cap factor : Nat) : Option Nat :=
  if cap > 4294967295 / factor then none
  else some (nextPow2 (if cap < 8 then 8 else (cap * factor) % W32))

/-- `sc_map_alloc_##name`, map/sc_map.c:93-113: the new capacity and zeroed cells
`mem[0..cap-1]` (cell `mem[-1]` is zeroed too). `al` is the outcome of `calloc`. -/
def alloc (k : Kind K C) (v0 : V) (al : Bool) (cap factor : Nat) :
    Option (Nat × List (Item K V)) :=
  match allocCap cap factor with
  | none => none
  | some c => if al then some (c, List.replicate c (zeroItem k v0)) else none

/-- `(uint32_t) (cap * ((double) load_fac / 100))`, map/sc_map.c:141 and 210. For a
capacity 2^k ≤ 2^31 and 25 ≤ load_fac ≤ 95 the double computation is exact after
truncation: multiplication by 2^k is exact, the quotient is off by less than 2^-53, and
2^k * load_fac / 100 is either an integer (load_fac 25, 50, 75, for which the quotient is
exact) or at least 1/25 away from one. This is proved: `Verif.Flt.remap_double`. -/
def remapOf (cap loadFac : Nat) : Nat := cap * loadFac / 100

/-- `sc_map_empty_##name`, map/sc_map.c:87-91. -/
def emptyMap (k : Kind K C) (v0 : V) : Map K V :=
  { mem := [zeroItem k v0], mem1 := zeroItem k v0, static := true, cap := 1, size := 0,
    loadFac := 0, remap := 0, used := false, oom := false, found := false }

/-- `sc_map_init_##name`, map/sc_map.c:115-144: `none` for `false`. When `cap > 0` the
members `oom` and `found` are not initialised; they keep the values `g` the memory had. -/
def init (k : Kind K C) (v0 : V) (al : Bool) (g : Bool × Bool) (cap loadFac : Nat) :
    Option (Map K V) :=
  let f := if loadFac = 0 then 75 else loadFac
  if f > 95 ∨ f < 25 then none
  else if cap = 0 then some { emptyMap k v0 with loadFac := f }
  else match alloc k v0 al cap 1 with
    | none => none
    | some (c, t) => some
      { mem := t, mem1 := zeroItem k v0, static := false, cap := c, size := 0, loadFac := f,
        remap := remapOf c f, used := false, oom := g.1, found := g.2 }

/-- `sc_map_term_##name`, map/sc_map.c:146-152. -/
def term (k : Kind K C) (v0 : V) (m : Map K V) : Map K V :=
  if m.static then m else emptyMap k v0

/-- `sc_map_clear_##name`, map/sc_map.c:159-169. -/
def clear (k : Kind K C) (m : Map K V) : Map K V :=
  if m.size > 0 then
    { m with mem := m.mem.map (fun t => { t with key := k.zero }), used := false, size := 0 }
  else m

/-- The inner loop of the remap, map/sc_map.c:192-199: find a free cell from `pos` on and
store the item. Running out of `fuel` is `ub`. -/
def insertFree (k : Kind K C) (mod : Nat) (t : Item K V) :
    (fuel : Nat) → List (Item K V) → (pos : Nat) → Res (List (Item K V))
  | 0, _, _ => .ub
  | fuel + 1, new, pos => do
    let c ← rd new pos
    if c.key = k.zero then wr new pos t
    else insertFree k mod t fuel new (add32 pos 1 &&& mod)

/-- The outer loop of the remap, map/sc_map.c:188-201. -/
def rehash (k : Kind K C) (cap mod : Nat) :
    List (Item K V) → List (Item K V) → Res (List (Item K V))
  | [], new => .ok new
  | t :: ts, new =>
    if t.key ≠ k.zero then do
      let new ← insertFree k mod t cap new (k.hashof t &&& mod)
      rehash k cap mod ts new
    else rehash k cap mod ts new

/-- `sc_map_remap_##name`, map/sc_map.c:171-213: the new map, and the return value. -/
def remap (k : Kind K C) (v0 : V) (al : Bool) (m : Map K V) : Res (Map K V × Bool) :=
  if m.size < m.remap then .ok (m, true)
  else match alloc k v0 al m.cap 2 with
    | none => .ok (m, false)
    | some (cap, new) => do
      let mod := sub32 cap 1
      -- `for (i = 0; i < m->cap; i++)` reads the cells below `cap`
      if m.mem.length < m.cap then .ub
      else do
        let new ← rehash k cap mod (m.mem.take m.cap) new
        return ({ m with
          mem := new
          mem1 := if m.static then zeroItem k v0 else m.mem1
          static := false
          cap := cap
          remap := remapOf cap m.loadFac }, true)

/-- The probe loops of get, put and del, map/sc_map.c:241-247, 271-278, 303-310: the first
cell from `pos` on that is free or holds the key. Running out of `fuel` is `ub`. -/
def probe (k : Kind K C) (mod : Nat) (key : K) (h : Nat) :
    (fuel : Nat) → List (Item K V) → (pos : Nat) → Res Nat
  | 0, _, _ => .ub
  | fuel + 1, mem, pos => do
    let c ← rd mem pos
    if c.key = k.zero then .ok pos
    else if !k.cmp c key h then probe k mod key h fuel mem (add32 pos 1 &&& mod)
    else .ok pos

/-- `sc_map_put_##name`, map/sc_map.c:215-255. -/
def put (k : Kind K C) (v0 : V) (al : Bool) (m : Map K V) (key : K) (value : V) :
    Res (Map K V × V) := do
  let m := { m with oom := false }
  let (m, ok) ← remap k v0 al m
  if !ok then return ({ m with oom := true }, v0)
  if key = k.zero then
    let ret := if m.used then m.mem1.value else v0
    return ({ m with
      found := m.used
      size := add32 m.size (if m.used then 0 else 1)
      used := true
      mem1 := { m.mem1 with value := value } }, ret)
  else
    let mod := sub32 m.cap 1
    let h := k.hash (k.cls key)
    let pos ← probe k mod key h (m.cap + 1) m.mem (h &&& mod)
    let c ← rd m.mem pos
    let size := if c.key = k.zero then add32 m.size 1 else m.size
    let found := decide (c.key ≠ k.zero)
    let ret := if found then c.value else v0
    let mem ← wr m.mem pos (k.assign c key value h)
    return ({ m with mem := mem, size := size, found := found }, ret)

/-- `sc_map_get_##name`, map/sc_map.c:258-283. -/
def get (k : Kind K C) (v0 : V) (m : Map K V) (key : K) : Res (Map K V × V) := do
  let mod := sub32 m.cap 1
  if key = k.zero then
    return ({ m with found := m.used }, if m.used then m.mem1.value else v0)
  else
    let h := k.hash (k.cls key)
    let pos ← probe k mod key h (m.cap + 1) m.mem (h &&& mod)
    let c ← rd m.mem pos
    if c.key = k.zero then return ({ m with found := false }, v0)
    else return ({ m with found := true }, c.value)

/-- The test at map/sc_map.c:328-329. -/
def shiftTest (p it prev : Nat) : Bool :=
  (decide (p > it) && (decide (p ≤ prev) || decide (it ≥ prev))) ||
  (decide (p ≤ prev) && decide (it ≥ prev))

/-- The backward-shift loop, map/sc_map.c:320-335. Running out of `fuel` is `ub`. -/
def shift (k : Kind K C) (mod : Nat) :
    (fuel : Nat) → List (Item K V) → (prev it : Nat) → Res (List (Item K V))
  | 0, _, _, _ => .ub
  | fuel + 1, mem, prev, it => do
    let it := add32 it 1 &&& mod
    let c ← rd mem it
    if c.key = k.zero then .ok mem
    else
      let p := k.hashof c &&& mod
      if shiftTest p it prev then do
        let mem ← wr mem prev c
        let mem ← wr mem it { c with key := k.zero }
        shift k mod fuel mem it it
      else shift k mod fuel mem prev it

/-- `sc_map_del_##name`, map/sc_map.c:286-339. -/
def del (k : Kind K C) (v0 : V) (m : Map K V) (key : K) : Res (Map K V × V) := do
  let mod := sub32 m.cap 1
  if key = k.zero then
    return ({ m with
      found := m.used
      size := sub32 m.size (if m.used then 1 else 0)
      used := false }, if m.used then m.mem1.value else v0)
  else
    let h := k.hash (k.cls key)
    let pos ← probe k mod key h (m.cap + 1) m.mem (h &&& mod)
    let c ← rd m.mem pos
    if c.key = k.zero then return ({ m with found := false }, v0)
    else
      let mem ← wr m.mem pos { c with key := k.zero }
      let mem ← shift k mod m.cap mem pos pos
      return ({ m with found := true, size := sub32 m.size 1, mem := mem }, c.value)

/-- Cell `_i` of the table for `-1 ≤ _i`; the loop index is shifted by one. -/
def cellAt (m : Map K V) (i : Nat) : Res (Item K V) :=
  match i with
  | 0 => .ok m.mem1
  | i + 1 => rd m.mem i

/-- `sc_map_foreach` with its body, map/sc_map.h:176-180. `i` is `_i + 1`, `b` is `_b` at
the head of the outer loop. `body s key value = (s', true)` is an iteration that ends with
`break`. The inner `for` runs the body at most once: its condition is
`_b && (cond) ? 1 : (_b = 0)` and its increment is `_b = 0`. -/
def foreachLoop (k : Kind K C) (m : Map K V) (body : σ → K → V → σ × Bool) :
    (fuel : Nat) → (b : Bool) → (i : Nat) → σ → Res σ
  | 0, _, _, _ => .ub
  | fuel + 1, b, i, s =>
    if !b && decide (i < m.cap + 1) then do
      let t ← cellAt m i
      if (decide (i = 0) && m.used) || decide (t.key ≠ k.zero) then
        let (s', brk) := body s t.key t.value
        foreachLoop k m body fuel brk (i + 1) s'
      else foreachLoop k m body fuel false (i + 1) s
    else .ok s

/-- `sc_map_foreach`, map/sc_map.h:176-180; `sc_map_foreach_key` (192-196) and
`sc_map_foreach_value` (208-212) are the same loop with a body that uses only one of the
two arguments. -/
def foreach (k : Kind K C) (m : Map K V) (body : σ → K → V → σ × Bool) (s : σ) : Res σ :=
  foreachLoop k m body (m.cap + 2) false 0 s

/-- The API calls. `al` is the outcome of `calloc`, should the call need it. -/
inductive Op (K V : Type) where
  | put (key : K) (value : V) (al : Bool)
  | get (key : K)
  | del (key : K)
  | clear

/-- What the caller sees after a call: the returned value, `sc_map_found`, `sc_map_oom`. -/
structure Out (V : Type) where
  value : Option V
  found : Bool
  oom : Bool
  deriving Repr, DecidableEq

/-- One API call. -/
def step (k : Kind K C) (v0 : V) (m : Map K V) : Op K V → Res (Map K V × Out V)
  | .put key v al => do
    let (m, r) ← put k v0 al m key v
    return (m, ⟨some r, m.found, m.oom⟩)
  | .get key => do
    let (m, r) ← get k v0 m key
    return (m, ⟨some r, m.found, m.oom⟩)
  | .del key => do
    let (m, r) ← del k v0 m key
    return (m, ⟨some r, m.found, m.oom⟩)
  | .clear => let m := clear k m; .ok (m, ⟨none, m.found, m.oom⟩)

/-- A history of API calls. -/
def run (k : Kind K C) (v0 : V) (m : Map K V) : List (Op K V) → Res (Map K V × List (Out V))
  | [] => .ok (m, [])
  | op :: ops => do
    let (m, o) ← step k v0 m op
    let (m, os) ← run k v0 m ops
    return (m, o :: os)

end

end Verif.Map
