import Verif.List.Props
import Verif.Map.Props

/-!
# A cache made of a map and a list

A program that keeps at most `max` entries and drops the one that was not used for longest. The map leads from keys to entries,
the list has the entries in the order of their last use; it goes through a `struct sc_list` inside of each entry. The program
is a client of linked-list/sc_list.c and map/sc_map.c: every access to the list and to the map is a call of the models.
-/

namespace Verif.Cache

open LList (Addr Heap)
open Map (Map Kind)

/-- The map (its values are pointers to entries, NULL is 0), the memory of `struct sc_list`s, the key and the value of each entry that
was allocated and not released, the address of the list, and the limit. -/
structure Cache (K V : Type) where
  m : Map K Addr
  h : Heap
  ents : Addr → Option (K × V)
  list : Addr
  max : Nat

section
variable {K C V : Type} [DecidableEq K] [DecidableEq C]

/-- Reading an entry: undefined after it was released. -/
def load (c : Cache K V) (a : Addr) : Res (K × V) :=
  match c.ents a with
  | some x => .ok x
  | none => .ub

/-- Writing an entry that was just allocated, or the value of another. -/
def store (c : Cache K V) (a : Addr) (x : K × V) : Cache K V :=
  { c with ents := fun y => if y = a then some x else c.ents y }

/-- `free(entry)`: the `struct sc_list` inside of it is gone too. -/
def free (c : Cache K V) (a : Addr) : Res (Cache K V) :=
  match c.ents a with
  | some _ => .ok { c with ents := fun y => if y = a then none else c.ents y, h := fun y => if y = a then none else c.h y }
  | none => .ub

/-- `e = sc_map_get(&m, key); if (!sc_map_found(&m)) return NULL; sc_list_add_head(&list, &e->l); return e->value;`,
map/sc_map.c:258-284, linked-list/sc_list.c:103-115. -/
def get (k : Kind K C) (c : Cache K V) (key : K) : Res (Cache K V × Option V) := do
  let (m, a) ← Map.get k 0 c.m key
  let c := { c with m := m }
  if m.found then do
    let x ← load c a
    let h ← LList.addHead c.h c.list a
    .ok ({ c with h := h }, some x.2)
  else .ok (c, none)

/-- `if (sc_map_size(&m) > max) { e = sc_list_pop_tail(&list); sc_map_del(&m, e->key); free(e); }`, linked-list/sc_list.c:90-101,
map/sc_map.c:286-338. -/
def evict (k : Kind K C) (c : Cache K V) : Res (Cache K V) :=
  if c.m.size > c.max then do
    let (h, t) ← LList.popTail c.h c.list
    match t with
    | none => .ub
    | some t => do
      let x ← load c t
      let (m, _) ← Map.del k 0 c.m x.1
      free { c with m := m, h := h } t
  else .ok c

/-- Storing a value: an entry that is there gets the value and goes to the front; otherwise a new one is made. `mem` is what
`malloc` returns, `al` whether the map gets memory if it needs some. Without memory nothing is changed.
`e = sc_map_get(..); if (found) { e->value = value; sc_list_add_head(..); return true; }`
`e = malloc(..); if (!e) return false; sc_map_put(&m, key, e); if (sc_map_oom(&m)) { free(e); return false; }`
`*e = ..; sc_list_init(&e->l); sc_list_add_head(&list, &e->l); evict(); return true;`, map/sc_map.c:215-256. -/
def put (k : Kind K C) (al : Bool) (mem : Option Addr) (c : Cache K V) (key : K) (v : V) : Res (Cache K V × Bool) := do
  let (m, a) ← Map.get k 0 c.m key
  let c := { c with m := m }
  if m.found then do
    let x ← load c a
    let h ← LList.addHead c.h c.list a
    .ok (store { c with h := h } a (x.1, v), true)
  else
    match mem with
    | none => .ok (c, false)
    | some a => do
      let (m, _) ← Map.put k 0 al c.m key a
      if m.oom then .ok ({ c with m := m }, false)
      else do
        let c := store { c with m := m } a (key, v)
        let h ← LList.addHead (LList.init c.h a) c.list a
        let c ← evict k { c with h := h }
        .ok (c, true)

/-- `e = sc_map_del(&m, key); if (!sc_map_found(&m)) return false; sc_list_del(&list, &e->l); free(e); return true;`,
map/sc_map.c:286-338, linked-list/sc_list.c:162-170. -/
def del (k : Kind K C) (c : Cache K V) (key : K) : Res (Cache K V × Bool) := do
  let (m, a) ← Map.del k 0 c.m key
  let c := { c with m := m }
  if m.found then do
    let h ← LList.del c.h a
    let c ← free { c with h := h } a
    .ok (c, true)
  else .ok (c, false)

/-- The calls of the cache. -/
inductive Op (K V : Type) where
  | get (key : K)
  | put (key : K) (v : V) (al : Bool) (mem : Option Addr)
  | del (key : K)

/-- What a caller is told. -/
inductive Out (V : Type) where
  | value (v : Option V)
  | done (b : Bool)
  deriving DecidableEq

def step (k : Kind K C) (c : Cache K V) : Op K V → Res (Cache K V × Out V)
  | .get key => do
    let (c, v) ← get k c key
    .ok (c, .value v)
  | .put key v al mem => do
    let (c, b) ← put k al mem c key v
    .ok (c, .done b)
  | .del key => do
    let (c, b) ← del k c key
    .ok (c, .done b)

/-- `malloc` returns memory that is not in use. -/
def Fresh (c : Cache K V) : Op K V → Prop
  | .put _ _ _ (some a) => c.ents a = none ∧ a ≠ c.list
  | _ => True

/-- Histories. -/
inductive Run (k : Kind K C) : Cache K V → List (Op K V) → List (Out V) → Cache K V → Prop
  | refl {c} : Run k c [] [] c
  | step {c c' c'' ops op outs out} : Run k c ops outs c' → Fresh c' op → step k c' op = .ok (c'', out) →
      Run k c (ops ++ [op]) (outs ++ [out]) c''

/-- A cache that was just made: `sc_map_init` succeeded, `sc_list_init` was called, there are no entries. -/
structure Started (k : Kind K C) (c : Cache K V) : Prop where
  map : ∃ al g cap lf, cap ≤ 2147483648 ∧ Map.init k 0 al g cap lf = some c.m
  list : ∃ h, c.h = LList.init h c.list
  ents : ∀ a, c.ents a = none

/-! ## Specification -/

/-- The entries, the one used last in front. -/
abbrev Entries (C V : Type) := List (C × V)

/-- The value of a key. -/
def lookup (q : Entries C V) (key : C) : Option V := (q.find? (·.1 = key)).map (·.2)

/-- The entries without that of a key. -/
def without (q : Entries C V) (key : C) : Entries C V := q.filter (·.1 ≠ key)

/-- A call of a cache that keeps the last `max` entries used. Storing may fail only if the key is new and there is no memory (or there
are 2^29 entries), and changes nothing then. -/
inductive Spec (max : Nat) (cls : K → C) : Entries C V → Op K V → Out V → Entries C V → Prop
  | hit {q key v} : lookup q (cls key) = some v → Spec max cls q (.get key) (.value (some v)) ((cls key, v) :: without q (cls key))
  | miss {q key} : lookup q (cls key) = none → Spec max cls q (.get key) (.value none) q
  | put {q key v al mem} : Spec max cls q (.put key v al mem) (.done true) (((cls key, v) :: without q (cls key)).take max)
  | fail {q key v al mem} : lookup q (cls key) = none → mem = none ∨ al = false ∨ 536870912 ≤ q.length →
      Spec max cls q (.put key v al mem) (.done false) q
  | del {q key} : Spec max cls q (.del key) (.done (lookup q (cls key)).isSome) (without q (cls key))

inductive SpecRun (max : Nat) (cls : K → C) : Entries C V → List (Op K V) → List (Out V) → Entries C V → Prop
  | refl {q} : SpecRun max cls q [] [] q
  | step {q q' q'' ops op outs out} : SpecRun max cls q ops outs q' → Spec max cls q' op out q'' →
      SpecRun max cls q (ops ++ [op]) (outs ++ [out]) q''

end

end Verif.Cache
