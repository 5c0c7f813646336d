import Verif.Basic

/-! # Model of `linked-list/sc_list.c` and `linked-list/sc_list.h` -/

namespace Verif.LList

/-- Addresses of `struct sc_list` objects. -/
abbrev Addr := Nat

/-- `struct sc_list`, linked-list/sc_list.h:40-43. -/
structure Node where
  next : Addr
  prev : Addr
  deriving Repr, DecidableEq

/-- Memory: which addresses hold an initialised `struct sc_list`, and its members.
Everything else (NULL, foreign or uninitialised memory) is `none`, and reading or writing
through such a pointer is undefined behaviour. -/
abbrev Heap := Addr → Option Node

/-- `p->next`. -/
def getNext (h : Heap) (p : Addr) : Res Addr :=
  match h p with
  | some n => .ok n.next
  | none => .ub

/-- `p->prev`. -/
def getPrev (h : Heap) (p : Addr) : Res Addr :=
  match h p with
  | some n => .ok n.prev
  | none => .ub

/-- `p->next = v`. -/
def setNext (h : Heap) (p v : Addr) : Res Heap :=
  match h p with
  | some n => .ok fun x => if x = p then some { n with next := v } else h x
  | none => .ub

/-- `p->prev = v`. -/
def setPrev (h : Heap) (p v : Addr) : Res Heap :=
  match h p with
  | some n => .ok fun x => if x = p then some { n with prev := v } else h x
  | none => .ub

/-- `sc_list_init`, linked-list/sc_list.c:34-38. The memory of `l` may be anything
before. -/
def init (h : Heap) (l : Addr) : Heap :=
  fun x => if x = l then some { next := l, prev := l } else h x

/-- `sc_list_del`, linked-list/sc_list.c:162-170. -/
def del (h : Heap) (elem : Addr) : Res Heap := do
  let p ← getPrev h elem
  let n ← getNext h elem
  let h ← setNext h p n
  let n ← getNext h elem
  let p ← getPrev h elem
  let h ← setPrev h n p
  let h ← setNext h elem elem
  setPrev h elem elem

/-- `sc_list_is_empty`, linked-list/sc_list.c:49-52. -/
def isEmpty (h : Heap) (l : Addr) : Res Bool := do
  let n ← getNext h l
  return decide (n = l)

/-- `sc_list_foreach` with its body, linked-list/sc_list.h:163-164, from element `e` on.
`body s e = (s', true)` is an iteration that ends with `break`. The body is assumed not to
modify the list. The loop has no bound of its own: `fuel` bounds the iterations of the
model and running out of it is `ub`. -/
def foreachFrom (h : Heap) (l : Addr) (body : σ → Addr → σ × Bool) :
    (fuel : Nat) → Addr → σ → Res σ
  | 0, _, _ => .ub
  | fuel + 1, e, s =>
    if e ≠ l then
      let (s', brk) := body s e
      if brk then .ok s' else do
        let n ← getNext h e
        foreachFrom h l body fuel n s'
    else .ok s

/-- `sc_list_foreach`, linked-list/sc_list.h:163-164. -/
def foreach (h : Heap) (l : Addr) (body : σ → Addr → σ × Bool) (fuel : Nat) (s : σ) : Res σ := do
  let e ← getNext h l
  foreachFrom h l body fuel e s

/-- `sc_list_foreach_r`, linked-list/sc_list.h:202-203, from element `e` on. -/
def foreachRFrom (h : Heap) (l : Addr) (body : σ → Addr → σ × Bool) :
    (fuel : Nat) → Addr → σ → Res σ
  | 0, _, _ => .ub
  | fuel + 1, e, s =>
    if e ≠ l then
      let (s', brk) := body s e
      if brk then .ok s' else do
        let n ← getPrev h e
        foreachRFrom h l body fuel n s'
    else .ok s

/-- `sc_list_foreach_r`, linked-list/sc_list.h:202-203. -/
def foreachR (h : Heap) (l : Addr) (body : σ → Addr → σ × Bool) (fuel : Nat) (s : σ) : Res σ := do
  let e ← getPrev h l
  foreachRFrom h l body fuel e s

/-- `sc_list_foreach_safe`, linked-list/sc_list.h:184-186, from the state `elem`, `n` on.
The body may change the memory. -/
def foreachSafeFrom (l : Addr) (body : σ → Addr → Heap → Res (σ × Heap × Bool)) :
    (fuel : Nat) → (elem n : Addr) → Heap → σ → Res (σ × Heap)
  | 0, _, _, _, _ => .ub
  | fuel + 1, elem, n, h, s =>
    if elem ≠ l then do
      let (s, h, brk) ← body s elem h
      if brk then return (s, h)
      else do
        let n' ← getNext h n
        foreachSafeFrom l body fuel n n' h s
    else .ok (s, h)

/-- `sc_list_foreach_safe`, linked-list/sc_list.h:184-186. -/
def foreachSafe (h : Heap) (l : Addr) (body : σ → Addr → Heap → Res (σ × Heap × Bool))
    (fuel : Nat) (s : σ) : Res (σ × Heap) := do
  let e ← getNext h l
  let n ← getNext h e
  foreachSafeFrom l body fuel e n h s

/-- `sc_list_foreach_safe_r`, linked-list/sc_list.h:225-227, from the state `elem`, `n`
on. -/
def foreachSafeRFrom (l : Addr) (body : σ → Addr → Heap → Res (σ × Heap × Bool)) :
    (fuel : Nat) → (elem n : Addr) → Heap → σ → Res (σ × Heap)
  | 0, _, _, _, _ => .ub
  | fuel + 1, elem, n, h, s =>
    if elem ≠ l then do
      let (s, h, brk) ← body s elem h
      if brk then return (s, h)
      else do
        let n' ← getPrev h n
        foreachSafeRFrom l body fuel n n' h s
    else .ok (s, h)

/-- `sc_list_foreach_safe_r`, linked-list/sc_list.h:225-227. -/
def foreachSafeR (h : Heap) (l : Addr) (body : σ → Addr → Heap → Res (σ × Heap × Bool))
    (fuel : Nat) (s : σ) : Res (σ × Heap) := do
  let e ← getPrev h l
  let n ← getPrev h e
  foreachSafeRFrom l body fuel e n h s

/-- `sc_list_clear`, linked-list/sc_list.c:40-47. -/
def clear (fuel : Nat) (h : Heap) (l : Addr) : Res Heap := do
  let (_, h) ← foreachSafe h l
    (fun (_ : Unit) e h => do let h ← del h e; return ((), h, false)) fuel ()
  return h

/-- `sc_list_count`, linked-list/sc_list.c:54-64. -/
def count (fuel : Nat) (h : Heap) (l : Addr) : Res Nat :=
  foreach h l (fun c _ => (add64 c 1, false)) fuel 0

/-- `sc_list_head`, linked-list/sc_list.c:66-69; `none` is NULL. -/
def head (h : Heap) (l : Addr) : Res (Option Addr) := do
  let n ← getNext h l
  return if n ≠ l then some n else none

/-- `sc_list_tail`, linked-list/sc_list.c:71-74. -/
def tail (h : Heap) (l : Addr) : Res (Option Addr) := do
  let n ← getPrev h l
  return if n ≠ l then some n else none

/-- `sc_list_add_tail`, linked-list/sc_list.c:76-88. -/
def addTail (h : Heap) (l elem : Addr) : Res Heap := do
  let h ← del h elem
  let prev ← getPrev h l
  let h ← setPrev h l elem
  let h ← setNext h elem l
  let h ← setPrev h elem prev
  setNext h prev elem

/-- `sc_list_pop_tail`, linked-list/sc_list.c:90-101. -/
def popTail (h : Heap) (l : Addr) : Res (Heap × Option Addr) := do
  let t ← getPrev h l
  let e ← isEmpty h l
  if e then return (h, none)
  let p ← getPrev h l
  let h ← del h p
  return (h, some t)

/-- `sc_list_add_head`, linked-list/sc_list.c:103-115. -/
def addHead (h : Heap) (l elem : Addr) : Res Heap := do
  let h ← del h elem
  let next ← getNext h l
  let h ← setNext h l elem
  let h ← setPrev h elem l
  let h ← setNext h elem next
  setPrev h next elem

/-- `sc_list_pop_head`, linked-list/sc_list.c:117-128. -/
def popHead (h : Heap) (l : Addr) : Res (Heap × Option Addr) := do
  let hd ← getNext h l
  let e ← isEmpty h l
  if e then return (h, none)
  let n ← getNext h l
  let h ← del h n
  return (h, some hd)

/-- `sc_list_add_after`, linked-list/sc_list.c:130-144. -/
def addAfter (h : Heap) (prev elem : Addr) : Res Heap := do
  let h ← del h elem
  let next ← getNext h prev
  let h ← setNext h prev elem
  let h ← setNext h elem next
  let h ← setPrev h elem prev
  setPrev h next elem

/-- `sc_list_add_before`, linked-list/sc_list.c:146-160. -/
def addBefore (h : Heap) (next elem : Addr) : Res Heap := do
  let h ← del h elem
  let prev ← getPrev h next
  let h ← setPrev h next elem
  let h ← setNext h elem next
  let h ← setPrev h elem prev
  setNext h prev elem

/-- The API calls. The list argument of `add_after`, `add_before` and `del` is ignored by
the C code; it is kept for the specification. -/
inductive Op where
  | init (l : Addr)
  | addHead (l e : Addr)
  | addTail (l e : Addr)
  | addAfter (l p e : Addr)
  | addBefore (l n e : Addr)
  | popHead (l : Addr)
  | popTail (l : Addr)
  | del (l e : Addr)
  | clear (l : Addr)

/-- One API call; pops return an element or NULL, the others nothing. -/
def step (fuel : Nat) (h : Heap) : Op → Res (Heap × Option Addr)
  | .init l => .ok (init h l, none)
  | .addHead l e => do let h ← addHead h l e; return (h, none)
  | .addTail l e => do let h ← addTail h l e; return (h, none)
  | .addAfter _ p e => do let h ← addAfter h p e; return (h, none)
  | .addBefore _ n e => do let h ← addBefore h n e; return (h, none)
  | .popHead l => popHead h l
  | .popTail l => popTail h l
  | .del _ e => do let h ← del h e; return (h, none)
  | .clear l => do let h ← clear fuel h l; return (h, none)

/-- A history of API calls. -/
def run (fuel : Nat) (h : Heap) : List Op → Res (Heap × List (Option Addr))
  | [] => .ok (h, [])
  | op :: ops => do
    let (h, r) ← step fuel h op
    let (h, rs) ← run fuel h ops
    return (h, r :: rs)

end Verif.LList
