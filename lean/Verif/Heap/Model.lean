import Verif.Basic

/-! # Model of `heap/sc_heap.c` -/

namespace Verif.Heap

/-- `struct sc_heap_data`, heap/sc_heap.h:48-51. Keys are only compared, so `int64_t` is
rendered as `Int`. `data` is an opaque pointer of any type. -/
structure Data (δ : Type) where
  key : Int
  data : δ
  deriving Repr, DecidableEq

/-- `struct sc_heap`, heap/sc_heap.h:53-57. `elems` is the memory block (empty for NULL); `size` is
what `sc_heap_size`, heap/sc_heap.c:70-73, returns. -/
structure Heap (δ : Type) where
  cap : Nat
  size : Nat
  elems : List (Data δ)
  deriving Repr, DecidableEq

/-- `sizeof(struct sc_heap_data)` on a 64-bit target. -/
abbrev esz : Nat := 16

/-- `SC_HEAP_MAX`, heap/sc_heap.c:36-38: `SIZE_MAX / 16`. -/
abbrev heapMax : Nat := 18446744073709551615 / 16

/-- `sc_heap_init`, heap/sc_heap.c:40-59. The result is the heap and the return value. -/
def init (cap : Nat) (al : Alloc (Data δ)) : Heap δ × Bool :=
  let sz := mul64 cap esz
  if cap = 0 then ({ cap := 0, size := 0, elems := [] }, true)
  else if cap > heapMax then ({ cap := 0, size := 0, elems := [] }, false)
  else match al with
    | none => ({ cap := 0, size := 0, elems := [] }, false)
    | some fill => ({ cap := cap, size := 0, elems := resized [] (sz / esz) fill }, true)

/-- `sc_heap_term`, heap/sc_heap.c:61-68. -/
def term (_ : Heap δ) : Heap δ := { cap := 0, size := 0, elems := [] }

/-- `sc_heap_clear`, heap/sc_heap.c:75-78. -/
def clear (h : Heap δ) : Heap δ := { h with size := 0 }

/-- The loop at heap/sc_heap.c:99-102: returns the block and the final index. Running out
of `fuel` is `ub`. -/
def siftUp (key : Int) : (fuel : Nat) → List (Data δ) → Nat → Res (List (Data δ) × Nat)
  | 0, _, _ => .ub
  | fuel + 1, m, i =>
    if i ≠ 1 then do
      let p ← rd m (i / 2)
      if key < p.key then do
        let m ← wr m i p
        siftUp key fuel m (i / 2)
      else .ok (m, i)
    else .ok (m, i)

/-- `sc_heap_add`, heap/sc_heap.c:80-108. Note that `size` is incremented before the
allocation and is not restored when it fails (85-92). The byte count `m` is computed with
64-bit wrap-around. -/
def add (al : Alloc (Data δ)) (h : Heap δ) (key : Int) (data : δ) : Res (Heap δ × Bool) :=
  let size := add64 h.size 1
  let place (h : Heap δ) : Res (Heap δ × Bool) := do
    let (m, i) ← siftUp key (h.size + 1) h.elems h.size
    let m ← wr m i { key := key, data := data }
    return ({ h with elems := m }, true)
  if size ≥ h.cap then
    let cap := if h.cap ≠ 0 then mul64 h.cap 2 else 4
    let m := mul64 (mul64 cap 2) esz
    if h.cap ≥ heapMax / 2 then .ok ({ h with size := size }, false)
    else match al with
      | none => .ok ({ h with size := size }, false)
      | some fill =>
        place { cap := cap, size := size, elems := resized h.elems (m / esz) fill }
  else place { h with size := size }

/-- `sc_heap_peek`, heap/sc_heap.c:110-118; the caller reads through the pointer. -/
def peek (h : Heap δ) : Res (Option (Data δ)) :=
  if h.size = 0 then .ok none
  else do let x ← rd h.elems 1; return some x

/-- The loop at heap/sc_heap.c:133-147: returns the block and the final index `i`. `n` is
`h->size` after the decrement, `lk` is `last.key`. Running out of `fuel` is `ub`. -/
def siftDown (n : Nat) (lk : Int) :
    (fuel : Nat) → List (Data δ) → (i child : Nat) → Res (List (Data δ) × Nat)
  | 0, _, _, _ => .ub
  | fuel + 1, m, i, child =>
    if child ≤ n then do
      let child ← (if child < n then do
          let a ← rd m child
          let b ← rd m (child + 1)
          if a.key > b.key then .ok (child + 1) else .ok child
        else .ok child)
      let c ← rd m child
      if lk ≤ c.key then .ok (m, i)
      else do
        let m ← wr m i c
        siftDown n lk fuel m child (mul64 child 2)
    else .ok (m, i)

/-- `sc_heap_pop`, heap/sc_heap.c:120-152; the caller reads through the returned pointer
`&elems[0]`. -/
def pop (h : Heap δ) : Res (Heap δ × Option (Data δ)) :=
  if h.size = 0 then .ok (h, none)
  else do
    let top ← rd h.elems 1
    let m ← wr h.elems 0 top
    let last ← rd m h.size
    let n := h.size - 1
    let (m, i) ← siftDown n last.key (n + 1) m 1 2
    let m ← wr m i last
    let r ← rd m 0
    return ({ h with size := n, elems := m }, some r)

/-- The API calls. -/
inductive Op (δ : Type) where
  | add (key : Int) (data : δ) (al : Alloc (Data δ))
  | pop
  | peek
  | clear

/-- What a call returns. -/
inductive Out (δ : Type) where
  | added (ok : Bool)
  | elem (e : Option (Data δ))
  | unit
  deriving Repr, DecidableEq

/-- One API call. -/
def step (h : Heap δ) : Op δ → Res (Heap δ × Out δ)
  | .add k d al => do let (h, b) ← add al h k d; return (h, .added b)
  | .pop => do let (h, e) ← pop h; return (h, .elem e)
  | .peek => do let e ← peek h; return (h, .elem e)
  | .clear => return (clear h, .unit)

/-- A history of API calls. -/
def run (h : Heap δ) : List (Op δ) → Res (Heap δ × List (Out δ))
  | [] => .ok (h, [])
  | op :: ops => do
    let (h, o) ← step h op
    let (h, os) ← run h ops
    return (h, o :: os)

end Verif.Heap
