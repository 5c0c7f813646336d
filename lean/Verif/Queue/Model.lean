import Verif.Basic

/-! # Model of `queue/sc_queue.h` -/

namespace Verif.Queue

/-- `struct sc_queue_##name`, queue/sc_queue.h:55-63. `elems` is the memory block (empty
for NULL). -/
structure Q (α : Type) where
  oom : Bool
  cap : Nat
  first : Nat
  last : Nat
  elems : List α

/-- The cells `off .. off+n-1` of a block, as `memcpy` reads them. -/
def slice (m : List α) (off n : Nat) : Res (List α) :=
  if off + n ≤ m.length then .ok ((m.drop off).take n) else .ub

/-- A `calloc`ed block of `n` cells. -/
def fresh (n : Nat) (fill : Nat → α) : List α := List.ofFn (n := n) fun i => fill i.val

/-- Overwrite the block from cell `off` with `xs`, as `memcpy` does. -/
def blit (m : List α) (off : Nat) (xs : List α) : Res (List α) :=
  if off + xs.length ≤ m.length then
    .ok (m.take off ++ xs ++ m.drop (off + xs.length))
  else .ub

/-- `sc_queue_expand`, queue/sc_queue.h:65-95, with `SC_QUEUE_MAX = SIZE_MAX` (51-53). The
byte offsets `_len`, `_off` are element counts here: the block holds `cap` elements, so
`cap * sizeof` is representable. `calloc` itself refuses a product that overflows. -/
def expand (al : Alloc α) (q : Q α) : Res (Q α) :=
  let pos := add64 q.last 1 &&& sub64 q.cap 1
  if pos = q.first then
    if q.cap > SIZE_MAX / 2 then
      .ok { q with oom := true }
    else
      let cap := mul64 q.cap 2
      match al with
      | none => .ok { q with oom := true }
      | some fill => do
        let len := sub64 q.cap q.first
        let off := q.first
        let head ← slice q.elems off len
        let dst ← blit (fresh cap fill) 0 head
        let tail ← slice q.elems 0 off
        let dst ← blit dst len tail
        return { oom := false, last := sub64 q.cap 1, first := 0, cap := cap, elems := dst }
  else .ok q

/-- `sc_queue_init`, queue/sc_queue.h:101-111. -/
def init (al : Alloc α) : Q α :=
  match al with
  | none => { oom := true, cap := 8, first := 0, last := 0, elems := [] }
  | some fill => { oom := false, cap := 8, first := 0, last := 0, elems := fresh 8 fill }

/-- `sc_queue_term`, queue/sc_queue.h:117-125. -/
def term (_ : Q α) : Q α := { oom := false, cap := 0, first := 0, last := 0, elems := [] }

/-- `sc_queue_size`, queue/sc_queue.h:137. -/
def size (q : Q α) : Nat := sub64 q.last q.first &&& sub64 q.cap 1

/-- `sc_queue_clear`, queue/sc_queue.h:143-148. -/
def clear (q : Q α) : Q α := { q with first := 0, last := 0, oom := false }

/-- `sc_queue_empty`, queue/sc_queue.h:154. -/
def empty (q : Q α) : Bool := q.last == q.first

/-- `sc_queue_next`, queue/sc_queue.h:174. -/
def next (q : Q α) (i : Nat) : Nat := add64 i 1 &&& sub64 q.cap 1

/-- `sc_queue_at`, queue/sc_queue.h:186. -/
def «at» (q : Q α) (i : Nat) : Res α := rd q.elems (add64 q.first i &&& sub64 q.cap 1)

/-- `sc_queue_peek_first`, queue/sc_queue.h:192. -/
def peekFirst (q : Q α) : Res α := rd q.elems q.first

/-- `sc_queue_peek_last`, queue/sc_queue.h:198. -/
def peekLast (q : Q α) : Res α := rd q.elems (sub64 q.last 1 &&& sub64 q.cap 1)

/-- `sc_queue_add_last`, queue/sc_queue.h:206-215. -/
def addLast (al : Alloc α) (q : Q α) (x : α) : Res (Q α) := do
  let q ← expand al q
  if q.oom then return q
  let elems ← wr q.elems q.last x
  return { q with oom := false, elems := elems, last := add64 q.last 1 &&& sub64 q.cap 1 }

/-- `sc_queue_del_last`, queue/sc_queue.h:222-223. -/
def delLast (q : Q α) : Res (Q α × α) := do
  let last := sub64 q.last 1 &&& sub64 q.cap 1
  let x ← rd q.elems last
  return ({ q with last := last }, x)

/-- `sc_queue_add_first`, queue/sc_queue.h:231-240. -/
def addFirst (al : Alloc α) (q : Q α) (x : α) : Res (Q α) := do
  let q ← expand al q
  if q.oom then return q
  let first := sub64 q.first 1 &&& sub64 q.cap 1
  let elems ← wr q.elems first x
  return { q with oom := false, elems := elems, first := first }

/-- `sc_queue_del_first` with `sc_queue_inc_first`, queue/sc_queue.h:242-256. -/
def delFirst (q : Q α) : Res (Q α × α) := do
  let tmp := q.first
  let first := add64 q.first 1 &&& sub64 q.cap 1
  let x ← rd q.elems tmp
  return ({ q with first := first }, x)

/-- `sc_queue_foreach` with its body, queue/sc_queue.h:269-273: the outer loop with flag
`_k` and index `_i`. `body s e = (s', true)` is an iteration that ends with `break`.
Running out of `fuel` is reported as `ub` (the theorems show it does not happen). The body
is assumed not to modify the queue. -/
def foreachLoop (q : Q α) (body : σ → α → σ × Bool) :
    (fuel : Nat) → (k : Bool) → (i : Nat) → σ → Res σ
  | 0, _, _, _ => .ub
  | fuel + 1, k, i, s =>
    if k && i != q.last then do
      let e ← rd q.elems i
      let (s', brk) := body s e
      let k := if brk then k else !k
      foreachLoop q body fuel (!k) (next q i) s'
    else .ok s

/-- The whole loop, queue/sc_queue.h:269-273. -/
def foreach (q : Q α) (body : σ → α → σ × Bool) (s : σ) : Res σ :=
  foreachLoop q body (q.cap + 1) true q.first s

/-- The API calls that change a queue. -/
inductive Op (α : Type) where
  | addFirst (x : α) (al : Alloc α)
  | addLast (x : α) (al : Alloc α)
  | delFirst
  | delLast
  | clear

/-- One API call: the new state and the value it returns, if it returns one. -/
def step (q : Q α) : Op α → Res (Q α × Option α)
  | .addFirst x al => do let q ← addFirst al q x; return (q, none)
  | .addLast x al => do let q ← addLast al q x; return (q, none)
  | .delFirst => do let (q, x) ← delFirst q; return (q, some x)
  | .delLast => do let (q, x) ← delLast q; return (q, some x)
  | .clear => return (clear q, none)

/-- A history of API calls: the final state and the values returned. -/
def run (q : Q α) : List (Op α) → Res (Q α × List (Option α))
  | [] => .ok (q, [])
  | op :: ops => do
    let (q, r) ← step q op
    let (q, rs) ← run q ops
    return (q, r :: rs)

end Verif.Queue
