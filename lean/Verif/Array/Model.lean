import Verif.Basic

/-! # Model of `array/sc_array.h` -/

namespace Verif.Array

/-- `struct sc_array_##name`, array/sc_array.h:55-62. `elems` is the memory block
`elems` points to (empty for NULL); its length is what was allocated. -/
structure Arr (α : Type) where
  oom : Bool
  cap : Nat
  size : Nat
  elems : List α

/-- `sc_array_init`, array/sc_array.h:67-70. -/
def init : Arr α := { oom := false, cap := 0, size := 0, elems := [] }

/-- `sc_array_term`, array/sc_array.h:76-80 (the block is freed). -/
def term (_ : Arr α) : Arr α := init

/-- Number of elements the byte count `bytes` provides room for; `realloc` is called with
a byte count, so a wrapped multiplication would yield a block that is too small. -/
def room (bytes sz : Nat) : Nat := bytes / sz

/-- `sc_array_add`, array/sc_array.h:89-112, with `SC_ARRAY_MAX = SIZE_MAX`
(51-53). `sz` is `sizeof(*elems)`, `al` the outcome of `realloc`. The byte count
`_cap * sizeof` is computed with 64-bit wrap-around. -/
def add (sz : Nat) (al : Alloc α) (a : Arr α) (k : α) : Res (Arr α) :=
  let max := SIZE_MAX / sz
  if a.cap = a.size then
    if a.cap > max / 2 then
      .ok { a with oom := true }
    else
      let cap := if a.cap = 0 then 8 else mul64 a.cap 2
      match al with
      | none => .ok { a with oom := true }
      | some fill =>
        let elems := resized a.elems (room (mul64 cap sz) sz) fill
        do let elems ← wr elems a.size k
           return { oom := false, cap := cap, size := a.size + 1, elems := elems }
  else do
    let elems ← wr a.elems a.size k
    return { a with oom := false, size := a.size + 1, elems := elems }

/-- `sc_array_clear`, array/sc_array.h:118-122. -/
def clear (a : Arr α) : Arr α := { a with size := 0, oom := false }

/-- `sc_array_at`, array/sc_array.h:137. -/
def «at» (a : Arr α) (i : Nat) : Res α := rd a.elems i

/-- `memmove` of `cnt` cells from `src` to `dst` inside one block (out of bounds is
undefined). -/
def memmove (m : List α) (dst src cnt : Nat) : Res (List α) :=
  if src + cnt ≤ m.length ∧ dst + cnt ≤ m.length then
    .ok (m.take dst ++ (m.drop src).take cnt ++ m.drop (dst + cnt))
  else .ub

/-- `sc_array_del`, array/sc_array.h:149-160. -/
def del (a : Arr α) (idx : Nat) : Res (Arr α) := do
  cassert (idx < a.size)
  let cnt := a.size - idx - 1
  let elems ← if cnt > 0 then memmove a.elems idx (idx + 1) cnt else pure a.elems
  return { a with elems := elems, size := a.size - 1 }

/-- `sc_array_del_unordered`, array/sc_array.h:172-177. -/
def delUnordered (a : Arr α) (idx : Nat) : Res (Arr α) := do
  cassert (idx < a.size)
  let size := a.size - 1
  let x ← rd a.elems size
  let elems ← wr a.elems idx x
  return { a with elems := elems, size := size }

/-- `sc_array_del_last`, array/sc_array.h:183-187. -/
def delLast (a : Arr α) : Res (Arr α) := do
  cassert (a.size ≠ 0)
  return { a with size := a.size - 1 }

/-- `sc_array_last`, array/sc_array.h:201. -/
def last (a : Arr α) : Res α := rd a.elems (sub64 a.size 1)

/-- `sc_array_sort`, array/sc_array.h:194-195. `qsort` rearranges the first `size` cells
of the block; how is up to libc and the comparator, so it is an argument. -/
def sort (qsort : List α → List α) (a : Arr α) : Arr α :=
  { a with elems := qsort (a.elems.take a.size) ++ a.elems.drop a.size }

/-- `sc_array_foreach` with its body, array/sc_array.h:207-209: the outer loop with the
flag `_k` and index `_i`. `body s e = (s', true)` is an iteration that ends with `break`,
`(s', false)` one that falls through or continues. `fuel` bounds the iterations of the
model; running out of it is reported as `ub` (the theorems show it does not happen).
The body is assumed not to modify the array. -/
def foreachLoop (a : Arr α) (body : σ → α → σ × Bool) :
    (fuel : Nat) → (k : Bool) → (i : Nat) → σ → Res σ
  | 0, _, _, _ => .ub
  | fuel + 1, k, i, s =>
    if k && i != a.size then do
      -- inner loop: `for (elem = elems[_i]; _k; _k = !_k) body`
      let e ← rd a.elems i
      let (s', brk) := body s e
      let k := if brk then k else !k
      -- outer increment: `_k = !_k, _i++`
      foreachLoop a body fuel (!k) (i + 1) s'
    else .ok s

/-- The whole loop, array/sc_array.h:207-209. -/
def foreach (a : Arr α) (body : σ → α → σ × Bool) (s : σ) : Res σ :=
  foreachLoop a body (a.size + 1) true 0 s

/-- The API calls that change an array. -/
inductive Op (α : Type) where
  | add (k : α) (al : Alloc α)
  | del (i : Nat)
  | delUnordered (i : Nat)
  | delLast
  | clear

/-- One API call. -/
def step (sz : Nat) (a : Arr α) : Op α → Res (Arr α)
  | .add k al => add sz al a k
  | .del i => del a i
  | .delUnordered i => delUnordered a i
  | .delLast => delLast a
  | .clear => .ok (clear a)

/-- A history of API calls. -/
def run (sz : Nat) (a : Arr α) : List (Op α) → Res (Arr α)
  | [] => .ok a
  | op :: ops => do
    let a ← step sz a op
    run sz a ops

end Verif.Array
