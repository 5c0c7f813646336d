import Verif.Heap.Model
import Verif.Map.Lemmas

/-!
# Sizes of blocks of memory where `size_t` has fewer bits

The models of the containers are for systems with 64 bits. Here `size_t` has `w` bits, 32 on i386, ARM and 32-bit
Windows; only the arithmetic that leads to a request for memory is modelled, function by function. The
result is the capacity that is stored if the request succeeds, and the number of bytes asked for; `none` if none is
made.
-/

namespace Verif.Narrow

/-- Arithmetic of `size_t` -/
def wrap (w n : Nat) : Nat := n % 2 ^ w

/-- Arithmetic of `uint32_t` -/
def u32 (n : Nat) : Nat := n % 2 ^ 32

/-- A request for memory -/
structure Request where
  /-- the capacity from then on, in elements -/
  cap : Nat
  /-- the bytes asked for -/
  bytes : Nat
  deriving DecidableEq

/-- There is room for elements of `s` bytes with indices up to the capacity. -/
def Request.Enough (s : Nat) (r : Request) : Prop := r.cap * s ≤ r.bytes

instance (s : Nat) (r : Request) : Decidable (r.Enough s) := inferInstanceAs (Decidable (_ ≤ _))

theorem wrap_lt {w n : Nat} (h : n < 2 ^ w) : wrap w n = n := Nat.mod_eq_of_lt h

theorem le_div {a b s : Nat} (hs : 0 < s) (h : a ≤ b / s) : a * s ≤ b := (Nat.le_div_iff_mul_le hs).1 h

/-! ## The models -/

/-- `sc_array_add` when the array is full, array/sc_array.h:89-110 -/
def arrayGrow (w s cap : Nat) : Option Request :=
  let max := (2 ^ w - 1) / s
  if cap > max / 2 then none
  else
    let cap := if cap = 0 then 8 else wrap w (cap * 2)
    some ⟨cap, wrap w (cap * s)⟩

/-- `sc_queue_expand` when the queue is full, queue/sc_queue.h:64-81. `calloc` multiplies without
wrapping, or fails. -/
def queueGrow (w s cap : Nat) : Option Request :=
  if cap > (2 ^ w - 1) / 2 then none
  else
    let cap := wrap w (cap * 2)
    if cap * s < 2 ^ w then some ⟨cap, cap * s⟩ else none

/-- `SC_HEAP_MAX`, heap/sc_heap.c:37 -/
def heapMax (w s : Nat) : Nat := (2 ^ w - 1) / s

/-- `sc_heap_init`, heap/sc_heap.c:40-59 -/
def heapInit (w s cap : Nat) : Option Request :=
  let sz := wrap w (cap * s)
  if cap = 0 then none
  else if cap > heapMax w s then none
  else some ⟨cap, sz⟩

/-- `sc_heap_add` when the heap is full, heap/sc_heap.c:85-92 -/
def heapGrow (w s cap : Nat) : Option Request :=
  let new := if cap ≠ 0 then wrap w (cap * 2) else 4
  let m := wrap w (wrap w (new * 2) * s)
  if cap ≥ heapMax w s / 2 then none else some ⟨new, m⟩

/-- `expand`, timer/sc_timer.c:71-88: the capacity is that of the list, in timers. -/
def timerGrow (w s wheel : Nat) : Option Request :=
  let new := if wheel ≠ 0 then u32 (wheel * 2) else 4
  let cap := u32 (u32 (new * 16) * 2)
  let size := wrap w (cap * s)
  if wheel ≥ (2 ^ 32 - 1) / s / 16 / 2 then none else some ⟨cap, size⟩

/-- `SC_STR_MAX`, string/sc_str.c:61 -/
def strMax (w : Nat) : Nat := wrap w (2 ^ 32 - 1 - 4 - 1)

/-- `sc_str_bytes`, string/sc_str.c:58 -/
def strBytes (w n : Nat) : Nat := wrap w (wrap w (n + 4) + 1)

/-- `sc_str_create_len`, string/sc_str.c:75-86; the capacity is that of the whole block. -/
def strCreateLen (w len : Nat) : Option Request := some ⟨len + 5, strBytes w len⟩

/-- `sc_str_create`, string/sc_str.c:64-73 -/
def strCreate (w len : Nat) : Option Request := if len > strMax w then none else strCreateLen w (u32 len)

/-- `sc_str_append`, string/sc_str.c:208-226: `len` bytes are appended to `m`. -/
def strAppend (w m len : Nat) : Option Request :=
  let alloc := strBytes w (wrap w (m + len))
  if len > wrap w (strMax w + 2 ^ w - m) then none else some ⟨m + len + 5, alloc⟩

/-- `sc_buf_init`, buffer/sc_buf.c:42-58. The argument of `calloc` is converted to `size_t`. -/
def bufInit (w cap : Nat) : Option Request := if cap > 0 then some ⟨cap, wrap w cap⟩ else none

/-- `sc_buf_reserve`, buffer/sc_buf.c:98-122, with the fields `cap`, `wpos` and `limit` of a buffer that has its own memory.
They have 64 bits on every system; the argument of `realloc` is converted to `size_t`. -/
def bufReserve (w cap wpos limit len : Nat) : Option Request :=
  if (wpos + len) % 2 ^ 64 > cap then
    let size := (cap + len + 4095) % 2 ^ 64 / 4096 * 4096
    if size > limit ∨ cap ≥ 2 ^ 64 - 1 - 4096 - 4096 then none else some ⟨size, wrap w size⟩
  else none

/-! ## Containers that are right on every system -/

/-- **C151, arrays**: every element type of which eight elements can exist, every number of bits. -/
theorem array_sizes {w s cap : Nat} (hs : 0 < s) (h8 : 8 * s < 2 ^ w) {r : Request} (h : arrayGrow w s cap = some r) :
    r.Enough s ∧ cap < r.cap ∧ r.bytes = r.cap * s := by
  unfold arrayGrow at h
  simp only at h
  split at h
  · cases h
  · next hc =>
    have hp : 0 < 2 ^ w := Nat.pos_of_neZero _
    have h1 : cap * 2 ≤ (2 ^ w - 1) / s := by omega
    have h2 := le_div hs h1
    have h3 : cap * 2 ≤ cap * 2 * s := Nat.le_mul_of_pos_right _ hs
    cases h
    by_cases h0 : cap = 0
    · subst h0
      simp only [if_true, Request.Enough]
      rw [wrap_lt h8]
      omega
    · simp only [if_neg h0, Request.Enough]
      rw [wrap_lt (show cap * 2 < 2 ^ w by omega), wrap_lt (show cap * 2 * s < 2 ^ w by omega)]
      omega

/-- **C151, queues**, every number of bits -/
theorem queue_sizes {w s cap : Nat} {r : Request} (h : queueGrow w s cap = some r) :
    r.Enough s ∧ r.cap = 2 * cap ∧ r.bytes = r.cap * s := by
  unfold queueGrow at h
  simp only at h
  have hp : 0 < 2 ^ w := Nat.pos_of_neZero _
  split at h
  · cases h
  · split at h
    · cases h
      simp only [Request.Enough]
      rw [wrap_lt (show cap * 2 < 2 ^ w by omega)]
      exact ⟨Nat.le_refl _, Nat.mul_comm _ _, trivial⟩
    · cases h

/-- **C151, strings** that are made from others: 32 bits and more. -/
theorem str_sizes {w : Nat} (hw : 32 ≤ w) {len : Nat} {r : Request} (h : strCreate w len = some r) :
    r.Enough 1 ∧ r.bytes = len + 5 ∧ r.cap = len + 5 := by
  have hp : 2 ^ 32 ≤ 2 ^ w := Nat.pow_le_pow_right (by decide) hw
  have hm : strMax w = 2 ^ 32 - 6 := by unfold strMax; rw [wrap_lt (by omega)]
  unfold strCreate at h
  rw [hm] at h
  split at h
  · cases h
  · unfold strCreateLen at h
    cases h
    have h1 : u32 len = len := Nat.mod_eq_of_lt (by omega)
    unfold Request.Enough strBytes
    simp only [h1]
    rw [wrap_lt (show len + 4 < 2 ^ w by omega), wrap_lt (show len + 4 + 1 < 2 ^ w by omega)]
    exact ⟨by omega, rfl, trivial⟩

/-- **C151, appending** to a string that is not longer than `SC_STR_MAX`: 32 bits and more. -/
theorem append_sizes {w : Nat} (hw : 32 ≤ w) {m len : Nat} (hm : m ≤ 2 ^ 32 - 6) {r : Request} (h : strAppend w m len = some r) :
    r.Enough 1 ∧ r.bytes = m + len + 5 ∧ r.cap = m + len + 5 := by
  have hp : 2 ^ 32 ≤ 2 ^ w := Nat.pow_le_pow_right (by decide) hw
  have hM : strMax w = 2 ^ 32 - 6 := by unfold strMax; rw [wrap_lt (by omega)]
  unfold strAppend at h
  rw [hM] at h
  have h1 : wrap w (2 ^ 32 - 6 + 2 ^ w - m) = 2 ^ 32 - 6 - m := by
    unfold wrap
    rw [show 2 ^ 32 - 6 + 2 ^ w - m = (2 ^ 32 - 6 - m) + 2 ^ w by omega, Nat.add_mod_right]
    exact Nat.mod_eq_of_lt (by omega)
  rw [h1] at h
  simp only at h
  split at h
  · cases h
  · cases h
    unfold Request.Enough strBytes
    simp only
    rw [wrap_lt (show m + len < 2 ^ w by omega), wrap_lt (show m + len + 4 < 2 ^ w by omega),
      wrap_lt (show m + len + 4 + 1 < 2 ^ w by omega)]
    exact ⟨by omega, rfl, trivial⟩

/-! ## Heaps -/

theorem heapInit_sizes {w s cap : Nat} (hs : 0 < s) {r : Request} (h : heapInit w s cap = some r) :
    r.Enough s ∧ r.cap = cap := by
  unfold heapInit heapMax at h
  have hp : 0 < 2 ^ w := Nat.pos_of_neZero _
  simp only at h
  split at h
  · cases h
  · split at h
    · cases h
    · next hc =>
      cases h
      have := le_div hs (Nat.le_of_not_lt hc)
      simp only [Request.Enough]
      rw [wrap_lt (show cap * s < 2 ^ w by omega)]
      exact ⟨Nat.le_refl _, trivial⟩

/-- When a heap grows there is room exactly if four times the old capacity is not too many bytes, which nothing makes sure. -/
theorem heap_sizes_iff {w s cap : Nat} (hs : 0 < s) (hc : 0 < cap) {r : Request} (h : heapGrow w s cap = some r) :
    r.cap = 2 * cap ∧ (r.Enough s ↔ cap * 4 * s < 2 ^ w) := by
  unfold heapGrow heapMax at h
  have hp : 0 < 2 ^ w := Nat.pos_of_neZero _
  simp only at h
  split at h
  · cases h
  · next hg =>
    have h1 : cap * 2 ≤ (2 ^ w - 1) / s := by omega
    have h2 := le_div hs h1
    have h3 : cap * 2 ≤ cap * 2 * s := Nat.le_mul_of_pos_right _ hs
    cases h
    simp only [Request.Enough]
    rw [if_pos (by omega), wrap_lt (show cap * 2 < 2 ^ w by omega)]
    refine ⟨by omega, ?_⟩
    have hx : wrap w (wrap w (cap * 2 * 2) * s) = cap * 2 * 2 * s % 2 ^ w := by
      unfold wrap
      rw [Nat.mod_mul_mod]
    have e4 : cap * 2 * 2 * s = 2 * (cap * 2 * s) := by rw [Nat.mul_right_comm, Nat.mul_comm]
    have e4' : cap * 4 * s = 2 * (cap * 2 * s) := by rw [← e4, Nat.mul_assoc cap 2 2]
    rw [hx, e4, e4']
    generalize cap * 2 * s = b at h2 h3 ⊢
    have hb : 0 < b := by omega
    constructor
    · intro h
      by_cases hlt : 2 * b < 2 ^ w
      · exact hlt
      · exfalso
        rw [show 2 * b = (2 * b - 2 ^ w) + 2 ^ w by omega, Nat.add_mod_right, Nat.mod_eq_of_lt (by omega)] at h
        omega
    · intro h
      rw [Nat.mod_eq_of_lt h]
      omega

/-- **C151, heaps, in part**: below a quarter of the address space there is room. -/
theorem heap_sizes_partial {w s cap : Nat} (hs : 0 < s) (hc : 0 < cap) (h4 : cap * 4 * s < 2 ^ w) {r : Request}
    (h : heapGrow w s cap = some r) : r.Enough s :=
  (heap_sizes_iff hs hc h).2.2 h4

/-- **C151 is violated** by heaps: one made for 67108865 elements, which takes 1 GB on a 32-bit system, asks for 64 bytes when it is full,
and one that has grown by itself to 67108864 elements for none at all, and takes them for twice as many elements. On i386, where an element has
12 bytes and not 16, one made for 90000000 elements asks for 25 MB. -/
theorem heap_sizes_violated :
    heapInit 32 16 67108865 = some ⟨67108865, 1073741840⟩ ∧ heapGrow 32 16 67108865 = some ⟨134217730, 64⟩ ∧
    heapGrow 32 16 67108864 = some ⟨134217728, 0⟩ ∧ heapGrow 32 16 33554432 = some ⟨67108864, 2147483648⟩ ∧
    heapInit 32 12 90000000 = some ⟨90000000, 1080000000⟩ ∧ heapGrow 32 12 90000000 = some ⟨180000000, 25032704⟩ := by decide +kernel

/-- `sc_heap_add`, heap/sc_heap.c:80-108, as `Verif.Heap.add`, with `size_t` of `w` bits and elements of `s` bytes -/
def heapAdd (w s : Nat) (al : Alloc (Heap.Data δ)) (h : Heap.Heap δ) (key : Int) (data : δ) : Res (Heap.Heap δ × Bool) :=
  let size := wrap w (h.size + 1)
  let place (h : Heap.Heap δ) : Res (Heap.Heap δ × Bool) := do
    let (m, i) ← Heap.siftUp key (h.size + 1) h.elems h.size
    let m ← wr m i { key := key, data := data }
    return ({ h with elems := m }, true)
  if size ≥ h.cap then
    match heapGrow w s h.cap with
    | none => .ok ({ h with size := size }, false)
    | some r =>
      match al with
      | none => .ok ({ h with size := size }, false)
      | some fill => place { cap := r.cap, size := size, elems := resized h.elems (r.bytes / s) fill }
  else place { h with size := size }

/-- With 64 bits and elements of 16 bytes this is the model that the theorems on heaps are about. -/
theorem heapAdd_64 (al : Alloc (Heap.Data δ)) (h : Heap.Heap δ) (key : Int) (data : δ) :
    heapAdd 64 16 al h key data = Heap.add al h key data := by
  unfold heapAdd Heap.add heapGrow
  show (if wrap 64 (h.size + 1) ≥ h.cap then _ else _) = (if wrap 64 (h.size + 1) ≥ h.cap then _ else _)
  by_cases h1 : wrap 64 (h.size + 1) ≥ h.cap
  · rw [if_pos h1, if_pos h1]
    by_cases h2 : h.cap ≥ heapMax 64 16 / 2
    · rw [if_pos h2]
      exact (if_pos h2).symm
    · rw [if_neg h2]
      refine Eq.trans ?_ (if_neg h2).symm
      cases al <;> rfl
  · rw [if_neg h1, if_neg h1]
    rfl

/-- **C151 is violated** by heaps, seen by the caller: adding to a heap with 32 bits that was made for 67108865 elements and has all of them but one
is undefined, as soon as there are 64 bytes of memory. -/
theorem heap_add_violated (fill : Nat → Heap.Data δ) {h : Heap.Heap δ} (hc : h.cap = 67108865) (hs : h.size = 67108864) (key : Int) (data : δ) :
    heapAdd 32 16 (some fill) h key data = .ub := by
  unfold heapAdd
  have hw : wrap 32 (h.size + 1) = 67108865 := by rw [hs]; rfl
  have hg : heapGrow 32 16 67108865 = some ⟨134217730, 64⟩ := heap_sizes_violated.2.1
  simp only [hw, hc, hg]
  rw [if_pos (Nat.le_refl _)]
  have hr : ∀ n, Heap.siftUp key (n + 1) (resized h.elems (64 / 16) fill) 67108865 = .ub := by
    intro n
    unfold Heap.siftUp
    rw [if_pos (by decide)]
    unfold rd
    rw [List.getElem?_eq_none (by rw [length_resized]; decide)]
    rfl
  rw [hr]
  rfl

/-! ## Timers -/

/-- **C151, timers, in part**: 64 bits, timers of 16 to 24 bytes; and 32 bits, as long as there are less than 4194304 places per
wheel. -/
theorem timer_sizes_partial {w s wheel : Nat} (hs : 16 ≤ s) (hs' : s ≤ 24) (hw : 64 ≤ w ∨ w = 32 ∧ wheel < 4194304 ∧ (∃ k, wheel = 2 ^ k ∨ wheel = 0))
    {r : Request} (h : timerGrow w s wheel = some r) : r.Enough s ∧ r.cap = (if wheel = 0 then 4 else 2 * wheel) * 32 := by
  unfold timerGrow at h
  simp only at h
  split at h
  · cases h
  · next hg =>
    have hlt : wheel < 8388608 := by
      have : (2 ^ 32 - 1) / s / 16 / 2 ≤ 8388608 := by
        rw [Nat.div_div_eq_div_mul, Nat.div_div_eq_div_mul]
        refine Nat.le_trans (Nat.div_le_div_left (c := 16 * 16 * 2) ?_ (by decide)) (by decide)
        rw [Nat.mul_assoc]
        exact Nat.mul_le_mul_right _ hs
      omega
    cases h
    have e : u32 (u32 ((if wheel ≠ 0 then u32 (wheel * 2) else 4) * 16) * 2) = (if wheel = 0 then 4 else 2 * wheel) * 32 := by
      unfold u32
      by_cases h0 : wheel = 0
      · subst h0; rfl
      · rw [if_pos h0, if_neg h0]; omega
    simp only [Request.Enough]
    rw [e]
    refine ⟨?_, rfl⟩
    rw [wrap_lt]
    · exact Nat.le_refl _
    rcases hw with hw | ⟨rfl, hw, k, hk⟩
    · have hp : 2 ^ 64 ≤ 2 ^ w := Nat.pow_le_pow_right (by decide) hw
      refine Nat.lt_of_lt_of_le ?_ hp
      refine Nat.lt_of_le_of_lt (Nat.mul_le_mul_left _ hs') ?_
      split <;> omega
    · refine Nat.lt_of_le_of_lt (Nat.mul_le_mul_left _ hs') ?_
      split
      · omega
      · next h0 =>
        rcases hk with rfl | hk
        · have : k < 22 := (Nat.pow_lt_pow_iff_right (a := 2) (by decide)).1 (by rw [show (2 : Nat) ^ 22 = 4194304 by decide]; exact hw)
          have := Nat.pow_le_pow_right (n := 2) (by decide) (show k ≤ 21 by omega)
          have e21 : (2 : Nat) ^ 21 = 2097152 := by decide
          rw [e21] at this
          omega
        · exact absurd hk h0

/-- **C151 is violated** by timers: with 4194304 places per wheel on i386, where a timer has 20 bytes, the list is enlarged to 1 GB, less than
the 2.7 GB that it had, and is taken to have twice as many places. The sum of both is less than 4 GB. -/
theorem timer_sizes_violated : timerGrow 32 20 4194304 = some ⟨268435456, 1073741824⟩ ∧
    timerGrow 32 20 2097152 = some ⟨134217728, 2684354560⟩ ∧ 1073741824 + 2684354560 < 2 ^ 32 := by decide +kernel

/-! ## Buffers -/

/-- The room of a new buffer is what was asked for exactly if `size_t` can hold it. -/
theorem bufInit_sizes_iff {w cap : Nat} {r : Request} (h : bufInit w cap = some r) :
    0 < cap ∧ r.cap = cap ∧ (r.Enough 1 ↔ cap < 2 ^ w) := by
  unfold bufInit at h
  split at h
  · next hc =>
    cases h
    refine ⟨hc, rfl, ?_⟩
    simp only [Request.Enough, wrap, Nat.mul_one]
    have := Nat.mod_lt cap (Nat.pos_of_neZero (2 ^ w))
    constructor
    · intro h; omega
    · intro h; rw [Nat.mod_eq_of_lt h]; exact Nat.le_refl _
  · cases h

theorem bufReserve_sizes_iff {w cap wpos limit len : Nat} {r : Request} (h : bufReserve w cap wpos limit len = some r) :
    r.cap ≤ limit ∧ (r.Enough 1 ↔ r.cap < 2 ^ w) := by
  unfold bufReserve at h
  simp only at h
  split at h
  · split at h
    · cases h
    · next hc =>
      cases h
      simp only [Request.Enough, wrap, Nat.mul_one]
      refine ⟨by omega, ?_⟩
      generalize (cap + len + 4095) % 2 ^ 64 / 4096 * 4096 = x
      have := Nat.mod_lt x (Nat.pos_of_neZero (2 ^ w))
      constructor
      · intro h; omega
      · intro h; rw [Nat.mod_eq_of_lt h]; exact Nat.le_refl _
  · cases h

/-- **C151, buffers, in part**: 64 bits and more, or with a limit that `size_t` can hold. -/
theorem buf_sizes_partial {w cap wpos limit len : Nat} (hw : 64 ≤ w ∨ limit < 2 ^ w) {r : Request}
    (h : bufReserve w cap wpos limit len = some r) : r.Enough 1 := by
  obtain ⟨h1, h2⟩ := bufReserve_sizes_iff h
  refine h2.2 ?_
  rcases hw with hw | hw
  · have hp : 2 ^ 64 ≤ 2 ^ w := Nat.pow_le_pow_right (by decide) hw
    unfold bufReserve at h
    simp only at h
    split at h
    · split at h
      · cases h
      · cases h
        simp only
        omega
    · cases h
  · omega

/-- **C151 is violated** by buffers: `sc_buf_init(&b, 4294967312)` on a 32-bit system asks for 16 bytes and stores the capacity
4294967312, and `sc_buf_reserve(&b, 4294967297)` on an empty buffer asks for 4096 bytes. Both succeed. -/
theorem buf_sizes_violated : bufInit 32 4294967312 = some ⟨4294967312, 16⟩ ∧
    bufReserve 32 0 0 (2 ^ 64 - 1 - 4096) 4294967297 = some ⟨4294971392, 4096⟩ := by decide +kernel

/-! ## Maps -/

/-- `calloc` of `n` elements: it refuses what does not fit in a `size_t`, as the C standard demands. -/
def calloc (w n s cap : Nat) : Option Request := if n * s < 2 ^ w then some ⟨cap, n * s⟩ else none

/-- `sc_map_alloc_##name`, map/sc_map.c:93-113, for items of `s` bytes: `v + 1` is computed in `uint32_t`. The capacity here counts
the item before the first, `mem[-1]`. -/
def mapAlloc (w s cap factor : Nat) : Option Request :=
  match Map.allocCap cap factor with
  | none => none
  | some v => calloc w (u32 (v + 1)) s (v + 1)

/-- **C151** for maps: every request is large enough for the capacity and the item before the first, for every width of
`size_t`; the product is left to `calloc`. -/
theorem map_sizes {w s cap factor : Nat} (hc : cap < 2 ^ 32) {r : Request} (h : mapAlloc w s cap factor = some r) :
    r.Enough s ∧ ∃ v, Map.allocCap cap factor = some v ∧ r.cap = v + 1 ∧ (v = 0 ∨ 8 ≤ v ∧ v ≤ 2 ^ 31) := by
  unfold mapAlloc at h
  cases ha : Map.allocCap cap factor with
  | none => rw [ha] at h; cases h
  | some v =>
    rw [ha] at h
    simp only at h
    have hv : v = 0 ∨ 8 ≤ v ∧ v ≤ 2 ^ 31 := by
      unfold Map.allocCap at ha
      split at ha
      · cases ha
      · next hle =>
        injection ha with ha
        subst ha
        have key : ∀ x, 8 ≤ x → x < 4294967296 → Map.nextPow2 x = 0 ∨ 8 ≤ Map.nextPow2 x ∧ Map.nextPow2 x ≤ 2 ^ 31 := by
          intro x h1 h2
          by_cases hb : x ≤ 2147483648
          · obtain ⟨k, h3, h4, h5, h6⟩ := Map.nextPow2_spec (by omega) hb
            have := Nat.pow_le_pow_right (n := 2) (by omega) h5
            exact Or.inr (by omega)
          · exact Or.inl (Map.nextPow2_big (by omega) h2)
        split
        · exact key 8 (by omega) (by omega)
        · next h8 =>
          have hmul : cap * factor ≤ 4294967295 := by
            by_cases hf : factor = 0
            · subst hf; omega
            · exact le_div (by omega) (Nat.le_of_not_lt hle)
          by_cases hf : factor = 0
          · subst hf
            simp at hle
            omega
          · have : cap ≤ cap * factor := Nat.le_mul_of_pos_right _ (by omega)
            rw [Nat.mod_eq_of_lt (by omega)]
            exact key _ (by omega) (by omega)
    unfold calloc at h
    split at h
    · injection h with h
      subst h
      refine ⟨?_, v, rfl, rfl, hv⟩
      simp only [Request.Enough, u32]
      rw [Nat.mod_eq_of_lt (by omega)]
      exact Nat.le_refl _
    · cases h

/-! ## Nothing is refused that would fit -/

theorem div_lt_iff {a b s : Nat} (hs : 0 < s) : b / s < a ↔ b < a * s := Nat.div_lt_iff_lt_mul hs

/-- Arrays: only a block of at least `2 ^ w` bytes is refused. -/
theorem array_refused_iff {w s cap : Nat} (hs : 0 < s) : arrayGrow w s cap = none ↔ 2 ^ w ≤ 2 * cap * s := by
  have hp : 0 < 2 ^ w := Nat.pos_of_neZero _
  have h1 := div_lt_iff (a := 2 * cap) (b := 2 ^ w - 1) hs
  unfold arrayGrow
  simp only
  split
  · simp only [true_iff]
    omega
  · simp only [reduceCtorEq, false_iff]
    omega

/-- Queues: only a block of at least `2 ^ w` bytes is refused. -/
theorem queue_refused_iff {w s cap : Nat} (hs : 0 < s) : queueGrow w s cap = none ↔ 2 ^ w ≤ 2 * cap * s := by
  have hp : 0 < 2 ^ w := Nat.pos_of_neZero _
  have h3 : 2 * cap ≤ 2 * cap * s := Nat.le_mul_of_pos_right _ hs
  unfold queueGrow
  simp only
  split
  · simp only [true_iff]
    omega
  · rw [wrap_lt (show cap * 2 < 2 ^ w by omega), Nat.mul_comm cap 2]
    split
    · simp only [reduceCtorEq, false_iff]
      omega
    · simp only [true_iff]
      omega

/-- Strings: only a block of at least `2 ^ 32` bytes is refused. -/
theorem str_refused_iff {w : Nat} (hw : 32 ≤ w) {len : Nat} : strCreate w len = none ↔ 2 ^ 32 ≤ len + 5 := by
  have hp : 2 ^ 32 ≤ 2 ^ w := Nat.pow_le_pow_right (by decide) hw
  have hm : strMax w = 2 ^ 32 - 6 := by unfold strMax; rw [wrap_lt (by omega)]
  unfold strCreate
  rw [hm]
  split
  · simp only [true_iff]
    omega
  · simp only [strCreateLen, reduceCtorEq, false_iff]
    omega

/-- Appending: only a block of at least `2 ^ 32` bytes is refused. -/
theorem append_refused_iff {w : Nat} (hw : 32 ≤ w) {m len : Nat} (hm : m ≤ 2 ^ 32 - 6) :
    strAppend w m len = none ↔ 2 ^ 32 ≤ m + len + 5 := by
  have hp : 2 ^ 32 ≤ 2 ^ w := Nat.pow_le_pow_right (by decide) hw
  have hM : strMax w = 2 ^ 32 - 6 := by unfold strMax; rw [wrap_lt (by omega)]
  unfold strAppend
  rw [hM]
  have h1 : wrap w (2 ^ 32 - 6 + 2 ^ w - m) = 2 ^ 32 - 6 - m := by
    unfold wrap
    rw [show 2 ^ 32 - 6 + 2 ^ w - m = (2 ^ 32 - 6 - m) + 2 ^ w by omega, Nat.add_mod_right]
    exact Nat.mod_eq_of_lt (by omega)
  rw [h1]
  simp only
  split
  · simp only [true_iff]
    omega
  · simp only [reduceCtorEq, false_iff]
    omega

/-- `sc_heap_init`: nothing is asked for exactly if the capacity is 0 or the block would have at least `2 ^ w` bytes. -/
theorem heapInit_refused_iff {w s cap : Nat} (hs : 0 < s) : heapInit w s cap = none ↔ cap = 0 ∨ 2 ^ w ≤ cap * s := by
  have hp : 0 < 2 ^ w := Nat.pos_of_neZero _
  have h1 := div_lt_iff (a := cap) (b := 2 ^ w - 1) hs
  unfold heapInit heapMax
  simp only
  split
  · simp only [true_iff]
    omega
  · split
    · simp only [true_iff]
      omega
    · simp only [reduceCtorEq, false_iff]
      omega

/-- `sc_buf_init` asks for nothing exactly if the capacity is 0. -/
theorem bufInit_refused_iff {w cap : Nat} : bufInit w cap = none ↔ cap = 0 := by
  unfold bufInit
  split
  · simp only [reduceCtorEq, false_iff]
    omega
  · simp only [true_iff]
    omega

/-! ## Examples -/

example : arrayGrow 32 16 134217728 = none ∧ strCreate 32 4294967291 = none ∧ (strCreate 32 4294967290).isSome ∧
    heapInit 32 16 268435456 = none ∧ (heapInit 32 16 268435455).isSome := by decide +kernel

example : mapAlloc 32 16 0 1 = some ⟨9, 144⟩ ∧ mapAlloc 32 16 67108864 2 = some ⟨134217729, 2147483664⟩ ∧
    mapAlloc 32 16 134217728 2 = none ∧ mapAlloc 64 16 134217728 2 = some ⟨268435457, 4294967312⟩ := by decide +kernel

example : arrayGrow 32 16 8 = some ⟨16, 256⟩ ∧ arrayGrow 32 16 134217728 = none := by decide +kernel
example : queueGrow 32 16 67108864 = some ⟨134217728, 2147483648⟩ ∧ queueGrow 32 16 134217728 = none := by decide +kernel
example : strAppend 32 4294967280 10 = some ⟨4294967295, 4294967295⟩ ∧ strAppend 32 4294967280 11 = none := by decide +kernel
example : bufReserve 32 4096 4090 100000 10 = some ⟨8192, 8192⟩ := by decide +kernel
example : timerGrow 32 20 64 = some ⟨4096, 81920⟩ ∧ heapGrow 32 16 0 = some ⟨4, 128⟩ := by decide +kernel

end Verif.Narrow
