import Verif.Array.Props
import Verif.Queue.Props
import Verif.Heap.Props
import Verif.Map.Props

/-!
# Containers with a configured maximum

`SC_ARRAY_MAX`, `SC_QUEUE_MAX`, `SC_HEAP_MAX` and `SC_MAP_MAX` may be defined by the user. The functions that look at them are given
here with the maximum as an argument; the models elsewhere have the default.
-/

namespace Verif.Config

/-! ## What the user is told -/

/-- The calls `ops'` are the calls `ops`, but memory may be missing where it was not. `same` are the calls that ask for no memory,
`less op op'` says that `op'` is `op` without memory. -/
inductive Starved (less : ω → ω → Prop) : List ω → List ω → Prop
  | nil : Starved less [] []
  | same {op ops ops'} : Starved less ops ops' → Starved less (op :: ops) (op :: ops')
  | less {op op' ops ops'} : less op op' → Starved less ops ops' → Starved less (op :: ops) (op' :: ops')

theorem Starved.refl {less : ω → ω → Prop} (l : List ω) : Starved less l l := by
  induction l with
  | nil => exact .nil
  | cons _ _ ih => exact .same ih

/-- An addition that gets memory, and the same addition that gets none -/
inductive ArrayLess : Array.Op α → Array.Op α → Prop
  | add (k : α) (al : Alloc α) : ArrayLess (.add k al) (.add k none)

/-- An addition that gets memory, and the same addition that gets none -/
inductive QueueLess : Queue.Op α → Queue.Op α → Prop
  | addFirst (x : α) (al : Alloc α) : QueueLess (.addFirst x al) (.addFirst x none)
  | addLast (x : α) (al : Alloc α) : QueueLess (.addLast x al) (.addLast x none)

/-- An addition that gets memory, and the same addition that gets none -/
inductive HeapLess : Heap.Op δ → Heap.Op δ → Prop
  | add (k : Int) (d : δ) (al : Alloc (Heap.Data δ)) : HeapLess (.add k d al) (.add k d none)

/-- An addition that gets memory, and the same addition that gets none -/
inductive MapLess : Map.Op K V → Map.Op K V → Prop
  | put (key : K) (v : V) (al : Bool) : MapLess (.put key v al) (.put key v false)

/-! ## Array -/

/-- `sc_array_add`, array/sc_array.h:89-112, with `SC_ARRAY_MAX = M` bytes -/
def arrayAdd (M sz : Nat) (al : Alloc α) (a : Array.Arr α) (k : α) : Res (Array.Arr α) :=
  let max := M / sz
  if a.cap = a.size then
    if a.cap > max / 2 then
      .ok { a with oom := true }
    else
      let cap := if a.cap = 0 then 8 else mul64 a.cap 2
      match al with
      | none => .ok { a with oom := true }
      | some fill =>
        let elems := resized a.elems (Array.room (mul64 cap sz) sz) fill
        do let elems ← wr elems a.size k
           return { oom := false, cap := cap, size := a.size + 1, elems := elems }
  else do
    let elems ← wr a.elems a.size k
    return { a with oom := false, size := a.size + 1, elems := elems }

/-- One API call of the array -/
def arrayStep (M sz : Nat) (a : Array.Arr α) : Array.Op α → Res (Array.Arr α)
  | .add k al => arrayAdd M sz al a k
  | op => Array.step sz a op

/-- A history of API calls of the array -/
def arrayRun (M sz : Nat) (a : Array.Arr α) : List (Array.Op α) → Res (Array.Arr α)
  | [] => .ok a
  | op :: ops => do
    let a ← arrayStep M sz a op
    arrayRun M sz a ops

theorem arrayAdd_eq {M sz : Nat} (hM : M ≤ SIZE_MAX) (al : Alloc α) (a : Array.Arr α) (k : α) :
    arrayAdd M sz al a k = Array.add sz (if a.cap > M / sz / 2 then none else al) a k := by
  have h : M / sz / 2 ≤ SIZE_MAX / sz / 2 := Nat.div_le_div_right (Nat.div_le_div_right hM)
  unfold arrayAdd Array.add
  by_cases h1 : a.cap = a.size
  · by_cases h2 : a.cap > M / sz / 2
    · simp only [if_pos h1, if_pos h2]; split <;> rfl
    · have h3 : ¬ a.cap > SIZE_MAX / sz / 2 := fun h' => h2 (Nat.lt_of_le_of_lt h h')
      simp only [if_pos h1, if_neg h2, if_neg h3]
      cases al <;> rfl
  · simp only [if_neg h1]

/-- **C158, array.** A history with a configured maximum is one without, where some calls get no memory: so everything that is proved of
arrays holds. -/
theorem array_max_same {M sz : Nat} (hM : M ≤ SIZE_MAX) (ops : List (Array.Op α)) (a : Array.Arr α) :
    ∃ ops', Starved ArrayLess ops ops' ∧ arrayRun M sz a ops = Array.run sz a ops' := by
  have key : ∀ (op : Array.Op α) (a : Array.Arr α), ∃ op', (op' = op ∨ ArrayLess op op') ∧ arrayStep M sz a op = Array.step sz a op' := by
    intro op a
    cases op with
    | add k al =>
      by_cases h : a.cap > M / sz / 2
      · exact ⟨.add k none, .inr (.add k al), by simp only [arrayStep, Array.step, arrayAdd_eq hM, if_pos h]⟩
      · exact ⟨.add k al, .inl rfl, by simp only [arrayStep, Array.step, arrayAdd_eq hM, if_neg h]⟩
    | _ => exact ⟨_, .inl rfl, rfl⟩
  induction ops generalizing a with
  | nil => exact ⟨[], .nil, rfl⟩
  | cons op ops ih =>
    obtain ⟨op', ho, he⟩ := key op a
    have put : ∀ {ops'}, Starved ArrayLess ops ops' → Starved ArrayLess (op :: ops) (op' :: ops') := fun h => by
      rcases ho with rfl | h'
      · exact .same h
      · exact .less h' h
    cases hs : Array.step sz a op' with
    | ub => exact ⟨op' :: ops, put (.refl _), by simp [arrayRun, Array.run, he, hs]⟩
    | ok r =>
      obtain ⟨ops', h1, h2⟩ := ih r
      exact ⟨op' :: ops', put h1, by simp [arrayRun, Array.run, he, hs, h2]⟩

/-! ## Queue -/

/-- `sc_queue_expand`, queue/sc_queue.h:65-95, with `SC_QUEUE_MAX = M` elements -/
def queueExpand (M : Nat) (al : Alloc α) (q : Queue.Q α) : Res (Queue.Q α) :=
  let pos := add64 q.last 1 &&& sub64 q.cap 1
  if pos = q.first then
    if q.cap > M / 2 then
      .ok { q with oom := true }
    else
      let cap := mul64 q.cap 2
      match al with
      | none => .ok { q with oom := true }
      | some fill => do
        let len := sub64 q.cap q.first
        let off := q.first
        let head ← Queue.slice q.elems off len
        let dst ← Queue.blit (Queue.fresh cap fill) 0 head
        let tail ← Queue.slice q.elems 0 off
        let dst ← Queue.blit dst len tail
        return { oom := false, last := sub64 q.cap 1, first := 0, cap := cap, elems := dst }
  else .ok q

/-- `sc_queue_add_last`, queue/sc_queue.h:206-215 -/
def queueAddLast (M : Nat) (al : Alloc α) (q : Queue.Q α) (x : α) : Res (Queue.Q α) := do
  let q ← queueExpand M al q
  if q.oom then return q
  let elems ← wr q.elems q.last x
  return { q with oom := false, elems := elems, last := add64 q.last 1 &&& sub64 q.cap 1 }

/-- `sc_queue_add_first`, queue/sc_queue.h:231-240 -/
def queueAddFirst (M : Nat) (al : Alloc α) (q : Queue.Q α) (x : α) : Res (Queue.Q α) := do
  let q ← queueExpand M al q
  if q.oom then return q
  let first := sub64 q.first 1 &&& sub64 q.cap 1
  let elems ← wr q.elems first x
  return { q with oom := false, elems := elems, first := first }

/-- One API call of the queue -/
def queueStep (M : Nat) (q : Queue.Q α) : Queue.Op α → Res (Queue.Q α × Option α)
  | .addFirst x al => do let q ← queueAddFirst M al q x; return (q, none)
  | .addLast x al => do let q ← queueAddLast M al q x; return (q, none)
  | op => Queue.step q op

/-- A history of API calls of the queue -/
def queueRun (M : Nat) (q : Queue.Q α) : List (Queue.Op α) → Res (Queue.Q α × List (Option α))
  | [] => .ok (q, [])
  | op :: ops => do
    let (q, r) ← queueStep M q op
    let (q, rs) ← queueRun M q ops
    return (q, r :: rs)

theorem queueExpand_eq {M : Nat} (hM : M ≤ SIZE_MAX) (al : Alloc α) (q : Queue.Q α) :
    queueExpand M al q = Queue.expand (if q.cap > M / 2 then none else al) q := by
  have h : M / 2 ≤ SIZE_MAX / 2 := Nat.div_le_div_right hM
  unfold queueExpand Queue.expand
  by_cases h1 : add64 q.last 1 &&& sub64 q.cap 1 = q.first
  · by_cases h2 : q.cap > M / 2
    · simp only [if_pos h1, if_pos h2]; split <;> rfl
    · have h3 : ¬ q.cap > SIZE_MAX / 2 := fun h' => h2 (Nat.lt_of_le_of_lt h h')
      simp only [if_pos h1, if_neg h2, if_neg h3]
      cases al <;> rfl
  · simp only [if_neg h1]

/-- **C158, queue.** A history with a configured maximum is one without, where some calls get no memory: so everything that is proved of
queues holds. -/
theorem queue_max_same {M : Nat} (hM : M ≤ SIZE_MAX) (ops : List (Queue.Op α)) (a : Queue.Q α) :
    ∃ ops', Starved QueueLess ops ops' ∧ queueRun M a ops = Queue.run a ops' := by
  have key : ∀ (op : Queue.Op α) (a : Queue.Q α), ∃ op', (op' = op ∨ QueueLess op op') ∧ queueStep M a op = Queue.step a op' := by
    intro op a
    cases op with
    | addFirst x al =>
      by_cases h : a.cap > M / 2
      · exact ⟨.addFirst x none, .inr (.addFirst x al), by simp only [queueStep, Queue.step, queueAddFirst, Queue.addFirst, queueExpand_eq hM, if_pos h]⟩
      · exact ⟨.addFirst x al, .inl rfl, by simp only [queueStep, Queue.step, queueAddFirst, Queue.addFirst, queueExpand_eq hM, if_neg h]⟩
    | addLast x al =>
      by_cases h : a.cap > M / 2
      · exact ⟨.addLast x none, .inr (.addLast x al), by simp only [queueStep, Queue.step, queueAddLast, Queue.addLast, queueExpand_eq hM, if_pos h]⟩
      · exact ⟨.addLast x al, .inl rfl, by simp only [queueStep, Queue.step, queueAddLast, Queue.addLast, queueExpand_eq hM, if_neg h]⟩
    | _ => exact ⟨_, .inl rfl, rfl⟩
  induction ops generalizing a with
  | nil => exact ⟨[], .nil, rfl⟩
  | cons op ops ih =>
    obtain ⟨op', ho, he⟩ := key op a
    have put : ∀ {ops'}, Starved QueueLess ops ops' → Starved QueueLess (op :: ops) (op' :: ops') := fun h => by
      rcases ho with rfl | h'
      · exact .same h
      · exact .less h' h
    cases hs : Queue.step a op' with
    | ub => exact ⟨op' :: ops, put (.refl _), by simp [queueRun, Queue.run, he, hs]⟩
    | ok r =>
      obtain ⟨ops', h1, h2⟩ := ih r.1
      exact ⟨op' :: ops', put h1, by simp [queueRun, Queue.run, he, hs, h2]⟩

/-! ## Heap -/

/-- `sc_heap_init`, heap/sc_heap.c:40-59, with `SC_HEAP_MAX = M` elements -/
def heapInit (M cap : Nat) (al : Alloc (Heap.Data δ)) : Heap.Heap δ × Bool :=
  let sz := mul64 cap Heap.esz
  if cap = 0 then ({ cap := 0, size := 0, elems := [] }, true)
  else if cap > M then ({ cap := 0, size := 0, elems := [] }, false)
  else match al with
    | none => ({ cap := 0, size := 0, elems := [] }, false)
    | some fill => ({ cap := cap, size := 0, elems := resized [] (sz / Heap.esz) fill }, true)

/-- `sc_heap_add`, heap/sc_heap.c:80-108 -/
def heapAdd (M : Nat) (al : Alloc (Heap.Data δ)) (h : Heap.Heap δ) (key : Int) (data : δ) : Res (Heap.Heap δ × Bool) :=
  let size := add64 h.size 1
  let place (h : Heap.Heap δ) : Res (Heap.Heap δ × Bool) := do
    let (m, i) ← Heap.siftUp key (h.size + 1) h.elems h.size
    let m ← wr m i { key := key, data := data }
    return ({ h with elems := m }, true)
  if size ≥ h.cap then
    let cap := if h.cap ≠ 0 then mul64 h.cap 2 else 4
    let m := mul64 (mul64 cap 2) Heap.esz
    if h.cap ≥ M / 2 then .ok ({ h with size := size }, false)
    else match al with
      | none => .ok ({ h with size := size }, false)
      | some fill =>
        place { cap := cap, size := size, elems := resized h.elems (m / Heap.esz) fill }
  else place { h with size := size }

/-- One API call of the heap -/
def heapStep (M : Nat) (h : Heap.Heap δ) : Heap.Op δ → Res (Heap.Heap δ × Heap.Out δ)
  | .add k d al => do let (h, b) ← heapAdd M al h k d; return (h, .added b)
  | op => Heap.step h op

/-- A history of API calls of the heap -/
def heapRun (M : Nat) (h : Heap.Heap δ) : List (Heap.Op δ) → Res (Heap.Heap δ × List (Heap.Out δ))
  | [] => .ok (h, [])
  | op :: ops => do
    let (h, o) ← heapStep M h op
    let (h, os) ← heapRun M h ops
    return (h, o :: os)

theorem heapAdd_eq {M : Nat} (hM : M ≤ Heap.heapMax) (al : Alloc (Heap.Data δ)) (h : Heap.Heap δ) (key : Int) (data : δ) :
    heapAdd M al h key data = Heap.add (if h.cap ≥ M / 2 then none else al) h key data := by
  have h' : M / 2 ≤ Heap.heapMax / 2 := Nat.div_le_div_right hM
  unfold heapAdd Heap.add
  by_cases h1 : add64 h.size 1 ≥ h.cap
  · by_cases h2 : h.cap ≥ M / 2
    · simp only [if_pos h1, if_pos h2]; split <;> rfl
    · have h3 : ¬ h.cap ≥ Heap.heapMax / 2 := fun h'' => h2 (Nat.le_trans h' h'')
      simp only [if_pos h1, if_neg h2, if_neg h3]
      cases al <;> rfl
  · simp only [if_neg h1]

/-- **C158, heap.** A history with a configured maximum is one without, where some calls get no memory: so everything that is proved of
heaps holds. -/
theorem heap_max_same {M : Nat} (hM : M ≤ Heap.heapMax) (ops : List (Heap.Op δ)) (a : Heap.Heap δ) :
    ∃ ops', Starved HeapLess ops ops' ∧ heapRun M a ops = Heap.run a ops' := by
  have key : ∀ (op : Heap.Op δ) (a : Heap.Heap δ), ∃ op', (op' = op ∨ HeapLess op op') ∧ heapStep M a op = Heap.step a op' := by
    intro op a
    cases op with
    | add k d al =>
      by_cases h : a.cap ≥ M / 2
      · exact ⟨.add k d none, .inr (.add k d al), by simp only [heapStep, Heap.step, heapAdd_eq hM, if_pos h]⟩
      · exact ⟨.add k d al, .inl rfl, by simp only [heapStep, Heap.step, heapAdd_eq hM, if_neg h]⟩
    | _ => exact ⟨_, .inl rfl, rfl⟩
  induction ops generalizing a with
  | nil => exact ⟨[], .nil, rfl⟩
  | cons op ops ih =>
    obtain ⟨op', ho, he⟩ := key op a
    have put : ∀ {ops'}, Starved HeapLess ops ops' → Starved HeapLess (op :: ops) (op' :: ops') := fun h => by
      rcases ho with rfl | h'
      · exact .same h
      · exact .less h' h
    cases hs : Heap.step a op' with
    | ub => exact ⟨op' :: ops, put (.refl _), by simp [heapRun, Heap.run, he, hs]⟩
    | ok r =>
      obtain ⟨ops', h1, h2⟩ := ih r.1
      exact ⟨op' :: ops', put h1, by simp [heapRun, Heap.run, he, hs, h2]⟩

/-! ## Map -/

section
variable {K C V : Type} [DecidableEq K] [DecidableEq C]

/-- The capacity `sc_map_alloc_##name` computes, map/sc_map.c:93-110, with `SC_MAP_MAX = M` -/
def mapAllocCap (M cap factor : Nat) : Option Nat :=
  if cap > M / factor then none
  else some (Map.nextPow2 (if cap < 8 then 8 else (cap * factor) % W32))

/-- `sc_map_alloc_##name`, map/sc_map.c:93-113 -/
def mapAlloc (M : Nat) (k : Map.Kind K C) (v0 : V) (al : Bool) (cap factor : Nat) : Option (Nat × List (Map.Item K V)) :=
  match mapAllocCap M cap factor with
  | none => none
  | some c => if al then some (c, List.replicate c (Map.zeroItem k v0)) else none

/-- `sc_map_init_##name`, map/sc_map.c:115-144 -/
def mapInit (M : Nat) (k : Map.Kind K C) (v0 : V) (al : Bool) (g : Bool × Bool) (cap loadFac : Nat) : Option (Map.Map K V) :=
  let f := if loadFac = 0 then 75 else loadFac
  if f > 95 ∨ f < 25 then none
  else if cap = 0 then some { Map.emptyMap k v0 with loadFac := f }
  else match mapAlloc M k v0 al cap 1 with
    | none => none
    | some (c, t) => some
      { mem := t, mem1 := Map.zeroItem k v0, static := false, cap := c, size := 0, loadFac := f,
        remap := Map.remapOf c f, used := false, oom := g.1, found := g.2 }

/-- `sc_map_remap_##name`, map/sc_map.c:171-213 -/
def mapRemap (M : Nat) (k : Map.Kind K C) (v0 : V) (al : Bool) (m : Map.Map K V) : Res (Map.Map K V × Bool) :=
  if m.size < m.remap then .ok (m, true)
  else match mapAlloc M k v0 al m.cap 2 with
    | none => .ok (m, false)
    | some (cap, new) => do
      let mod := Map.sub32 cap 1
      if m.mem.length < m.cap then .ub
      else do
        let new ← Map.rehash k cap mod (m.mem.take m.cap) new
        return ({ m with
          mem := new
          mem1 := if m.static then Map.zeroItem k v0 else m.mem1
          static := false
          cap := cap
          remap := Map.remapOf cap m.loadFac }, true)

/-- `sc_map_put_##name`, map/sc_map.c:215-255 -/
def mapPut (M : Nat) (k : Map.Kind K C) (v0 : V) (al : Bool) (m : Map.Map K V) (key : K) (value : V) : Res (Map.Map K V × V) := do
  let m := { m with oom := false }
  let (m, ok) ← mapRemap M k v0 al m
  if !ok then return ({ m with oom := true }, v0)
  if key = k.zero then
    let ret := if m.used then m.mem1.value else v0
    return ({ m with
      found := m.used
      size := Map.add32 m.size (if m.used then 0 else 1)
      used := true
      mem1 := { m.mem1 with value := value } }, ret)
  else
    let mod := Map.sub32 m.cap 1
    let h := k.hash (k.cls key)
    let pos ← Map.probe k mod key h (m.cap + 1) m.mem (h &&& mod)
    let c ← rd m.mem pos
    let size := if c.key = k.zero then Map.add32 m.size 1 else m.size
    let found := decide (c.key ≠ k.zero)
    let ret := if found then c.value else v0
    let mem ← wr m.mem pos (k.assign c key value h)
    return ({ m with mem := mem, size := size, found := found }, ret)

/-- One API call of the map -/
def mapStep (M : Nat) (k : Map.Kind K C) (v0 : V) (m : Map.Map K V) : Map.Op K V → Res (Map.Map K V × Map.Out V)
  | .put key v al => do
    let (m, r) ← mapPut M k v0 al m key v
    return (m, ⟨some r, m.found, m.oom⟩)
  | op => Map.step k v0 m op

/-- A history of API calls of the map -/
def mapRun (M : Nat) (k : Map.Kind K C) (v0 : V) (m : Map.Map K V) : List (Map.Op K V) → Res (Map.Map K V × List (Map.Out V))
  | [] => .ok (m, [])
  | op :: ops => do
    let (m, o) ← mapStep M k v0 m op
    let (m, os) ← mapRun M k v0 m ops
    return (m, o :: os)

omit [DecidableEq K] [DecidableEq C] in
theorem mapAlloc_eq {M : Nat} (hM : M ≤ 4294967295) (k : Map.Kind K C) (v0 : V) (al : Bool) (cap factor : Nat) :
    mapAlloc M k v0 al cap factor = Map.alloc k v0 (if cap > M / factor then false else al) cap factor := by
  have h : M / factor ≤ 4294967295 / factor := Nat.div_le_div_right hM
  unfold mapAlloc Map.alloc mapAllocCap Map.allocCap
  by_cases h1 : cap > M / factor
  · simp only [if_pos h1]; split <;> rfl
  · have h2 : ¬ cap > 4294967295 / factor := fun h' => h1 (Nat.lt_of_le_of_lt h h')
    simp only [if_neg h1, if_neg h2]

theorem mapPut_eq {M : Nat} (hM : M ≤ 4294967295) (k : Map.Kind K C) (v0 : V) (al : Bool) (m : Map.Map K V) (key : K) (value : V) :
    mapPut M k v0 al m key value = Map.put k v0 (if m.cap > M / 2 then false else al) m key value := by
  have h : ∀ m' : Map.Map K V, mapRemap M k v0 al m' = Map.remap k v0 (if m'.cap > M / 2 then false else al) m' := fun m' => by
    unfold mapRemap Map.remap
    rw [mapAlloc_eq hM]
    split
    · rfl
    · generalize Map.alloc k v0 _ m'.cap 2 = x
      cases x <;> rfl
  unfold mapPut Map.put
  simp only [h]

/-- **C158, map.** A history with a configured maximum is one without, where some calls get no memory: so everything that is proved of
maps holds. -/
theorem map_max_same {M : Nat} (hM : M ≤ 4294967295) (k : Map.Kind K C) (v0 : V) (ops : List (Map.Op K V)) (a : Map.Map K V) :
    ∃ ops', Starved MapLess ops ops' ∧ mapRun M k v0 a ops = Map.run k v0 a ops' := by
  have key : ∀ (op : Map.Op K V) (a : Map.Map K V), ∃ op', (op' = op ∨ MapLess op op') ∧ mapStep M k v0 a op = Map.step k v0 a op' := by
    intro op a
    cases op with
    | put key v al =>
      by_cases h : a.cap > M / 2
      · exact ⟨.put key v false, .inr (.put key v al), by simp only [mapStep, Map.step, mapPut_eq hM, if_pos h]⟩
      · exact ⟨.put key v al, .inl rfl, by simp only [mapStep, Map.step, mapPut_eq hM, if_neg h]⟩
    | _ => exact ⟨_, .inl rfl, rfl⟩
  induction ops generalizing a with
  | nil => exact ⟨[], .nil, rfl⟩
  | cons op ops ih =>
    obtain ⟨op', ho, he⟩ := key op a
    have put : ∀ {ops'}, Starved MapLess ops ops' → Starved MapLess (op :: ops) (op' :: ops') := fun h => by
      rcases ho with rfl | h'
      · exact .same h
      · exact .less h' h
    cases hs : Map.step k v0 a op' with
    | ub => exact ⟨op' :: ops, put (.refl _), by simp [mapRun, Map.run, he, hs]⟩
    | ok r =>
      obtain ⟨ops', h1, h2⟩ := ih r.1
      exact ⟨op' :: ops', put h1, by simp [mapRun, Map.run, he, hs, h2]⟩

omit [DecidableEq K] [DecidableEq C] in
/-- Initialising with a configured maximum is initialising without, perhaps without memory. -/
theorem map_init_same {M : Nat} (hM : M ≤ 4294967295) (k : Map.Kind K C) (v0 : V) (al : Bool) (g : Bool × Bool) (cap lf : Nat) :
    mapInit M k v0 al g cap lf = Map.init k v0 (if cap > M then false else al) g cap lf := by
  unfold mapInit Map.init
  rw [mapAlloc_eq hM, Nat.div_one]
  simp only
  split
  · rfl
  · split
    · rfl
    · generalize Map.alloc k v0 _ cap 1 = x
      cases x <;> rfl

end

/-- Initialising with a configured maximum is initialising without, perhaps without memory. -/
theorem heap_init_same {M : Nat} (hM : M ≤ Heap.heapMax) (cap : Nat) (al : Alloc (Heap.Data δ)) :
    heapInit M cap al = Heap.init cap (if cap > M then none else al) := by
  unfold heapInit Heap.init
  by_cases h1 : cap = 0
  · simp only [if_pos h1]
  · by_cases h2 : cap > M
    · simp only [if_neg h1, if_pos h2]; split <;> rfl
    · have h3 : ¬ cap > Heap.heapMax := fun h => h2 (Nat.lt_of_le_of_lt hM h)
      simp only [if_neg h1, if_neg h2, if_neg h3]
      cases al <;> rfl

/-! ## The maximum is respected -/

theorem half_lt {n c : Nat} : c > n / 2 ↔ n < 2 * c := by omega

theorem div_lt_iff {M s n : Nat} (hs : 0 < s) : M / s < n ↔ M < n * s := Nat.div_lt_iff_lt_mul hs

theorem wr_length {m m' : List α} {i : Nat} {x : α} (h : wr m i x = .ok m') : m'.length = m.length := by
  rw [wr_eq_ok] at h
  rw [h.2, List.length_set]

/-- **C158, array.** An addition is refused exactly if there is no room and either memory is missing or twice the room would take more
than the maximum. -/
theorem array_refused_iff {M sz : Nat} (hs : 0 < sz) {al : Alloc α} {a a' : Array.Arr α} {k : α} (h : arrayAdd M sz al a k = .ok a') :
    a'.oom = true ↔ a.cap = a.size ∧ (al = none ∨ M < 2 * a.cap * sz) := by
  unfold arrayAdd at h
  by_cases h1 : a.cap = a.size
  · by_cases h2 : a.cap > M / sz / 2
    · simp only [if_pos h1, if_pos h2] at h
      cases h
      rw [half_lt, div_lt_iff hs] at h2
      exact ⟨fun _ => ⟨h1, .inr h2⟩, fun _ => rfl⟩
    · simp only [if_pos h1, if_neg h2] at h
      rw [half_lt, div_lt_iff hs] at h2
      cases al with
      | none => cases h; exact ⟨fun _ => ⟨h1, .inl rfl⟩, fun _ => rfl⟩
      | some fill =>
        obtain ⟨m, -, h⟩ := Res.bind_eq_ok.1 h
        cases h
        simp [h2]
  · simp only [if_neg h1] at h
    obtain ⟨m, -, h⟩ := Res.bind_eq_ok.1 h
    cases h
    simp [h1]

/-- The memory of an array is within the maximum, or what is taken first. -/
structure ArrayWithin (M sz : Nat) (a : Array.Arr α) : Prop where
  len : a.elems.length ≤ a.cap
  cap : a.cap * sz ≤ max M (8 * sz)

theorem ArrayWithin.step {M sz : Nat} (hs : 0 < sz) {a a' : Array.Arr α} (w : ArrayWithin M sz a) {op : Array.Op α} (h : arrayStep M sz a op = .ok a') :
    ArrayWithin M sz a' := by
  obtain ⟨w1, w2⟩ := w
  cases op with
  | add k al =>
    change arrayAdd M sz al a k = _ at h
    unfold arrayAdd at h
    by_cases h1 : a.cap = a.size
    · by_cases h2 : a.cap > M / sz / 2
      · simp only [if_pos h1, if_pos h2] at h
        cases h
        exact ⟨w1, w2⟩
      · simp only [if_pos h1, if_neg h2] at h
        rw [half_lt, div_lt_iff hs] at h2
        cases al with
        | none => cases h; exact ⟨w1, w2⟩
        | some fill =>
          obtain ⟨m, hm, h⟩ := Res.bind_eq_ok.1 h
          cases h
          have := wr_length hm
          rw [length_resized] at this
          generalize hc : (if a.cap = 0 then 8 else mul64 a.cap 2) = c at *
          have hc' : c * sz ≤ max M (8 * sz) := by
            rw [← hc]
            split
            · exact Nat.le_max_right _ _
            · have : mul64 a.cap 2 ≤ 2 * a.cap := by unfold mul64; exact Nat.le_trans (Nat.mod_le _ _) (by omega)
              have := Nat.mul_le_mul_right sz this
              omega
          refine ⟨?_, hc'⟩
          show m.length ≤ c
          rw [this]
          unfold Array.room mul64
          exact Nat.le_trans (Nat.div_le_div_right (Nat.mod_le _ _)) (by rw [Nat.mul_div_cancel _ hs]; omega)
    · simp only [if_neg h1] at h
      obtain ⟨m, hm, h⟩ := Res.bind_eq_ok.1 h
      cases h
      exact ⟨by have := wr_length hm; simp only; omega, w2⟩
  | del i =>
    change Array.del a i = _ at h
    unfold Array.del at h
    obtain ⟨-, -, h⟩ := Res.bind_eq_ok.1 h
    dsimp only at h
    split at h
    · obtain ⟨m, hm, h⟩ := Res.bind_eq_ok.1 h
      cases h
      refine ⟨?_, w2⟩
      show m.length ≤ a.cap
      unfold Array.memmove at hm
      split at hm
      · next hb => cases hm; simp only [List.length_append, List.length_take, List.length_drop]; omega
      · cases hm
    · cases h; exact ⟨w1, w2⟩
  | delUnordered i =>
    change Array.delUnordered a i = _ at h
    unfold Array.delUnordered at h
    obtain ⟨-, -, h⟩ := Res.bind_eq_ok.1 h
    obtain ⟨x, -, h⟩ := Res.bind_eq_ok.1 h
    obtain ⟨m, hm, h⟩ := Res.bind_eq_ok.1 h
    cases h
    exact ⟨by have := wr_length hm; simp only; omega, w2⟩
  | delLast =>
    change Array.delLast a = _ at h
    unfold Array.delLast at h
    obtain ⟨-, -, h⟩ := Res.bind_eq_ok.1 h
    cases h
    exact ⟨w1, w2⟩
  | clear => cases h; exact ⟨w1, w2⟩

/-- **C158, array**, what holds of it: the memory never takes more bytes than the maximum, if that is not below eight elements. Missing:
smaller maxima (`array_max_violated`). -/
theorem array_max_partial {M sz : Nat} (hs : 0 < sz) (h8 : 8 * sz ≤ M) {ops : List (Array.Op α)} {a : Array.Arr α}
    (h : arrayRun M sz Array.init ops = .ok a) : a.elems.length * sz ≤ M ∧ a.cap * sz ≤ M := by
  have : ∀ (ops : List (Array.Op α)) (b : Array.Arr α), ArrayWithin M sz b → arrayRun M sz b ops = .ok a → ArrayWithin M sz a := by
    intro ops
    induction ops with
    | nil => intro b w h; cases h; exact w
    | cons op ops ih =>
      intro b w h
      obtain ⟨b', h1, h2⟩ := Res.bind_eq_ok.1 h
      exact ih b' (w.step hs h1) h2
  obtain ⟨h1, h2⟩ := this ops _ ⟨by simp [Array.init], by simp [Array.init]⟩ h
  have := Nat.mul_le_mul_right sz h1
  omega

/-- **C158 is violated** by arrays: with a maximum of 10 bytes, the first addition of a number of 4 bytes takes 32. -/
theorem array_max_violated : ∃ (ops : List (Array.Op Nat)) (a : Array.Arr Nat), arrayRun 10 4 Array.init ops = .ok a ∧ a.elems.length * 4 = 32 :=
  ⟨[.add 7 (some fun _ => 0)], _, rfl, rfl⟩

/-! ### Queue -/

/-- **C158, queue.** The queue asks for more memory exactly if it is full and twice the room is within the maximum. -/
theorem queue_refused_iff {M : Nat} {al : Alloc α} {q q' : Queue.Q α} {l : List α} (r : Queue.Rep q l) (h : queueExpand M al q = .ok q') :
    q'.cap = q.cap ↔ l.length + 1 < q.cap ∨ al = none ∨ M < 2 * q.cap := by
  have hpos := r.pos
  have hs := r.short
  have hf := r.first_lt
  have hfull : add64 q.last 1 &&& sub64 q.cap 1 = q.first ↔ ¬ l.length + 1 < q.cap := by
    rw [Queue.add64_mask r.pow, r.last_eq, Nat.mod_add_mod, Nat.add_assoc, Queue.mod_of_lt_two_mul (by omega)]
    split <;> omega
  unfold queueExpand at h
  by_cases h1 : add64 q.last 1 &&& sub64 q.cap 1 = q.first
  · have h1' := hfull.1 h1
    by_cases h2 : q.cap > M / 2
    · simp only [if_pos h1, if_pos h2] at h
      cases h
      rw [half_lt] at h2
      exact ⟨fun _ => .inr (.inr h2), fun _ => rfl⟩
    · simp only [if_pos h1, if_neg h2] at h
      rw [half_lt] at h2
      cases al with
      | none => cases h; exact ⟨fun _ => .inr (.inl rfl), fun _ => rfl⟩
      | some fill =>
        obtain ⟨_, -, h⟩ := Res.bind_eq_ok.1 h
        obtain ⟨_, -, h⟩ := Res.bind_eq_ok.1 h
        obtain ⟨_, -, h⟩ := Res.bind_eq_ok.1 h
        obtain ⟨_, -, h⟩ := Res.bind_eq_ok.1 h
        cases h
        simp only [h1', h2, or_false, reduceCtorEq, iff_false]
        unfold mul64
        omega
  · simp only [if_neg h1] at h
    cases h
    exact ⟨fun _ => .inl (by have := mt hfull.2 h1; omega), fun _ => rfl⟩

/-- The memory of a queue is within the maximum, or what is taken first. -/
structure QueueWithin (M : Nat) (q : Queue.Q α) : Prop where
  len : q.elems.length ≤ q.cap
  cap : q.cap ≤ max M 8

theorem blit_length {m m' xs : List α} {off : Nat} (h : Queue.blit m off xs = .ok m') : m'.length = m.length := by
  unfold Queue.blit at h
  split at h
  · cases h; simp only [List.length_append, List.length_take, List.length_drop]; omega
  · cases h

theorem QueueWithin.expand {M : Nat} {al : Alloc α} {q q' : Queue.Q α} (w : QueueWithin M q) (h : queueExpand M al q = .ok q') :
    QueueWithin M q' := by
  obtain ⟨w1, w2⟩ := w
  unfold queueExpand at h
  by_cases h1 : add64 q.last 1 &&& sub64 q.cap 1 = q.first
  · by_cases h2 : q.cap > M / 2
    · simp only [if_pos h1, if_pos h2] at h
      cases h
      exact ⟨w1, w2⟩
    · simp only [if_pos h1, if_neg h2] at h
      cases al with
      | none => cases h; exact ⟨w1, w2⟩
      | some fill =>
        obtain ⟨_, -, h⟩ := Res.bind_eq_ok.1 h
        obtain ⟨_, hb, h⟩ := Res.bind_eq_ok.1 h
        obtain ⟨_, -, h⟩ := Res.bind_eq_ok.1 h
        obtain ⟨_, hb', h⟩ := Res.bind_eq_ok.1 h
        cases h
        have e1 := blit_length hb
        have e2 := blit_length hb'
        simp only [Queue.fresh, List.length_ofFn] at e1
        refine ⟨by simp only; omega, ?_⟩
        show mul64 q.cap 2 ≤ _
        have : mul64 q.cap 2 ≤ q.cap * 2 := Nat.mod_le _ _
        omega
  · simp only [if_neg h1] at h
    cases h
    exact ⟨w1, w2⟩

theorem QueueWithin.step {M : Nat} {q q' : Queue.Q α} (w : QueueWithin M q) {op : Queue.Op α} {o : Option α}
    (h : queueStep M q op = .ok (q', o)) : QueueWithin M q' := by
  cases op with
  | addFirst x al =>
    obtain ⟨q1, h1, h2⟩ := Res.bind_eq_ok.1 h
    cases h2
    obtain ⟨q2, h3, h4⟩ := Res.bind_eq_ok.1 h1
    have w' := w.expand h3
    dsimp only at h4
    split at h4
    · cases h4; exact w'
    · obtain ⟨m, hm, h⟩ := Res.bind_eq_ok.1 h4
      cases h
      exact ⟨by rw [wr_length hm]; exact w'.len, w'.cap⟩
  | addLast x al =>
    obtain ⟨q1, h1, h2⟩ := Res.bind_eq_ok.1 h
    cases h2
    obtain ⟨q2, h3, h4⟩ := Res.bind_eq_ok.1 h1
    have w' := w.expand h3
    split at h4
    · cases h4; exact w'
    · obtain ⟨m, hm, h⟩ := Res.bind_eq_ok.1 h4
      cases h
      exact ⟨by rw [wr_length hm]; exact w'.len, w'.cap⟩
  | delFirst =>
    obtain ⟨⟨q1, x⟩, h1, h2⟩ := Res.bind_eq_ok.1 h
    cases h2
    obtain ⟨y, -, h⟩ := Res.bind_eq_ok.1 h1
    cases h
    exact ⟨w.len, w.cap⟩
  | delLast =>
    obtain ⟨⟨q1, x⟩, h1, h2⟩ := Res.bind_eq_ok.1 h
    cases h2
    obtain ⟨y, -, h⟩ := Res.bind_eq_ok.1 h1
    cases h
    exact ⟨w.len, w.cap⟩
  | clear => cases h; exact ⟨w.len, w.cap⟩

/-- **C158, queue**, what holds of it: there is never room for more elements than the maximum, if that is not below eight. Missing:
smaller maxima (`queue_max_violated`). -/
theorem queue_max_partial {M : Nat} (h8 : 8 ≤ M) {al : Alloc α} {ops : List (Queue.Op α)} {q : Queue.Q α} {os : List (Option α)}
    (h : queueRun M (Queue.init al) ops = .ok (q, os)) : q.elems.length ≤ M ∧ q.cap ≤ M := by
  have : ∀ (ops : List (Queue.Op α)) (b : Queue.Q α) (os : List (Option α)), QueueWithin M b → queueRun M b ops = .ok (q, os) → QueueWithin M q := by
    intro ops
    induction ops with
    | nil => intro b os w h; cases h; exact w
    | cons op ops ih =>
      intro b os w h
      obtain ⟨⟨b', o⟩, h1, h2⟩ := Res.bind_eq_ok.1 h
      obtain ⟨⟨b'', os'⟩, h3, h4⟩ := Res.bind_eq_ok.1 h2
      cases h4
      exact ih b' _ (w.step h1) h3
  obtain ⟨h1, h2⟩ := this ops _ _ (by cases al <;> exact ⟨by simp [Queue.init, Queue.fresh], by simp only [Queue.init]; omega⟩) h
  omega

/-- **C158 is violated** by queues: with a maximum of 3 elements, there is room for 7 from the beginning. -/
theorem queue_max_violated : ∃ (ops : List (Queue.Op Nat)) (q : Queue.Q Nat) (os : List (Option Nat)),
    queueRun 3 (Queue.init (some fun _ => 0)) ops = .ok (q, os) ∧ Queue.size q = 7 :=
  ⟨[.addLast 1 none, .addLast 2 none, .addLast 3 none, .addLast 4 none, .addLast 5 none, .addLast 6 none, .addLast 7 none], _, _, rfl, rfl⟩

/-! ### Heap -/

/-- **C158, heap.** Once the room is used up (`size + 1 ≥ cap`), an addition is refused exactly if memory is missing or twice the room
would reach the maximum, or all but one of it; otherwise it is not refused. -/
theorem heap_refused_iff {M : Nat} {al : Alloc (Heap.Data δ)} {h h' : Heap.Heap δ} {k : Int} {d : δ} {b : Bool}
    (e : heapAdd M al h k d = .ok (h', b)) : b = false ↔ add64 h.size 1 ≥ h.cap ∧ (al = none ∨ M ≤ 2 * h.cap + 1) := by
  unfold heapAdd at e
  by_cases h1 : add64 h.size 1 ≥ h.cap
  · by_cases h2 : h.cap ≥ M / 2
    · simp only [if_pos h1, if_pos h2] at e
      cases e
      exact ⟨fun _ => ⟨h1, .inr (by omega)⟩, fun _ => rfl⟩
    · simp only [if_pos h1, if_neg h2] at e
      cases al with
      | none => cases e; exact ⟨fun _ => ⟨h1, .inl rfl⟩, fun _ => rfl⟩
      | some fill =>
        obtain ⟨⟨m, i⟩, -, e⟩ := Res.bind_eq_ok.1 e
        obtain ⟨m', -, e⟩ := Res.bind_eq_ok.1 e
        cases e
        simp; omega
  · simp only [if_neg h1] at e
    obtain ⟨⟨m, i⟩, -, e⟩ := Res.bind_eq_ok.1 e
    obtain ⟨m', -, e⟩ := Res.bind_eq_ok.1 e
    cases e
    simp [h1]

/-- The room of a heap is within the maximum, or what is taken first; its memory is at most twice that. -/
structure HeapWithin (M : Nat) (h : Heap.Heap δ) : Prop where
  len : h.elems.length ≤ 2 * h.cap
  cap : h.cap ≤ M ∨ (h.cap = 4 ∧ 2 ≤ M)

theorem siftUp_length {key : Int} : ∀ {fuel : Nat} {m m' : List (Heap.Data δ)} {i i' : Nat},
    Heap.siftUp key fuel m i = .ok (m', i') → m'.length = m.length := by
  intro fuel
  induction fuel with
  | zero => intro m m' i i' h; cases h
  | succ fuel ih =>
    intro m m' i i' h
    unfold Heap.siftUp at h
    split at h
    · obtain ⟨p, -, h⟩ := Res.bind_eq_ok.1 h
      split at h
      · obtain ⟨m1, h1, h⟩ := Res.bind_eq_ok.1 h
        rw [ih h, wr_length h1]
      · cases h; rfl
    · cases h; rfl

theorem siftDown_length {n : Nat} {lk : Int} : ∀ {fuel : Nat} {m m' : List (Heap.Data δ)} {i c i' : Nat},
    Heap.siftDown n lk fuel m i c = .ok (m', i') → m'.length = m.length := by
  intro fuel
  induction fuel with
  | zero => intro m m' i c i' h; cases h
  | succ fuel ih =>
    intro m m' i c i' h
    unfold Heap.siftDown at h
    split at h
    · obtain ⟨c', -, h⟩ := Res.bind_eq_ok.1 h
      obtain ⟨x, -, h⟩ := Res.bind_eq_ok.1 h
      split at h
      · cases h; rfl
      · obtain ⟨m1, h1, h⟩ := Res.bind_eq_ok.1 h
        rw [ih h, wr_length h1]
    · cases h; rfl

theorem HeapWithin.step {M : Nat} {h h' : Heap.Heap δ} (w : HeapWithin M h) {op : Heap.Op δ} {o : Heap.Out δ}
    (e : heapStep M h op = .ok (h', o)) : HeapWithin M h' := by
  obtain ⟨w1, w2⟩ := w
  cases op with
  | add k d al =>
    obtain ⟨⟨h1, b⟩, e1, e2⟩ := Res.bind_eq_ok.1 e
    cases e2
    unfold heapAdd at e1
    by_cases h1 : add64 h.size 1 ≥ h.cap
    · by_cases h2 : h.cap ≥ M / 2
      · simp only [if_pos h1, if_pos h2] at e1
        cases e1
        exact ⟨w1, w2⟩
      · simp only [if_pos h1, if_neg h2] at e1
        cases al with
        | none => cases e1; exact ⟨w1, w2⟩
        | some fill =>
          obtain ⟨⟨m, i⟩, h3, e1⟩ := Res.bind_eq_ok.1 e1
          obtain ⟨m', h4, e1⟩ := Res.bind_eq_ok.1 e1
          cases e1
          have e3 := siftUp_length h3
          have e4 := wr_length h4
          simp only [length_resized] at e3
          generalize hc : (if h.cap ≠ 0 then mul64 h.cap 2 else 4) = c at *
          refine ⟨?_, ?_⟩
          · show m'.length ≤ 2 * c
            have e4 : m'.length = m.length := e4
            rw [e4, e3]
            unfold mul64 Heap.esz
            have : c * 2 % W64 * 16 % W64 ≤ c * 2 * 16 :=
              Nat.le_trans (Nat.mod_le _ _) (Nat.mul_le_mul_right 16 (Nat.mod_le _ _))
            omega
          · show c ≤ M ∨ c = 4 ∧ 2 ≤ M
            rw [← hc]
            split
            · have : mul64 h.cap 2 ≤ h.cap * 2 := Nat.mod_le _ _
              omega
            · omega
    · simp only [if_neg h1] at e1
      obtain ⟨⟨m, i⟩, h3, e1⟩ := Res.bind_eq_ok.1 e1
      obtain ⟨m', h4, e1⟩ := Res.bind_eq_ok.1 e1
      cases e1
      have e3 := siftUp_length h3
      have e4 := wr_length h4
      exact ⟨by simp only at *; omega, w2⟩
  | pop =>
    obtain ⟨⟨h1, b⟩, e1, e2⟩ := Res.bind_eq_ok.1 e
    cases e2
    unfold Heap.pop at e1
    split at e1
    · cases e1; exact ⟨w1, w2⟩
    · obtain ⟨_, -, e1⟩ := Res.bind_eq_ok.1 e1
      obtain ⟨_, g1, e1⟩ := Res.bind_eq_ok.1 e1
      obtain ⟨_, -, e1⟩ := Res.bind_eq_ok.1 e1
      obtain ⟨⟨m, i⟩, g2, e1⟩ := Res.bind_eq_ok.1 e1
      obtain ⟨_, g3, e1⟩ := Res.bind_eq_ok.1 e1
      obtain ⟨_, -, e1⟩ := Res.bind_eq_ok.1 e1
      cases e1
      have := wr_length g1
      have := siftDown_length g2
      have := wr_length g3
      exact ⟨by simp only at *; omega, w2⟩
  | peek =>
    obtain ⟨_, -, e2⟩ := Res.bind_eq_ok.1 e
    cases e2
    exact ⟨w1, w2⟩
  | clear => cases e; exact ⟨w1, w2⟩

/-- **C158, heap**, what holds of it: the capacity never exceeds the maximum, if that is not 2 or 3; the memory is at most that of twice
the maximum. Missing: maxima 2 and 3 (`heap_max_violated`), and the memory (`heap_memory_violated`). -/
theorem heap_max_partial {M cap : Nat} (h4 : M < 2 ∨ 4 ≤ M) {al : Alloc (Heap.Data δ)} {ops : List (Heap.Op δ)} {h : Heap.Heap δ}
    {os : List (Heap.Out δ)} (e : heapRun M (heapInit M cap al).1 ops = .ok (h, os)) : h.cap ≤ M ∧ h.elems.length ≤ 2 * M := by
  have : ∀ (ops : List (Heap.Op δ)) (b : Heap.Heap δ) (os : List (Heap.Out δ)), HeapWithin M b → heapRun M b ops = .ok (h, os) → HeapWithin M h := by
    intro ops
    induction ops with
    | nil => intro b os w h; cases h; exact w
    | cons op ops ih =>
      intro b os w h
      obtain ⟨⟨b', o⟩, h1, h2⟩ := Res.bind_eq_ok.1 h
      obtain ⟨⟨b'', os'⟩, h3, h4⟩ := Res.bind_eq_ok.1 h2
      cases h4
      exact ih b' _ (w.step h1) h3
  obtain ⟨h1, h2⟩ := this ops _ _ (by
    unfold heapInit
    dsimp only
    split
    · exact ⟨by simp, by simp⟩
    · split
      · exact ⟨by simp, by simp⟩
      · next hM =>
        split
        · exact ⟨by simp, by simp⟩
        · refine ⟨?_, .inl (by simp only; omega)⟩
          simp only [length_resized]
          have : mul64 cap Heap.esz ≤ cap * 16 := Nat.mod_le _ _
          unfold Heap.esz at *
          omega) e
  omega

/-- **C158 is violated** by heaps: with a maximum of 2 the first addition makes the capacity 4, and three elements fit. -/
theorem heap_max_violated : ∃ (ops : List (Heap.Op Nat)) (h : Heap.Heap Nat) (os : List (Heap.Out Nat)),
    heapRun 2 (heapInit 2 0 none).1 ops = .ok (h, os) ∧ h.cap = 4 ∧ os = [.added true, .added true, .added true] :=
  ⟨[.add 1 1 (some fun _ => ⟨0, 0⟩), .add 2 2 none, .add 3 3 none], _, _, rfl, rfl, rfl⟩

/-- **C158 is violated** by heaps: with a maximum of 10 elements the fourth addition asks for the memory of 16. -/
theorem heap_memory_violated : ∃ (ops : List (Heap.Op Nat)) (h : Heap.Heap Nat) (os : List (Heap.Out Nat)),
    heapRun 10 (heapInit 10 0 none).1 ops = .ok (h, os) ∧ h.elems.length = 16 :=
  ⟨[.add 1 1 (some fun _ => ⟨0, 0⟩), .add 2 2 none, .add 3 3 none, .add 4 4 (some fun _ => ⟨0, 0⟩)], _, _, rfl, rfl⟩

/-! ### Map -/

section
variable {K C V : Type} [DecidableEq K] [DecidableEq C]

omit [DecidableEq K] [DecidableEq C] in
/-- **C158, map.** Growing is refused exactly if memory is missing or twice the room would exceed the maximum. -/
theorem map_refused_iff {M : Nat} (k : Map.Kind K C) (v0 : V) (al : Bool) (cap : Nat) :
    mapAlloc M k v0 al cap 2 = none ↔ al = false ∨ M < 2 * cap := by
  unfold mapAlloc mapAllocCap
  by_cases h : cap > M / 2
  · rw [if_pos h]; rw [half_lt] at h; simp [h]
  · rw [if_neg h]; rw [half_lt] at h; cases al <;> simp [h]

/-- The capacity is 0 (after an overflow) or a power of two. -/
def Pow2 (c : Nat) : Prop := c = 0 ∨ ∃ e, e ≤ 31 ∧ c = 2 ^ e

/-- The capacity of a map is eight, or below twice the maximum, or, if `s`, within the maximum. -/
def CapWithin (M : Nat) (s : Prop) (c : Nat) : Prop := Pow2 c ∧ (c ≤ 8 ∨ c < 2 * M) ∧ (s → c ≤ 8 ∨ c ≤ M)

theorem nextPow2_cases {v : Nat} (h1 : 1 ≤ v) (h2 : v < 4294967296) :
    Pow2 (Map.nextPow2 v) ∧ Map.nextPow2 v < 2 * v ∧ ∀ e, v ≤ 2 ^ e → Map.nextPow2 v ≤ 2 ^ e := by
  by_cases h : v ≤ 2147483648
  · obtain ⟨e, h3, h4, h5, h6⟩ := Map.nextPow2_spec h1 h
    rw [h3]
    refine ⟨.inr ⟨e, h5, rfl⟩, ?_, fun e' he' => Nat.pow_le_pow_right (by omega) (h6 e' he')⟩
    cases e with
    | zero => simp; omega
    | succ e =>
      have : ¬ v ≤ 2 ^ e := fun hv => by have := h6 e hv; omega
      rw [Nat.pow_succ]
      omega
  · rw [Map.nextPow2_big (by omega) h2]
    exact ⟨.inl rfl, by omega, fun e _ => by omega⟩

theorem grow_within {M c c' : Nat} {s : Prop} (hM : M ≤ 4294967295) (w : CapWithin M s c) (h : mapAllocCap M c 2 = some c') : CapWithin M s c' := by
  obtain ⟨w1, w2, w3⟩ := w
  unfold mapAllocCap at h
  split at h
  · cases h
  · next h2 =>
    cases h
    split
    · rw [show Map.nextPow2 8 = 8 from rfl]
      exact ⟨.inr ⟨3, by omega, rfl⟩, .inl (by omega), fun _ => .inl (by omega)⟩
    · next h8 =>
      have hmod : c * 2 % W32 = c * 2 := Nat.mod_eq_of_lt (by omega)
      rw [hmod]
      obtain ⟨p1, p2, p3⟩ := nextPow2_cases (v := c * 2) (by omega) (by omega)
      refine ⟨p1, .inr (by omega), fun _ => .inr ?_⟩
      rcases w1 with rfl | ⟨e, he, rfl⟩
      · omega
      · have := p3 (e + 1) (by rw [Nat.pow_succ]; omega)
        rw [Nat.pow_succ] at this
        omega

theorem init_within {M c c' : Nat} {s : Prop} (hM : M ≤ 4294967295) (hs : s → ∃ e, M = 2 ^ e) (h : mapAllocCap M c 1 = some c') : CapWithin M s c' := by
  unfold mapAllocCap at h
  rw [Nat.div_one, Nat.mul_one] at h
  split at h
  · cases h
  · next h2 =>
    cases h
    split
    · rw [show Map.nextPow2 8 = 8 from rfl]
      exact ⟨.inr ⟨3, by omega, rfl⟩, .inl (by omega), fun _ => .inl (by omega)⟩
    · next h8 =>
      have hmod : c % W32 = c := Nat.mod_eq_of_lt (by omega)
      rw [hmod]
      obtain ⟨p1, p2, p3⟩ := nextPow2_cases (v := c) (by omega) (by omega)
      refine ⟨p1, .inr (by omega), fun hh => .inr ?_⟩
      obtain ⟨e, rfl⟩ := hs hh
      exact p3 e (by omega)

omit [DecidableEq C] in
theorem remap_within {M : Nat} {s : Prop} (hM : M ≤ 4294967295) {k : Map.Kind K C} {v0 : V} {al : Bool} {m m' : Map.Map K V} {b : Bool}
    (w : CapWithin M s m.cap) (h : mapRemap M k v0 al m = .ok (m', b)) : CapWithin M s m'.cap := by
  unfold mapRemap at h
  split at h
  · cases h; exact w
  · unfold mapAlloc at h
    cases hc : mapAllocCap M m.cap 2 with
    | none => simp only [hc] at h; cases h; exact w
    | some c =>
      simp only [hc] at h
      cases al with
      | false => cases h; exact w
      | true =>
        simp only [if_true] at h
        split at h
        · cases h
        · obtain ⟨_, -, h⟩ := Res.bind_eq_ok.1 h
          cases h
          exact grow_within hM w hc

theorem mapStep_within {M : Nat} {s : Prop} (hM : M ≤ 4294967295) {k : Map.Kind K C} {v0 : V} {m m' : Map.Map K V} {op : Map.Op K V}
    {o : Map.Out V} (w : CapWithin M s m.cap) (h : mapStep M k v0 m op = .ok (m', o)) : CapWithin M s m'.cap := by
  cases op with
  | put key v al =>
    obtain ⟨⟨m1, r⟩, h1, h2⟩ := Res.bind_eq_ok.1 h
    cases h2
    obtain ⟨⟨m2, b⟩, h3, h4⟩ := Res.bind_eq_ok.1 h1
    have w' : CapWithin M s m2.cap := remap_within hM (m := { m with oom := false }) w h3
    dsimp only at h4
    split at h4
    · cases h4; exact w'
    · split at h4
      · cases h4; exact w'
      · obtain ⟨_, -, h4⟩ := Res.bind_eq_ok.1 h4
        obtain ⟨_, -, h4⟩ := Res.bind_eq_ok.1 h4
        obtain ⟨_, -, h4⟩ := Res.bind_eq_ok.1 h4
        cases h4; exact w'
  | get key =>
    obtain ⟨⟨m1, r⟩, h1, h2⟩ := Res.bind_eq_ok.1 h
    cases h2
    unfold Map.get at h1
    dsimp only at h1
    split at h1
    · cases h1; exact w
    · obtain ⟨_, -, h1⟩ := Res.bind_eq_ok.1 h1
      obtain ⟨_, -, h1⟩ := Res.bind_eq_ok.1 h1
      split at h1 <;> cases h1 <;> exact w
  | del key =>
    obtain ⟨⟨m1, r⟩, h1, h2⟩ := Res.bind_eq_ok.1 h
    cases h2
    unfold Map.del at h1
    dsimp only at h1
    split at h1
    · cases h1; exact w
    · obtain ⟨_, -, h1⟩ := Res.bind_eq_ok.1 h1
      obtain ⟨_, -, h1⟩ := Res.bind_eq_ok.1 h1
      split at h1
      · cases h1; exact w
      · obtain ⟨_, -, h1⟩ := Res.bind_eq_ok.1 h1
        obtain ⟨_, -, h1⟩ := Res.bind_eq_ok.1 h1
        cases h1; exact w
  | clear =>
    cases h
    show CapWithin M s (Map.clear k m).cap
    unfold Map.clear
    split <;> exact w

/-- **C158, map**, what holds of it: the capacity stays below twice the maximum (or is 8); and within the maximum if that is a power of
two from 8 on, or is at least 8 and the map was created without a capacity. Missing: other cases (`map_max_violated`). -/
theorem map_max_partial {M : Nat} (hM : M ≤ 4294967295) {k : Map.Kind K C} {v0 : V} {al : Bool} {g : Bool × Bool} {cap lf : Nat}
    {m m' : Map.Map K V} {ops : List (Map.Op K V)} {os : List (Map.Out V)} (hi : mapInit M k v0 al g cap lf = some m)
    (h : mapRun M k v0 m ops = .ok (m', os)) :
    (m'.cap = 8 ∨ m'.cap < max 8 (2 * M)) ∧ (8 ≤ M → (cap = 0 ∨ ∃ e, M = 2 ^ e) → m'.cap ≤ M) := by
  have run : ∀ {s : Prop} (ops : List (Map.Op K V)) (b : Map.Map K V) (os : List (Map.Out V)), CapWithin M s b.cap →
      mapRun M k v0 b ops = .ok (m', os) → CapWithin M s m'.cap := by
    intro s ops
    induction ops with
    | nil => intro b os w h; cases h; exact w
    | cons op ops ih =>
      intro b os w h
      obtain ⟨⟨b', o⟩, h1, h2⟩ := Res.bind_eq_ok.1 h
      obtain ⟨⟨b'', os'⟩, h3, h4⟩ := Res.bind_eq_ok.1 h2
      cases h4
      exact ih b' _ (mapStep_within hM w h1) h3
  have start : CapWithin M (cap = 0 ∨ ∃ e, M = 2 ^ e) m.cap := by
    unfold mapInit at hi
    dsimp only at hi
    generalize (if lf = 0 then 75 else lf) = f at hi
    split at hi
    · cases hi
    · split at hi
      · cases hi
        exact ⟨.inr ⟨0, by omega, rfl⟩, .inl (by simp [Map.emptyMap]), fun _ => .inl (by simp [Map.emptyMap])⟩
      · next hne =>
        unfold mapAlloc at hi
        cases hc : mapAllocCap M cap 1 with
        | none => simp only [hc] at hi; cases hi
        | some c =>
          simp only [hc] at hi
          cases al with
          | false => cases hi
          | true =>
            cases hi
            exact init_within hM (fun h => h.resolve_left hne) hc
  obtain ⟨-, h2, h3⟩ := run ops m os start h
  refine ⟨by omega, fun h8 hh => ?_⟩
  have := h3 hh
  omega

end

/-- **C158 is violated** by maps: with a maximum of 100 a map created for 100 entries has a capacity of 128. -/
theorem map_max_violated (k : Map.Kind K C) (v0 : V) : ∃ m, mapInit 100 k v0 true (false, false) 100 75 = some m ∧ m.cap = 128 :=
  ⟨_, rfl, rfl⟩

/-! ## Cases -/

/-- Nine additions to an array that may take 60 bytes, elements of 4 bytes: the ninth is refused. -/
def nine : List (Array.Op Nat) := (List.range 9).map fun i => .add i (some fun _ => 0)

example : ∃ a, arrayRun 60 4 Array.init nine = .ok a ∧ a.size = 8 ∧ a.oom = true ∧ a.elems.length * 4 ≤ 60 :=
  ⟨_, rfl, rfl, rfl, (array_max_partial (by decide) (by decide) (ops := nine) rfl).1⟩

example : ∃ a, arrayRun 64 4 Array.init nine = .ok a ∧ a.size = 9 ∧ a.oom = false := ⟨_, rfl, rfl, rfl⟩

/-- Eight additions to a queue that may have 15 places: the last is refused, as one place stays free. -/
def eight : List (Queue.Op Nat) := (List.range 8).map fun i => .addLast i (some fun _ => 0)

example : ∃ q os, queueRun 15 (Queue.init (some fun _ => 0)) eight = .ok (q, os) ∧ Queue.size q = 7 ∧ q.oom = true ∧ q.cap ≤ 15 :=
  ⟨_, _, rfl, rfl, rfl, (queue_max_partial (by decide) (al := some fun _ => 0) (ops := eight) rfl).2⟩

example : ∃ q os, queueRun 16 (Queue.init (some fun _ => 0)) eight = .ok (q, os) ∧ Queue.size q = 8 ∧ q.oom = false := ⟨_, _, rfl, rfl, rfl⟩

/-- Four additions to a heap -/
def four : List (Heap.Op Nat) := (List.range 4).map fun (i : Nat) => .add (i : Int) i (some fun _ => ⟨0, 0⟩)

example : ∃ h os, heapRun 9 (heapInit 9 0 none).1 four = .ok (h, os) ∧ os = [.added true, .added true, .added true, .added false] ∧ h.cap ≤ 9 :=
  ⟨_, _, rfl, rfl, (heap_max_partial (by decide) (cap := 0) (al := none) (ops := four) rfl).1⟩

example : ∃ h os, heapRun 10 (heapInit 10 0 none).1 four = .ok (h, os) ∧ os = [.added true, .added true, .added true, .added true] ∧ h.cap = 8 :=
  ⟨_, _, rfl, rfl, rfl⟩

/-- Numbers as keys, each its own hash -/
def numbers : Map.Kind Nat Nat := ⟨0, id, id, false⟩

/-- Seven additions to a map, of which six fit into eight places -/
def seven : List (Map.Op Nat Nat) := (List.range 7).map fun i => .put (i + 1) i true

/-- Number of entries, whether the last addition was refused, and capacity at the end of these additions -/
def sevenEnd (M : Nat) : Option (Nat × Bool × Nat) :=
  match mapInit M numbers 0 true (false, false) 0 0 with
  | none => none
  | some m => match mapRun M numbers 0 m seven with
    | .ok (m', _) => some (m'.size, m'.oom, m'.cap)
    | .ub => none

example : sevenEnd 15 = some (6, true, 8) := by decide +kernel

example : sevenEnd 16 = some (7, false, 16) := by decide +kernel

/-- The theorem applies to these: the capacity is at most 15. -/
example {m m' : Map.Map Nat Nat} {os : List (Map.Out Nat)} (hi : mapInit 15 numbers 0 true (false, false) 0 0 = some m)
    (h : mapRun 15 numbers 0 m seven = .ok (m', os)) : m'.cap ≤ 15 :=
  (map_max_partial (by decide) hi h).2 (by decide) (.inl rfl)

end Verif.Config
