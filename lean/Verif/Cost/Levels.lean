import Verif.Cost.Heap

/-!
# How many keys a heap compares

The functions of the heap once more, with the number of keys they compare. Without the number they are the same.
-/

namespace Verif.Heap

/-- `siftUp` with the number of comparisons at heap/sc_heap.c:99 -/
def siftUpC (key : Int) : (fuel : Nat) → List (Data δ) → Nat → Res ((List (Data δ) × Nat) × Nat)
  | 0, _, _ => .ub
  | fuel + 1, m, i =>
    if i ≠ 1 then do
      let p ← rd m (i / 2)
      if key < p.key then do
        let m ← wr m i p
        let (r, n) ← siftUpC key fuel m (i / 2)
        .ok (r, n + 1)
      else .ok ((m, i), 1)
    else .ok ((m, i), 0)

/-- `add` with the number of comparisons -/
def addC (al : Alloc (Data δ)) (h : Heap δ) (key : Int) (data : δ) : Res ((Heap δ × Bool) × Nat) :=
  let size := add64 h.size 1
  let place (h : Heap δ) : Res ((Heap δ × Bool) × Nat) := do
    let ((m, i), n) ← siftUpC key (h.size + 1) h.elems h.size
    let m ← wr m i { key := key, data := data }
    return (({ h with elems := m }, true), n)
  if size ≥ h.cap then
    let cap := if h.cap ≠ 0 then mul64 h.cap 2 else 4
    let m := mul64 (mul64 cap 2) esz
    if h.cap ≥ heapMax / 2 then .ok (({ h with size := size }, false), 0)
    else match al with
      | none => .ok (({ h with size := size }, false), 0)
      | some fill =>
        place { cap := cap, size := size, elems := resized h.elems (m / esz) fill }
  else place { h with size := size }

/-- `siftDown` with the number of comparisons at heap/sc_heap.c:134-139 -/
def siftDownC (n : Nat) (lk : Int) :
    (fuel : Nat) → List (Data δ) → (i child : Nat) → Res ((List (Data δ) × Nat) × Nat)
  | 0, _, _, _ => .ub
  | fuel + 1, m, i, child =>
    if child ≤ n then do
      let (child, k) ← (if child < n then do
          let a ← rd m child
          let b ← rd m (child + 1)
          if a.key > b.key then .ok (child + 1, 1) else .ok (child, 1)
        else .ok (child, 0) : Res (Nat × Nat))
      let c ← rd m child
      if lk ≤ c.key then .ok ((m, i), k + 1)
      else do
        let m ← wr m i c
        let (r, k') ← siftDownC n lk fuel m child (mul64 child 2)
        .ok (r, k + 1 + k')
    else .ok ((m, i), 0)

/-- `pop` with the number of comparisons -/
def popC (h : Heap δ) : Res ((Heap δ × Option (Data δ)) × Nat) :=
  if h.size = 0 then .ok ((h, none), 0)
  else do
    let top ← rd h.elems 1
    let m ← wr h.elems 0 top
    let last ← rd m h.size
    let n := h.size - 1
    let ((m, i), k) ← siftDownC n last.key (n + 1) m 1 2
    let m ← wr m i last
    let r ← rd m 0
    return (({ h with size := n, elems := m }, some r), k)

/-- Without the number -/
def plain (x : Res (α × Nat)) : Res α := x >>= fun p => .ok p.1

theorem siftUpC_plain (key : Int) : ∀ (fuel : Nat) (m : List (Data δ)) (i : Nat), plain (siftUpC key fuel m i) = siftUp key fuel m i
  | 0, _, _ => rfl
  | fuel + 1, m, i => by
    unfold siftUpC siftUp plain
    split
    · cases rd m (i / 2) with
      | ub => rfl
      | ok p =>
        simp only [Res.ok_bind]
        split
        · cases wr m i p with
          | ub => rfl
          | ok m' =>
            simp only [Res.ok_bind]
            rw [← siftUpC_plain key fuel m' (i / 2)]
            unfold plain
            cases siftUpC key fuel m' (i / 2) <;> rfl
        · rfl
    · rfl

theorem siftDownC_plain (n : Nat) (lk : Int) : ∀ (fuel : Nat) (m : List (Data δ)) (i c : Nat),
    plain (siftDownC n lk fuel m i c) = siftDown n lk fuel m i c
  | 0, _, _, _ => rfl
  | fuel + 1, m, i, c => by
    have key : ∀ (c' k : Nat), plain (do
          let x ← rd m c'
          if lk ≤ x.key then .ok ((m, i), k + 1)
          else do
            let m ← wr m i x
            let (r, k') ← siftDownC n lk fuel m c' (mul64 c' 2)
            .ok (r, k + 1 + k')) = (do
          let x ← rd m c'
          if lk ≤ x.key then .ok (m, i)
          else do
            let m ← wr m i x
            siftDown n lk fuel m c' (mul64 c' 2)) := by
      intro c' k
      unfold plain
      cases rd m c' with
      | ub => rfl
      | ok x =>
        simp only [Res.ok_bind]
        split
        · rfl
        · cases wr m i x with
          | ub => rfl
          | ok m' =>
            simp only [Res.ok_bind]
            rw [← siftDownC_plain n lk fuel m' c' (mul64 c' 2)]
            unfold plain
            cases siftDownC n lk fuel m' c' (mul64 c' 2) <;> rfl
    unfold siftDownC siftDown
    split
    · split
      · cases rd m c with
        | ub => rfl
        | ok a =>
          cases rd m (c + 1) with
          | ub => rfl
          | ok b =>
            simp only [Res.ok_bind]
            split
            · exact key _ _
            · exact key _ _
      · exact key _ _
    · rfl

/-- The counted functions are those of the model. -/
theorem addC_plain (al : Alloc (Data δ)) (h : Heap δ) (key : Int) (data : δ) : plain (addC al h key data) = add al h key data := by
  have place : ∀ h : Heap δ, plain (do
      let ((m, i), n) ← siftUpC key (h.size + 1) h.elems h.size
      let m ← wr m i { key := key, data := data }
      return (({ h with elems := m }, true), n)) = (do
      let (m, i) ← siftUp key (h.size + 1) h.elems h.size
      let m ← wr m i { key := key, data := data }
      return ({ h with elems := m }, true)) := by
    intro h
    rw [← siftUpC_plain]
    unfold plain
    cases siftUpC key (h.size + 1) h.elems h.size with
    | ub => rfl
    | ok r =>
      obtain ⟨⟨m, i⟩, n⟩ := r
      simp only [Res.ok_bind]
      cases wr m i _ <;> rfl
  unfold addC add
  simp only
  split
  · split
    · rfl
    · cases al with
      | none => rfl
      | some fill =>
        exact place { cap := if h.cap ≠ 0 then mul64 h.cap 2 else 4, size := add64 h.size 1, elems := resized h.elems (mul64 (mul64 (if h.cap ≠ 0 then mul64 h.cap 2 else 4) 2) esz / esz) fill }
  · exact place { h with size := add64 h.size 1 }

theorem popC_plain (h : Heap δ) : plain (popC h) = pop h := by
  unfold popC pop
  split
  · rfl
  · cases rd h.elems 1 with
    | ub => rfl
    | ok t =>
      simp only [Res.ok_bind]
      cases wr h.elems 0 t with
      | ub => rfl
      | ok m =>
        simp only [Res.ok_bind]
        cases rd m h.size with
        | ub => rfl
        | ok last =>
          simp only [Res.ok_bind]
          rw [← siftDownC_plain]
          unfold plain
          cases siftDownC (h.size - 1) last.key (h.size - 1 + 1) m 1 2 with
          | ub => rfl
          | ok r =>
            obtain ⟨⟨m', i⟩, n⟩ := r
            simp only [Res.ok_bind]
            cases wr m' i last with
            | ub => rfl
            | ok m'' =>
              simp only [Res.ok_bind]
              cases rd m'' 0 <;> rfl

theorem siftUpC_le (key : Int) : ∀ (fuel : Nat) {m : List (Data δ)} {i n : Nat} {r : List (Data δ) × Nat}, i ≠ 0 →
    siftUpC key fuel m i = .ok (r, n) → 2 ^ n ≤ i
  | 0, _, _, _, _, _, h => by cases h
  | fuel + 1, m, i, n, r, h0, h => by
    unfold siftUpC at h
    split at h
    · obtain ⟨p, -, h⟩ := Res.bind_eq_ok.1 h
      split at h
      · obtain ⟨m', -, h⟩ := Res.bind_eq_ok.1 h
        obtain ⟨⟨r', n'⟩, h', h⟩ := Res.bind_eq_ok.1 h
        cases h
        have := siftUpC_le key fuel (by omega) h'
        simp only [Nat.pow_succ]
        omega
      · cases h; omega
    · cases h; omega

theorem siftDownC_le (n : Nat) (hn : n < 2 ^ 63) (lk : Int) : ∀ (fuel : Nat) {m : List (Data δ)} {i c k : Nat} {r : List (Data δ) × Nat},
    2 ≤ c → siftDownC n lk fuel m i c = .ok (r, k) → ∃ l, k ≤ 2 * l ∧ (l ≠ 0 → c * 2 ^ (l - 1) ≤ n)
  | 0, _, _, _, _, _, _, h => by cases h
  | fuel + 1, m, i, c, k, r, hc, h => by
    unfold siftDownC at h
    split at h
    · rename_i hcn
      obtain ⟨⟨c', j⟩, hch, h⟩ := Res.bind_eq_ok.1 h
      have hj : j ≤ 1 ∧ c ≤ c' ∧ c' ≤ n := by
        split at hch
        · obtain ⟨a, -, hch⟩ := Res.bind_eq_ok.1 hch
          obtain ⟨b, -, hch⟩ := Res.bind_eq_ok.1 hch
          split at hch <;> cases hch <;> omega
        · cases hch; omega
      obtain ⟨x, -, h⟩ := Res.bind_eq_ok.1 h
      split at h
      · cases h
        exact ⟨1, by omega, fun _ => by simpa using hcn⟩
      · obtain ⟨m', -, h⟩ := Res.bind_eq_ok.1 h
        obtain ⟨⟨r', k'⟩, h', h⟩ := Res.bind_eq_ok.1 h
        cases h
        have hm : mul64 c' 2 = c' * 2 := Nat.mod_eq_of_lt (by omega)
        rw [hm] at h'
        obtain ⟨l, hl, hl'⟩ := siftDownC_le n hn lk fuel (by omega) h'
        refine ⟨l + 1, by omega, fun _ => ?_⟩
        cases l with
        | zero => simpa using hcn
        | succ l =>
          have := hl' (by omega)
          simp only [Nat.add_sub_cancel] at this ⊢
          refine Nat.le_trans ?_ this
          rw [Nat.pow_succ, Nat.mul_assoc, Nat.mul_comm 2]
          exact Nat.mul_le_mul_right _ hj.2.1
    · cases h; exact ⟨0, by omega, fun h => absurd rfl h⟩

/-- **An addition compares at most as many keys as the heap has levels above the new element**: with `n` elements after it, at most the
logarithm of `n` to base 2. -/
theorem add_compares {al : Alloc (Data δ)} {h h' : Heap δ} {key : Int} {data : δ} {b : Bool} {n : Nat} (hs : h.size + 1 < 2 ^ 64)
    (ha : addC al h key data = .ok ((h', b), n)) : n ≤ Nat.log2 h'.size := by
  have h1 : add64 h.size 1 = h.size + 1 := Nat.mod_eq_of_lt hs
  have place : ∀ g : Heap δ, g.size = h.size + 1 → (do
      let ((m, i), n) ← siftUpC key (g.size + 1) g.elems g.size
      let m ← wr m i { key := key, data := data }
      return (({ g with elems := m }, true), n)) = Res.ok ((h', b), n) → n ≤ Nat.log2 h'.size := by
    intro g hg ha
    obtain ⟨⟨⟨m, i⟩, n'⟩, hu, ha⟩ := Res.bind_eq_ok.1 ha
    obtain ⟨m', -, ha⟩ := Res.bind_eq_ok.1 ha
    cases ha
    have := siftUpC_le key _ (by omega) hu
    exact (Nat.le_log2 (by simp only; omega)).2 this
  unfold addC at ha
  simp only [h1] at ha
  split at ha
  · split at ha
    · cases ha; exact Nat.zero_le _
    · cases al with
      | none => cases ha; exact Nat.zero_le _
      | some fill =>
        exact place { cap := if h.cap ≠ 0 then mul64 h.cap 2 else 4, size := h.size + 1, elems := resized h.elems (mul64 (mul64 (if h.cap ≠ 0 then mul64 h.cap 2 else 4) 2) esz / esz) fill } rfl ha
  · exact place { h with size := h.size + 1 } rfl ha

/-- **Taking the first compares at most two keys for each level**: with `n` elements left, at most twice the logarithm of `n` to base 2. -/
theorem pop_compares {h h' : Heap δ} {e : Option (Data δ)} {n : Nat} (hs : h.size < 2 ^ 63) (hp : popC h = .ok ((h', e), n)) :
    n ≤ 2 * Nat.log2 h'.size := by
  unfold popC at hp
  split at hp
  · cases hp; exact Nat.zero_le _
  · simp only [Res.bind_eq_ok] at hp
    obtain ⟨x, -, m, hw, y, -, ⟨⟨m', i⟩, k⟩, hd, m'', hw', z, -, hp⟩ := hp
    cases hp
    obtain ⟨l, hl, hl'⟩ := siftDownC_le (h.size - 1) (by omega) y.key _ (by omega) hd
    simp only
    cases l with
    | zero => omega
    | succ l =>
      have h2 := hl' (by omega)
      simp only [Nat.add_sub_cancel] at h2
      have hpow : 2 ^ (l + 1) ≤ h.size - 1 := by rw [Nat.pow_succ]; omega
      have : 1 ≤ 2 ^ (l + 1) := Nat.one_le_two_pow
      have := (Nat.le_log2 (by omega)).2 hpow
      omega

/-- Seven elements in falling order: the last one passes two levels, and the first is taken with three comparisons. -/
example : (run (init 8 (some fun _ => (⟨0, 0⟩ : Data Nat))).1 ([70, 60, 50, 40, 30, 20].map fun k => .add k 0 none) >>= fun p =>
    addC none p.1 10 0 >>= fun a => popC a.1.1 >>= fun b => .ok (a.2, b.2, b.1.2.map (·.key))) = .ok (2, 3, some 10) := by
  decide +kernel

end Verif.Heap
