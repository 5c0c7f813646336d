import Verif.Memory.Props

/-! # C117: what is left of a destroyed object

Arrays, heaps, buffers and timers are then as new ones without memory, and may be used again.
Queues and maps are not. -/

namespace Verif.Memory

/-- What destroying an object comes to: `free` is called once for its memory, and then the object
has no memory and is `o'`, and destroying it again does nothing. -/
def Destroys {ω β : Type} (term : ω → Store β → Res (ω × Store β)) (ptr : ω → Option Nat) (o o' : ω) : Prop :=
  ptr o' = none ∧
  (∀ st st', free (ptr o) st = .ok st' → term o st = .ok (o', st')) ∧
  ∀ st, term o' st = .ok (o', st)

/-- **C117**, arrays: a destroyed array is a new one. -/
theorem array_term {α : Type} (o : Array.Obj) :
    Destroys (Array.term (α := α)) (·.elems) o Array.init := by
  refine ⟨rfl, fun st st' h => ?_, fun st => rfl⟩
  simp only [Array.term, h, Res.ok_bind]

/-- **C117**, heaps: a destroyed heap is a new one without capacity. -/
theorem heap_term {δ : Type} (o : Heap.Obj) (al : Alloc (Verif.Heap.Data δ)) (s : Store (List (Verif.Heap.Data δ))) :
    Destroys (Heap.term (δ := δ)) (·.elems) o (Heap.init 0 al s).1.1 ∧ (Heap.init 0 al s).1.2 = true ∧
    ∀ h : Verif.Heap.Heap δ, Verif.Heap.term h = (Verif.Heap.init 0 al).1 := by
  refine ⟨⟨rfl, fun st st' h => ?_, fun st => rfl⟩, rfl, fun _ => rfl⟩
  simp only [Heap.term, h, Res.ok_bind]
  rfl

/-- **C117**, timers: a destroyed timer is a new one that starts at the time the old one had reached. -/
theorem timer_term (o : Timer.Obj) :
    Destroys Timer.term (·.list) o (Timer.init o.timestamp) ∧
    ∀ t : Verif.Timer.T, Verif.Timer.term t = Verif.Timer.init t.timestamp := by
  refine ⟨⟨rfl, fun st st' h => ?_, fun st => rfl⟩, fun _ => rfl⟩
  simp only [Timer.term, h, Res.ok_bind]
  rfl

/-- **C117**, buffers: a destroyed buffer is a new one without capacity; memory of the caller is not freed. -/
theorem buf_term (o : Buf.Obj) :
    (o.ref = false → Destroys Buf.term (·.mem) o (Buf.ofB none [] (Verif.Buf.init true 0).2)) ∧
    (o.ref = true → ∀ st, Buf.term o st = .ok (Buf.ofB none [] (Verif.Buf.init true 0).2, st)) ∧
    ∀ b, Verif.Buf.term b = (Verif.Buf.init true 0).2 := by
  refine ⟨fun hr => ⟨rfl, fun st st' h => ?_, fun st => rfl⟩, fun hr st => ?_, fun _ => rfl⟩
  · simp only [Buf.term, hr, h, Bool.not_false, if_true, Res.ok_bind]
    rfl
  · simp only [Buf.term, hr, Bool.not_true]
    rfl

/-- **C117**, strings: the pointer is NULL then. -/
theorem str_term (o : Option Nat) : Destroys Str.destroy (fun o => o) o none := by
  refine ⟨rfl, fun st st' h => ?_, fun st => rfl⟩
  cases o with
  | none => cases h; rfl
  | some i => simp only [Str.destroy, h, Res.ok_bind]

/-! ## Queues -/

/-- A queue that was destroyed. -/
def Queue.dead : Queue.Obj := ⟨false, 0, 0, 0, none⟩

/-- **C117**, queues, as far as it goes: a destroyed queue is empty, and may be destroyed again. -/
theorem queue_term_partial {α : Type} (o : Queue.Obj) :
    Destroys (Queue.term (α := α)) (·.elems) o Queue.dead ∧
    Verif.Queue.size (Queue.dead.view ([] : List α)) = 0 ∧
    Verif.Queue.empty (Queue.dead.view ([] : List α)) = true ∧
    ∀ q : Verif.Queue.Q α, Verif.Queue.term q = Queue.dead.view [] := by
  refine ⟨⟨rfl, fun st st' h => ?_, fun st => rfl⟩, by simp [Verif.Queue.size, Queue.dead, sub64], rfl, fun _ => rfl⟩
  simp only [Queue.term, h, Res.ok_bind]
  rfl

/-- **C117 is violated** by queues: adding to a destroyed queue stores through NULL, although there is
memory. -/
theorem queue_reuse_violated {α : Type} (x : α) (al : Alloc α) (st : Store (List α)) :
    Queue.step Queue.dead (.addLast x al) st = .ub ∧ Queue.step Queue.dead (.addFirst x al) st = .ub := by
  constructor <;> rfl

/-! ## Maps -/

variable {K C V : Type}

/-- A map that had memory and was destroyed. -/
def Map.dead : Map.Obj := ⟨none, 1, 0, 0, 0, false, false, false⟩

/-- **C117**, maps, as far as it goes: a destroyed map is empty, and may be destroyed again. -/
theorem map_term_partial (k : Verif.Map.Kind K C) (v0 : V) (o : Map.Obj) :
    Destroys (Map.term (K := K) (V := V)) (·.mem) o (if o.mem = none then o else Map.dead) ∧
    Map.dead.view (Map.emptyItems k v0) = Verif.Map.emptyMap k v0 ∧
    ∀ m : Verif.Map.Map K V, m.static = false → Verif.Map.term k v0 m = Verif.Map.emptyMap k v0 := by
  refine ⟨⟨?_, fun st st' h => ?_, fun st => ?_⟩, rfl, fun m h => ?_⟩
  · cases h : o.mem with
    | none => simp [h]
    | some i => rfl
  · dsimp only at h
    cases ho : o.mem with
    | none => rw [ho] at h; cases h; simp [Map.term, ho]
    | some i => rw [ho] at h; simp only [Map.term, ho, h, Res.ok_bind]; rfl
  · cases ho : o.mem with
    | none => simp [Map.term, ho]
    | some i => rfl
  · simp [Verif.Map.term, h]

end Verif.Memory

namespace Verif.Map

variable {K C V : Type} [DecidableEq K] [DecidableEq C]

/-- A put into a map without a load factor. -/
theorem put_doubles {k : Kind K C} {v0 : V} {al : Bool} {m m' : Map K V} {key : K} {v r : V}
    (h1 : m.loadFac = 0) (h2 : m.remap = 0) (h : put k v0 al m key v = .ok (m', r)) (ho : m'.oom = false) :
    allocCap m.cap 2 = some m'.cap ∧ m'.loadFac = 0 ∧ m'.remap = 0 := by
  obtain ⟨⟨m1, ok⟩, hr, h⟩ := Res.bind_eq_ok.1 h
  unfold remap at hr
  rw [if_neg (by simp [h2])] at hr
  unfold alloc at hr
  dsimp only at hr
  cases hc : allocCap m.cap 2 with
  | none =>
    rw [hc] at hr
    cases hr
    cases h
    cases ho
  | some c =>
    rw [hc] at hr
    cases al with
    | false =>
      cases hr
      cases h
      cases ho
    | true =>
      simp only [if_true] at hr
      split at hr
      · cases hr
      · obtain ⟨new, _, hr⟩ := Res.bind_eq_ok.1 hr
        cases hr
        simp only [Bool.not_true, Bool.false_eq_true, if_false] at h
        have hz : remapOf c m.loadFac = 0 := by simp [remapOf, h1]
        split at h
        · cases h; exact ⟨rfl, h1, hz⟩
        · obtain ⟨p, _, h⟩ := Res.bind_eq_ok.1 h
          obtain ⟨c', _, h⟩ := Res.bind_eq_ok.1 h
          obtain ⟨l, _, h⟩ := Res.bind_eq_ok.1 h
          cases h
          exact ⟨rfl, h1, hz⟩

theorem allocCap_pow {e : Nat} (h1 : 3 ≤ e) {c : Nat} (h : allocCap (2 ^ e) 2 = some c) : c = 2 ^ (e + 1) ∧ e < 31 := by
  unfold allocCap at h
  have he : e < 31 := by
    apply Classical.byContradiction
    intro hn
    have := Nat.pow_le_pow_right (n := 2) (by omega) (Nat.le_of_not_lt hn)
    rw [if_pos (by omega)] at h
    cases h
  have h8 : 2 ^ 3 ≤ 2 ^ e := Nat.pow_le_pow_right (by omega) h1
  have hlt : 2 ^ (e + 1) ≤ 2 ^ 31 := Nat.pow_le_pow_right (by omega) he
  have hp : 2 ^ (e + 1) = 2 ^ e * 2 := Nat.pow_succ ..
  rw [if_neg (by omega), if_neg (by omega), ← hp, Nat.mod_eq_of_lt (by omega), nextPow2_pow (by omega)] at h
  cases h
  exact ⟨rfl, he⟩

/-- A map without load factor doubles its memory with every put. -/
theorem reuse_empty {k : Kind K C} {v0 : V} {ops : List (Op K V)} (hp : ∀ op ∈ ops, ∃ key v al, op = .put key v al)
    {m' : Map K V} {os : List (Out V)} (h : run k v0 (emptyMap k v0) ops = .ok (m', os))
    (ho : ∀ o ∈ os, o.oom = false) : (ops ≠ [] → m'.cap = 2 ^ (ops.length + 2)) ∧ ops.length < 30 := by
  have key : ∀ (ops : List (Op K V)), (∀ op ∈ ops, ∃ key v al, op = .put key v al) →
      ∀ (m : Map K V) e, 3 ≤ e → e ≤ 31 → m.cap = 2 ^ e → m.loadFac = 0 → m.remap = 0 → ∀ m' os, run k v0 m ops = .ok (m', os) →
      (∀ o ∈ os, o.oom = false) → m'.cap = 2 ^ (ops.length + e) ∧ ops.length + e ≤ 31 := by
    intro ops
    induction ops with
    | nil =>
      intro _ m e _ h31 hc _ _ m' os h _
      cases h
      exact ⟨by simpa using hc, by simpa using h31⟩
    | cons op ops ih =>
      intro hp m e he h31 hc h1 h2 m' os h ho
      obtain ⟨ky, v, al, rfl⟩ := hp op (List.mem_cons_self ..)
      obtain ⟨⟨m1, o⟩, hs, h⟩ := Res.bind_eq_ok.1 h
      obtain ⟨⟨m2, os'⟩, hr, h⟩ := Res.bind_eq_ok.1 h
      cases h
      obtain ⟨⟨m3, r⟩, hs', h⟩ := Res.bind_eq_ok.1 hs
      cases h
      obtain ⟨ha, hl, hm⟩ := put_doubles h1 h2 hs' (ho _ (List.mem_cons_self ..))
      rw [hc] at ha
      obtain ⟨hc', h31'⟩ := allocCap_pow he ha
      obtain ⟨hx, hy⟩ := ih (fun o h => hp o (List.mem_cons_of_mem _ h)) m1 (e + 1) (by omega) (by omega) hc' hl hm _ _ hr
        (fun o h => ho o (List.mem_cons_of_mem _ h))
      refine ⟨?_, by simp only [List.length_cons]; omega⟩
      rw [hx, List.length_cons]
      congr 1
      omega
  cases ops with
  | nil => exact ⟨fun h => absurd rfl h, by simp⟩
  | cons op ops =>
    obtain ⟨ky, v, al, rfl⟩ := hp op (List.mem_cons_self ..)
    obtain ⟨⟨m1, o⟩, hs, h⟩ := Res.bind_eq_ok.1 h
    obtain ⟨⟨m2, os'⟩, hr, h⟩ := Res.bind_eq_ok.1 h
    cases h
    obtain ⟨⟨m3, r⟩, hs', h⟩ := Res.bind_eq_ok.1 hs
    cases h
    obtain ⟨ha, hl, hm⟩ := put_doubles (m := emptyMap k v0) rfl rfl hs' (ho _ (List.mem_cons_self ..))
    have h8 : allocCap (emptyMap k v0).cap 2 = some 8 := by
      show allocCap 1 2 = some 8
      decide +kernel
    rw [h8] at ha
    obtain ⟨hx, hy⟩ := key ops (fun o h => hp o (List.mem_cons_of_mem _ h)) m1 3 (by omega) (by omega)
      (by simpa using ha.symm) hl hm _ _ hr (fun o h => ho o (List.mem_cons_of_mem _ h))
    refine ⟨fun _ => ?_, by simp only [List.length_cons]; omega⟩
    rw [hx, List.length_cons]

/-- **C117 is violated** by maps: a destroyed map that had memory has no load factor, so that every put
into it doubles the memory, even if the key is always the same: the `n`th has taken 2^(n+2) cells, and
of 30 puts one fails whatever memory there is. -/
theorem reuse_violated {k : Kind K C} {v0 : V} {m : Map K V} (hm : m.static = false) {ops : List (Op K V)}
    (hp : ∀ op ∈ ops, ∃ key v al, op = .put key v al)
    {m' : Map K V} {os : List (Out V)} (h : run k v0 (term k v0 m) ops = .ok (m', os))
    (ho : ∀ o ∈ os, o.oom = false) : (ops ≠ [] → m'.cap = 2 ^ (ops.length + 2)) ∧ ops.length < 30 := by
  unfold term at h
  rw [hm] at h
  exact reuse_empty hp h ho

/-- C117 for maps that were made without memory and have none yet: they may be used after they were
destroyed as if they had not been, with the load factor they were made with. What is missing is
the maps that have memory (`reuse_violated`). -/
theorem reuse_partial {k : Kind K C} {v0 : V} {al : Bool} {g : Bool × Bool} {lf : Nat} {m : Map K V}
    (hi : init k v0 al g 0 lf = some m) (ops : List (Op K V)) :
    run k v0 (term k v0 m) ops = run k v0 m ops ∧ m.loadFac = if lf = 0 then 75 else lf := by
  unfold init at hi
  generalize (if lf = 0 then 75 else lf) = f at hi ⊢
  by_cases hf : f > 95 ∨ f < 25
  · rw [if_pos hf] at hi; cases hi
  · rw [if_neg hf, if_pos rfl] at hi
    cases hi
    exact ⟨rfl, rfl⟩

-- a map made without memory, with the load factor 50
example : (init u32Kind 0 true (false, false) 0 50).isSome = true := by decide +kernel

/-- Three puts of the same key into a destroyed map, which would fit into 8 cells, take 32. -/
example : (match run u32Kind 0 (term u32Kind 0 { emptyMap u32Kind 0 with static := false })
    [.put 5 1 true, .put 5 2 true, .put 5 3 true] with
    | .ok (m, os) => decide (m.cap = 32) && decide (m.size = 1) && os.all (fun o => !o.oom)
    | .ub => false) = true := by
  decide +kernel

end Verif.Map

namespace Verif.Memory

/-- Destroying an array frees its block. -/
example : (match Array.term ⟨false, 4, 2, some 0⟩ (alloc [1, 2, 3, 4] (⟨0, fun _ => none⟩ : Store (List Nat))).2 with
    | .ok (o, st) => decide (o.elems = none) && (st.blk 0).isNone
    | .ub => false) = true := by
  decide +kernel

end Verif.Memory
