import Verif.Sock.WinPipe
import Verif.Basic

/-!
# The memory, sockets and locks of the poller for Windows

The other models of this poller follow what is registered; this one follows what the poller has taken from the system. A poller has a
block for results, one for the array that `WSAPoll` reads, one that grows with the pending requests, and up to 16 chunks.
-/

namespace Verif.Poll.Win.Life

open Sock (WinPipe.Pipe)

/-- Whether the n-th request for memory succeeds, and what the sockets do -/
structure Env where
  mem : Nat → Bool
  sock : Sock.WinPipe.Env

/-- Blocks in use, an address that was never used, the number of requests for memory so far, the sockets, and the critical sections in use -/
structure World where
  heap : List Nat
  next : Nat
  n : Nat
  sock : Sock.WinPipe.World
  locks : Nat

/-- The pointers of `struct sc_sock_poll`, socket/sc_sock.h:360-378, and its wakeup pipe -/
structure Poller where
  results : Option Nat
  events : Option Nat
  data : List (Option Nat)
  ops : Option Nat
  pipe : WinPipe.Pipe

/-- `*p = (struct sc_sock_poll){0}` -/
def Poller.zero : Poller := ⟨none, none, List.replicate 16 none, none, ⟨none, none⟩⟩

/-- `sc_sock_malloc` -/
def malloc (e : Env) (w : World) : Option Nat × World :=
  if e.mem w.n then (some w.next, { w with heap := w.next :: w.heap, next := w.next + 1, n := w.n + 1 }) else (none, { w with n := w.n + 1 })

/-- `sc_sock_free` -/
def free (b : Option Nat) (w : World) : Res World :=
  match b with
  | none => .ok w
  | some b => if b ∈ w.heap then .ok { w with heap := w.heap.erase b } else .ub

/-- `sc_sock_realloc`: the block moves, or stays as it is if there is no memory. -/
def realloc (e : Env) (b : Option Nat) (w : World) : Res (Option Nat × World) :=
  if e.mem w.n then do
    let w ← free b w
    .ok (malloc e w)
  else .ok (none, { w with n := w.n + 1 })

/-- The end of `sc_sock_poll_init` after a failure, socket/sc_sock.c:1568-1579; `results` keeps its value. -/
def initErr (p : Poller) (w : World) : Res (Int × Poller × World) := do
  let w ← free p.results w
  let w ← free p.events w
  let d ← rd p.data 0
  let w ← free d w
  .ok (-1, { p with events := none, data := p.data.set 0 none }, w)

/-- `sc_sock_poll_init`, socket/sc_sock.c:1527-1580. To register the wakeup pipe takes no memory, as `count < cap`. -/
def init (e : Env) (w : World) : Res (Int × Poller × World) :=
  let p := Poller.zero
  match malloc e w with
  | (none, w) => initErr p w
  | (some r, w) =>
    let p := { p with results := some r }
    match malloc e w with
    | (none, w) => initErr p w
    | (some ev, w) =>
      let p := { p with events := some ev }
      match malloc e w with
      | (none, w) => initErr p w
      | (some d, w) =>
        let p := { p with data := p.data.set 0 (some d) }
        match Sock.WinPipe.init e.sock w.sock with
        | (rc, pipe, sk) =>
          let p := { p with pipe := pipe }
          let w := { w with sock := sk }
          if rc ≠ 0 then initErr p w else .ok (0, p, { w with locks := w.locks + 1 })

/-- The chunks are released up to the first that is not there, socket/sc_sock.c:1597-1600. -/
def freeData : List (Option Nat) → World → Res (List (Option Nat) × World)
  | [], w => .ok ([], w)
  | none :: ds, w => .ok (none :: ds, w)
  | some b :: ds, w => do
    let w ← free (some b) w
    let (ds, w) ← freeData ds w
    .ok (none :: ds, w)

/-- `sc_sock_poll_term`, socket/sc_sock.c:1582-1611, while nobody polls; `results` and `ops` keep their values. -/
def term (e : Env) (p : Poller) (w : World) : Res (Int × Poller × World) :=
  match p.events with
  | none => .ok (0, p, w)
  | some _ => do
    let (rc, pipe, sk) := Sock.WinPipe.term e.sock p.pipe w.sock
    let w := { w with sock := sk, locks := w.locks - 1 }
    let (data, w) ← freeData p.data w
    let w ← free p.results w
    let w ← free p.events w
    let w ← free p.ops w
    .ok (rc, { p with events := none, data := data, pipe := pipe }, w)

/-- The first chunk that is not there, socket/sc_sock.c:1643-1652 -/
def place : List (Option Nat) → Option Nat
  | [] => none
  | none :: _ => some 0
  | some _ :: ds => (place ds).map (· + 1)

/-- `sc_sock_poll_expand` when the array is full, socket/sc_sock.c:1613-1674. The check that `cap` can be doubled succeeds, as 16 chunks hold less. -/
def grow (e : Env) (p : Poller) (w : World) : Res (Int × Poller × World) := do
  let (ev, w) ← realloc e p.events w
  match ev with
  | none => .ok (-1, p, w)
  | some ev =>
    match place (p.data.drop 1) with
    | none => do
      let w ← free (some ev) w
      .ok (-1, p, w)
    | some i =>
      match malloc e w with
      | (none, w) => do
        let w ← free (some ev) w
        .ok (-1, p, w)
      | (some d, w) => .ok (0, { p with data := p.data.set (i + 1) (some d), events := some ev }, w)

/-- The array of pending requests grows, socket/sc_sock.c:1687-1707. -/
def growOps (e : Env) (p : Poller) (w : World) : Res (Int × Poller × World) := do
  let (ops, w) ← (match p.ops with
    | none => Res.ok (malloc e w)
    | some b => realloc e (some b) w)
  match ops with
  | none => .ok (-1, p, w)
  | some b => .ok (0, { p with ops := some b }, w)

/-- Whether `sc_sock_poll_wait` returns -1 at once, socket/sc_sock.c:2023-2026 -/
def refused (p : Poller) : Bool := p.events.isNone

/-! ## What a poller owns -/

/-- The blocks of a poller -/
def blocks (p : Poller) : List Nat := p.results.toList ++ p.events.toList ++ p.data.filterMap id ++ p.ops.toList

/-- The sockets of a pipe -/
def ends (q : WinPipe.Pipe) : List Nat := q.r.toList ++ q.w.toList

/-- Chunks are used from the first on. -/
def Packed (data : List (Option Nat)) : Prop := ∃ l k, data = l.map some ++ List.replicate k none ∧ l ≠ []

/-- What the poller has taken is what is in use beyond `heap`, `socks` and `locks`. -/
structure Owns (heap socks : List Nat) (locks : Nat) (p : Poller) (w : World) : Prop where
  up : ∀ b, p.events = some b → w.heap.Perm (blocks p ++ heap) ∧ w.sock.opened = ends p.pipe ++ socks ∧ w.locks = locks + 1 ∧ Packed p.data ∧
    ∃ r w, p.pipe = ⟨some r, some w⟩ ∧ r ≠ w
  down : p.events = none → w.heap.Perm heap ∧ w.sock.opened = socks ∧ w.locks = locks
  low : ∀ b ∈ w.heap, b < w.next
  nodup : w.heap.Nodup

/-! ## Proofs -/

theorem free_ok {b : Nat} {w : World} {l : List Nat} (h : w.heap.Perm (b :: l)) :
    ∃ w', free (some b) w = .ok w' ∧ w'.heap.Perm l ∧ (∀ x ∈ w'.heap, x ∈ w.heap) ∧ (w.heap.Nodup → w'.heap.Nodup) ∧
      w' = { w with heap := w'.heap } := by
  have hm : b ∈ w.heap := h.mem_iff.2 List.mem_cons_self
  refine ⟨{ w with heap := w.heap.erase b }, by simp [free, hm], ?_, fun x hx => List.mem_of_mem_erase hx, fun hn => hn.erase b, rfl⟩
  have := h.erase b
  simpa using this

theorem freeOpt_ok {b : Option Nat} {w : World} {l : List Nat} (h : w.heap.Perm (b.toList ++ l)) :
    ∃ w', free b w = .ok w' ∧ w'.heap.Perm l ∧ (∀ x ∈ w'.heap, x ∈ w.heap) ∧ (w.heap.Nodup → w'.heap.Nodup) ∧
      w' = { w with heap := w'.heap } := by
  cases b with
  | none => exact ⟨w, rfl, h, fun _ h => h, id, rfl⟩
  | some b => exact free_ok h

theorem freeData_ok (k : Nat) : ∀ (l : List Nat) {w : World} {r : List Nat}, w.heap.Perm (l ++ r) →
    ∃ data w', freeData (l.map some ++ List.replicate k none) w = .ok (data, w') ∧ data = List.replicate (l.length + k) none ∧ w'.heap.Perm r ∧
      (∀ x ∈ w'.heap, x ∈ w.heap) ∧ (w.heap.Nodup → w'.heap.Nodup) ∧ w' = { w with heap := w'.heap }
  | [], w, r, h => by
    cases k with
    | zero => exact ⟨[], w, rfl, rfl, h, fun _ h => h, id, rfl⟩
    | succ k => exact ⟨_, w, rfl, by rw [← List.replicate_succ, List.length_nil, Nat.zero_add], h, fun _ h => h, id, rfl⟩
  | b :: l, w, r, h => by
    obtain ⟨w1, h1, h2, h3, h4, h5⟩ := free_ok (l := l ++ r) h
    obtain ⟨data, w2, k1, k2, k3, k4, k5, k6⟩ := freeData_ok k l h2
    refine ⟨none :: data, w2, ?_, ?_, k3, fun x hx => h3 x (k4 x hx), fun hn => k5 (h4 hn), ?_⟩
    · show freeData (some b :: (l.map some ++ List.replicate k none)) w = _
      unfold freeData
      rw [h1]
      simp only [Res.ok_bind]
      rw [k1]; rfl
    · rw [k2, List.length_cons, Nat.add_right_comm, List.replicate_succ]
    · rw [k6, h5]

theorem packed_blocks {l : List Nat} {k : Nat} : (l.map some ++ List.replicate k none).filterMap id = l := by
  rw [List.filterMap_append, List.filterMap_map]
  have : (List.replicate k (none : Option Nat)).filterMap id = [] := by
    induction k with
    | zero => rfl
    | succ k ih => rw [List.replicate_succ]; simp
  rw [this]
  simp

theorem place_packed : ∀ (l : List Nat) (k : Nat), place (l.map some ++ List.replicate k none) = if k = 0 then none else some l.length
  | [], 0 => rfl
  | [], k + 1 => rfl
  | b :: l, k => by
    show (place (l.map some ++ List.replicate k none)).map (· + 1) = _
    rw [place_packed l k]
    split <;> simp

/-- Everything a poller has is given back when it is destroyed, which also works again, and for one that was not made. -/
theorem term_ok {e : Env} {heap socks : List Nat} {locks : Nat} {p : Poller} {w : World} (h : Owns heap socks locks p w) :
    ∃ rc p' w', term e p w = .ok (rc, p', w') ∧ p'.events = none ∧ Owns heap socks locks p' w' := by
  unfold term
  cases he : p.events with
  | none => exact ⟨0, p, w, rfl, he, h⟩
  | some b =>
    obtain ⟨h1, h2, h3, ⟨l, k, h4, h4'⟩, r, x, h5, h6⟩ := h.up b he
    simp only
    have hs : (Sock.WinPipe.term e.sock p.pipe w.sock).2.2.opened = socks := by
      rw [h5, ends] at h2
      simp only [Option.toList] at h2
      rw [h5]
      unfold Sock.WinPipe.term Sock.WinPipe.close
      simp only
      rw [h2]
      simp
    revert hs
    generalize Sock.WinPipe.term e.sock p.pipe w.sock = t
    obtain ⟨rc, pipe, sk⟩ := t
    intro hs
    simp only at hs ⊢
    have hp : w.heap.Perm (l ++ (p.results.toList ++ (p.events.toList ++ (p.ops.toList ++ heap)))) := by
      refine h1.trans ?_
      unfold blocks
      rw [h4, packed_blocks]
      exact List.perm_iff_count.2 fun a => by simp only [List.count_append]; omega
    obtain ⟨data, w1, k1, k2, k3, k4, k5, k6⟩ := freeData_ok k l (w := { w with sock := sk, locks := w.locks - 1 }) hp
    rw [h4, k1]
    simp only [Res.ok_bind]
    obtain ⟨w2, m1, m2, m3, m4, m5⟩ := freeOpt_ok k3
    rw [m1]
    simp only [Res.ok_bind]
    rw [he] at m2
    obtain ⟨w3, n1, n2, n3, n4, n5⟩ := freeOpt_ok m2
    rw [n1]
    simp only [Res.ok_bind]
    obtain ⟨w4, o1, o2, o3, o4, o5⟩ := freeOpt_ok n2
    rw [o1]
    refine ⟨rc, _, w4, rfl, rfl, ⟨(fun b hb => by cases hb), fun _ => ⟨o2, ?_, ?_⟩, ?_, ?_⟩⟩
    · rw [o5, n5, m5, k6]; exact hs
    · rw [o5, n5, m5, k6]; show w.locks - 1 = locks; omega
    · intro x hx
      have := h.low x (k4 x (m3 x (n3 x (o3 x hx))))
      rw [o5, n5, m5, k6]; exact this
    · exact o4 (n4 (m4 (k5 h.nodup)))

theorem malloc_some {e : Env} {w : World} (h : e.mem w.n = true) :
    malloc e w = (some w.next, { w with heap := w.next :: w.heap, next := w.next + 1, n := w.n + 1 }) := if_pos h

theorem malloc_none {e : Env} {w : World} (h : ¬ e.mem w.n = true) : malloc e w = (none, { w with n := w.n + 1 }) := if_neg h

theorem low_cons {heap : List Nat} {next : Nat} (h : ∀ b ∈ heap, b < next) : ∀ b ∈ next :: heap, b < next + 1 := by
  intro b hb
  rcases List.mem_cons.1 hb with rfl | hb
  · omega
  · have := h b hb; omega

theorem nodup_cons {heap : List Nat} {next : Nat} (h : ∀ b ∈ heap, b < next) (hn : heap.Nodup) : (next :: heap).Nodup :=
  List.nodup_cons.2 ⟨fun hc => absurd (h _ hc) (by omega), hn⟩

/-- A poller that was not made has nothing. -/
theorem initErr_ok {p : Poller} {w : World} {heap : List Nat} {d : Option Nat} {ds : List (Option Nat)} (hd : p.data = d :: ds)
    (h : w.heap.Perm (p.results.toList ++ (p.events.toList ++ (d.toList ++ heap)))) (hl : ∀ b ∈ w.heap, b < w.next) (hn : w.heap.Nodup) :
    ∃ w', initErr p w = .ok (-1, { p with events := none, data := none :: ds }, w') ∧
      Owns heap w.sock.opened w.locks { p with events := none, data := none :: ds } w' ∧ w'.sock = w.sock := by
  unfold initErr
  obtain ⟨w1, m1, m2, m3, m4, m5⟩ := freeOpt_ok h
  rw [m1]
  simp only [Res.ok_bind]
  obtain ⟨w2, n1, n2, n3, n4, n5⟩ := freeOpt_ok m2
  rw [n1, hd]
  simp only [Res.ok_bind, rd, List.getElem?_cons_zero]
  obtain ⟨w3, o1, o2, o3, o4, o5⟩ := freeOpt_ok n2
  rw [o1]
  refine ⟨w3, rfl, ⟨(fun b hb => by cases hb), fun _ => ⟨o2, ?_, ?_⟩, ?_, o4 (n4 (m4 hn))⟩, ?_⟩
  · rw [o5, n5, m5]
  · rw [o5, n5, m5]
  · intro x hx
    have := hl x (m3 x (n3 x (o3 x hx)))
    rw [o5, n5, m5]; exact this
  · rw [o5, n5, m5]

/-- A poller is made and has what it needs, or is not made and has no memory; only sockets can be left open, two at most. -/
theorem init_ok {e : Env} (hf : Sock.WinPipe.Fresh e.sock) {heap socks : List Nat} {locks : Nat} {p : Poller} {w : World}
    (h : Owns heap socks locks p w) (hp : p.events = none) :
    ∃ rc p' w', init e w = .ok (rc, p', w') ∧
      (rc = 0 ∧ p'.events.isSome ∧ Owns heap socks locks p' w' ∨
       rc = -1 ∧ p'.events = none ∧ ∃ more, more.length ≤ socks.length + 2 ∧ Owns heap more locks p' w') := by
  obtain ⟨h1, h2, h3⟩ := h.down hp
  have hl := h.low
  have hn := h.nodup
  unfold init Poller.zero
  simp only
  by_cases m1 : e.mem w.n = true
  · rw [malloc_some m1]
    simp only
    by_cases m2 : e.mem (w.n + 1) = true
    · rw [malloc_some (w := { w with heap := w.next :: w.heap, next := w.next + 1, n := w.n + 1 }) m2]
      simp only
      by_cases m3 : e.mem (w.n + 1 + 1) = true
      · rw [malloc_some (w := { w with heap := (w.next + 1) :: w.next :: w.heap, next := w.next + 1 + 1, n := w.n + 1 + 1 }) m3]
        simp only
        have hl3 := low_cons (low_cons (low_cons hl))
        have hn3 := nodup_cons (low_cons (low_cons hl)) (nodup_cons (low_cons hl) (nodup_cons hl hn))
        cases hx : Sock.WinPipe.init e.sock w.sock with
        | mk rc q =>
          obtain ⟨pipe, sk⟩ := q
          simp only
          by_cases hrc : rc = 0
          · subst hrc
            rw [if_neg (by simp)]
            obtain ⟨r, x, rfl, k2, k3, -⟩ := Sock.WinPipe.init_ok_partial hf hx
            refine ⟨0, _, _, rfl, .inl ⟨rfl, rfl, ⟨fun b hb => ⟨?_, ?_, ?_, ⟨[w.next + 1 + 1], 15, rfl, by simp⟩, r, x, rfl, k3⟩,
              (fun hc => by cases hc), hl3, hn3⟩⟩⟩
            · refine List.perm_iff_count.2 fun a => ?_
              have := List.perm_iff_count.1 h1 a
              simp only [blocks, Option.toList, List.count_append, List.count_cons, this]
              simp [List.count_cons]
              omega
            · show sk.opened = _; rw [k2, h2]; rfl
            · show w.locks + 1 = _; rw [h3]
          · rw [if_pos hrc]
            have hb := Sock.WinPipe.leak_bound e.sock w.sock
            rw [hx] at hb
            obtain ⟨w', k1, k2, k3⟩ := initErr_ok (p := ⟨some w.next, some (w.next + 1), (List.replicate 16 none).set 0 (some (w.next + 1 + 1)), none, pipe⟩)
              (w := { w with heap := (w.next + 1 + 1) :: (w.next + 1) :: w.next :: w.heap, next := w.next + 1 + 1 + 1, n := w.n + 1 + 1 + 1, sock := sk })
              (heap := heap) (d := some (w.next + 1 + 1)) (ds := List.replicate 15 none) rfl (by
                refine List.perm_iff_count.2 fun a => ?_
                have := List.perm_iff_count.1 h1 a
                simp only [Option.toList, List.count_append, List.count_cons, this]
                simp
                omega) hl3 hn3
            refine ⟨-1, _, w', k1, .inr ⟨rfl, rfl, sk.opened, by rw [← h2]; exact hb, ?_⟩⟩
            rw [← h3]
            exact k2
      · rw [malloc_none (w := { w with heap := (w.next + 1) :: w.next :: w.heap, next := w.next + 1 + 1, n := w.n + 1 + 1 }) m3]
        simp only
        obtain ⟨w', k1, k2, k3⟩ := initErr_ok (p := ⟨some w.next, some (w.next + 1), List.replicate 16 none, none, ⟨none, none⟩⟩)
          (w := { w with heap := (w.next + 1) :: w.next :: w.heap, next := w.next + 1 + 1, n := w.n + 1 + 1 + 1 })
          (heap := heap) (d := none) (ds := List.replicate 15 none) rfl (by
            refine List.perm_iff_count.2 fun a => ?_
            have := List.perm_iff_count.1 h1 a
            simp only [Option.toList, List.count_append, List.count_cons, this]
            simp
            omega) (low_cons (low_cons hl)) (nodup_cons (low_cons hl) (nodup_cons hl hn))
        refine ⟨-1, _, w', k1, .inr ⟨rfl, rfl, socks, by omega, ?_⟩⟩
        rw [← h3, ← h2]
        exact k2
    · rw [malloc_none (w := { w with heap := w.next :: w.heap, next := w.next + 1, n := w.n + 1 }) m2]
      simp only
      obtain ⟨w', k1, k2, k3⟩ := initErr_ok (p := ⟨some w.next, none, List.replicate 16 none, none, ⟨none, none⟩⟩)
        (w := { w with heap := w.next :: w.heap, next := w.next + 1, n := w.n + 1 + 1 })
        (heap := heap) (d := none) (ds := List.replicate 15 none) rfl (by
          refine List.perm_iff_count.2 fun a => ?_
          have := List.perm_iff_count.1 h1 a
          simp only [Option.toList, List.count_append, List.count_cons, this]
          simp
          omega) (low_cons hl) (nodup_cons hl hn)
      refine ⟨-1, _, w', k1, .inr ⟨rfl, rfl, socks, by omega, ?_⟩⟩
      rw [← h3, ← h2]
      exact k2
  · rw [malloc_none m1]
    simp only
    obtain ⟨w', k1, k2, k3⟩ := initErr_ok (p := Poller.zero) (w := { w with n := w.n + 1 })
      (heap := heap) (d := none) (ds := List.replicate 15 none) rfl (by simpa [Poller.zero] using h1) hl hn
    refine ⟨-1, _, w', k1, .inr ⟨rfl, rfl, socks, by omega, ?_⟩⟩
    rw [← h3, ← h2]
    exact k2

/-- A block that was moved -/
theorem realloc_ok {e : Env} {b : Option Nat} {w : World} {l : List Nat} (h : w.heap.Perm (b.toList ++ l)) (hl : ∀ x ∈ w.heap, x < w.next)
    (hn : w.heap.Nodup) (hm : e.mem w.n = true) :
    ∃ w', realloc e b w = .ok (some w.next, w') ∧ w'.heap.Perm (w.next :: l) ∧ (∀ x ∈ w'.heap, x < w'.next) ∧ w'.heap.Nodup ∧
      w'.sock = w.sock ∧ w'.locks = w.locks ∧ w'.n = w.n + 1 := by
  obtain ⟨w1, h1, h2, h3, h4, h5⟩ := freeOpt_ok h
  have hw : w1.n = w.n ∧ w1.next = w.next ∧ w1.sock = w.sock ∧ w1.locks = w.locks := by rw [h5]; exact ⟨rfl, rfl, rfl, rfl⟩
  refine ⟨{ w1 with heap := w1.next :: w1.heap, next := w1.next + 1, n := w1.n + 1 }, ?_, ?_, ?_, ?_, hw.2.2.1, hw.2.2.2, by rw [hw.1]⟩
  · unfold realloc
    rw [if_pos hm, h1]
    simp only [Res.ok_bind]
    rw [malloc_some (by rw [hw.1]; exact hm), hw.2.1]
  · rw [← hw.2.1]; exact h2.cons _
  · exact low_cons fun x hx => by rw [hw.2.1]; exact hl x (h3 x hx)
  · exact nodup_cons (fun x hx => by rw [hw.2.1]; exact hl x (h3 x hx)) (h4 hn)

theorem realloc_fail {e : Env} {b : Option Nat} {w : World} (hm : ¬ e.mem w.n = true) : realloc e b w = .ok (none, { w with n := w.n + 1 }) := by
  unfold realloc
  rw [if_neg hm]

/-- A poller that refers to memory that was released cannot be destroyed. -/
theorem term_ub {e : Env} {p : Poller} {w : World} {b : Nat} {l : List Nat} {k : Nat} {rest : List Nat} (he : p.events = some b)
    (hd : p.data = l.map some ++ List.replicate k none) (h : w.heap.Perm (l ++ (p.results.toList ++ rest))) (hb : b ∉ rest) : term e p w = .ub := by
  unfold term
  rw [he]
  simp only
  generalize Sock.WinPipe.term e.sock p.pipe w.sock = t
  obtain ⟨rc, pipe, sk⟩ := t
  simp only
  obtain ⟨data, w1, k1, k2, k3, k4, k5, k6⟩ := freeData_ok k l (w := { w with sock := sk, locks := w.locks - 1 }) h
  rw [hd, k1]
  simp only [Res.ok_bind]
  obtain ⟨w2, m1, m2, m3, m4, m5⟩ := freeOpt_ok k3
  rw [m1]
  simp only [Res.ok_bind]
  have : b ∉ w2.heap := fun hc => hb (m2.mem_iff.1 hc)
  simp [free, this]

/-- The array grows. If it is full and no memory is to be had for it, nothing changes. If it has grown but there is no memory for the next
chunk, or 16 chunks are in use, **the poller refers to memory that was released**, and destroying it releases it again. -/
theorem grow_ok {e : Env} {heap socks : List Nat} {locks : Nat} {p : Poller} {w : World} {b : Nat} (h : Owns heap socks locks p w)
    (he : p.events = some b) :
    ∃ rc p' w', grow e p w = .ok (rc, p', w') ∧ p'.events.isSome ∧ (rc = 0 ∨ rc = -1) ∧
      (rc = 0 ∨ e.mem w.n = false → Owns heap socks locks p' w') ∧
      (rc = -1 ∧ e.mem w.n = true → ∀ e', term e' p' w' = .ub) := by
  obtain ⟨h1, h2, h3, ⟨l, k, h4, h4'⟩, r, x, h5, h6⟩ := h.up b he
  have hl := h.low
  have hn := h.nodup
  unfold grow
  by_cases m1 : e.mem w.n = true
  · have hp : w.heap.Perm (p.events.toList ++ (l ++ (p.results.toList ++ (p.ops.toList ++ heap)))) := by
      refine h1.trans ?_
      unfold blocks
      rw [h4, packed_blocks]
      exact List.perm_iff_count.2 fun a => by simp only [List.count_append]; omega
    have hb : b ∉ p.ops.toList ++ heap := by
      intro hc
      have := hp.nodup_iff.1 hn
      rw [he] at this
      exact (List.nodup_cons.1 this).1 (List.mem_append_right _ (List.mem_append_right _ (List.mem_append_right _ hc)))
    obtain ⟨w1, k1, k2, k3, k4, k5, k6, k7⟩ := realloc_ok hp hl hn m1
    rw [k1]
    simp only [Res.ok_bind]
    have hd : p.data.drop 1 = (l.drop 1).map some ++ List.replicate k none := by
      rw [h4, List.drop_append_of_le_length (by rw [List.length_map]; exact List.length_pos_iff.2 h4'), List.map_drop]
    rw [hd, place_packed]
    by_cases hk : k = 0
    · rw [if_pos hk]
      simp only
      obtain ⟨w2, n1, n2, n3, n4, n5⟩ := free_ok k2
      rw [n1]
      refine ⟨-1, p, w2, rfl, by rw [he]; rfl, .inr rfl, ?_, fun _ e' => term_ub he h4 n2 hb⟩
      rintro (hc | hc)
      · cases hc
      · rw [m1] at hc; cases hc
    · rw [if_neg hk]
      simp only
      by_cases m2 : e.mem w1.n = true
      · rw [malloc_some m2]
        refine ⟨0, _, _, rfl, rfl, .inl rfl, fun _ => ⟨fun c hc => ⟨?_, ?_, ?_, ?_, r, x, h5, h6⟩, (fun hc => by cases hc), low_cons k3, nodup_cons k3 k4⟩, ?_⟩
        · obtain ⟨k, rfl⟩ : ∃ j, k = j + 1 := ⟨k - 1, by omega⟩
          have hx : p.data.set ((l.drop 1).length + 1) (some w1.next) = (l ++ [w1.next]).map some ++ List.replicate k none := by
            have : (l.drop 1).length + 1 = (l.map some).length := by
              rw [List.length_drop, List.length_map]
              have := List.length_pos_iff.2 h4'
              omega
            rw [h4, this, List.set_append_right _ _ (Nat.le_refl _), Nat.sub_self, List.replicate_succ]
            simp
          refine List.perm_iff_count.2 fun a => ?_
          have := List.perm_iff_count.1 k2 a
          simp only [blocks]
          rw [hx, packed_blocks]
          simp only [Option.toList, List.count_append, List.count_cons, this]
          simp only [List.count_nil]
          omega
        · show w1.sock.opened = _; rw [k5]; exact h2
        · show w1.locks = _; rw [k6]; exact h3
        · obtain ⟨k, rfl⟩ : ∃ j, k = j + 1 := ⟨k - 1, by omega⟩
          refine ⟨l ++ [w1.next], k, ?_, by simp⟩
          have : (l.drop 1).length + 1 = (l.map some).length := by
            rw [List.length_drop, List.length_map]
            have := List.length_pos_iff.2 h4'
            omega
          show p.data.set ((l.drop 1).length + 1) (some w1.next) = _
          rw [h4, this, List.set_append_right _ _ (Nat.le_refl _), Nat.sub_self, List.replicate_succ]
          simp
        · rintro ⟨hc, -⟩; cases hc
      · rw [malloc_none m2]
        simp only
        obtain ⟨w2, n1, n2, n3, n4, n5⟩ := free_ok (w := { w1 with n := w1.n + 1 }) k2
        rw [n1]
        refine ⟨-1, p, w2, rfl, by rw [he]; rfl, .inr rfl, ?_, fun _ e' => term_ub he h4 n2 hb⟩
        rintro (hc | hc)
        · cases hc
        · rw [m1] at hc; cases hc
  · rw [realloc_fail m1]
    refine ⟨-1, p, _, rfl, by rw [he]; rfl, .inr rfl, fun _ => ⟨h.up, h.down, hl, hn⟩, ?_⟩
    rintro ⟨-, hc⟩
    exact absurd hc m1

/-- The array of pending requests grows, or nothing changes. -/
theorem growOps_ok {e : Env} {heap socks : List Nat} {locks : Nat} {p : Poller} {w : World} {b : Nat} (h : Owns heap socks locks p w)
    (he : p.events = some b) :
    ∃ rc p' w', growOps e p w = .ok (rc, p', w') ∧ p'.events = some b ∧ Owns heap socks locks p' w' := by
  obtain ⟨h1, h2, h3, h4, h5⟩ := h.up b he
  have hl := h.low
  have hn := h.nodup
  have hp : w.heap.Perm (p.ops.toList ++ (p.results.toList ++ p.events.toList ++ p.data.filterMap id ++ heap)) := by
    refine h1.trans ?_
    unfold blocks
    exact List.perm_iff_count.2 fun a => by simp only [List.count_append]; omega
  have same : ∃ x, (match p.ops with
      | none => Res.ok (malloc e w)
      | some b => realloc e (some b) w) = x ∧ (e.mem w.n = true → ∃ w', x = .ok (some w.next, w') ∧
        w'.heap.Perm (w.next :: (p.results.toList ++ p.events.toList ++ p.data.filterMap id ++ heap)) ∧ (∀ x ∈ w'.heap, x < w'.next) ∧ w'.heap.Nodup ∧
        w'.sock = w.sock ∧ w'.locks = w.locks) ∧ (¬ e.mem w.n = true → x = .ok (none, { w with n := w.n + 1 })) := by
    refine ⟨_, rfl, ?_, ?_⟩
    · intro hm
      cases ho : p.ops with
      | none =>
        rw [ho] at hp
        simp only
        rw [malloc_some hm]
        exact ⟨_, rfl, hp.cons _, low_cons hl, nodup_cons hl hn, rfl, rfl⟩
      | some c =>
        rw [ho] at hp
        obtain ⟨w', k1, k2, k3, k4, k5, k6, -⟩ := realloc_ok (b := some c) hp hl hn hm
        exact ⟨w', k1, k2, k3, k4, k5, k6⟩
    · intro hm
      cases p.ops with
      | none => simp only; rw [malloc_none hm]
      | some c => exact realloc_fail hm
  unfold growOps
  obtain ⟨x, hx, g1, g2⟩ := same
  rw [hx]
  by_cases hm : e.mem w.n = true
  · obtain ⟨w', rfl, k2, k3, k4, k5, k6⟩ := g1 hm
    simp only [Res.ok_bind]
    refine ⟨0, _, _, rfl, he, ⟨fun c hc => ⟨?_, by rw [k5]; exact h2, by rw [k6]; exact h3, h4, h5⟩, (fun hc => by rw [he] at hc; cases hc), k3, k4⟩⟩
    refine k2.trans ?_
    unfold blocks
    exact List.perm_iff_count.2 fun a => by simp only [Option.toList, List.count_append, List.count_cons, List.count_nil]; omega
  · rw [g2 hm]
    simp only [Res.ok_bind]
    exact ⟨-1, p, _, rfl, he, ⟨h.up, h.down, hl, hn⟩⟩

/-! ## Histories -/

/-- The life of a poller: it is made when there is none, grows and is destroyed, any number of times; `k` counts how often it could not be made.
Left out is the case of `grow_ok` after which it cannot be destroyed. -/
inductive Life (e : Env) (w₀ : World) : Nat → Poller → World → Prop
  | start {p} : p.events = none → Life e w₀ 0 p w₀
  | init {k p w rc p' w'} : Life e w₀ k p w → p.events = none → init e w = .ok (rc, p', w') → Life e w₀ (if rc = 0 then k else k + 1) p' w'
  | grow {k p w rc p' w'} : Life e w₀ k p w → p.events.isSome → grow e p w = .ok (rc, p', w') → (rc = 0 ∨ e.mem w.n = false) → Life e w₀ k p' w'
  | growOps {k p w rc p' w'} : Life e w₀ k p w → p.events.isSome → growOps e p w = .ok (rc, p', w') → Life e w₀ k p' w'
  | term {k p w rc p' w'} : Life e w₀ k p w → term e p w = .ok (rc, p', w') → Life e w₀ k p' w'

/-- Blocks in use have distinct addresses below `next`. -/
structure World.Sane (w : World) : Prop where
  low : ∀ b ∈ w.heap, b < w.next
  nodup : w.heap.Nodup

theorem life_owns {e : Env} (hf : Sock.WinPipe.Fresh e.sock) {w₀ w : World} (h₀ : w₀.Sane) {k : Nat} {p : Poller} (h : Life e w₀ k p w) :
    ∃ socks, socks.length ≤ w₀.sock.opened.length + 2 * k ∧ (k = 0 → socks = w₀.sock.opened) ∧ Owns w₀.heap socks w₀.locks p w := by
  induction h with
  | start hp =>
    exact ⟨_, by omega, fun _ => rfl, ⟨(fun b hb => by rw [hp] at hb; cases hb), fun _ => ⟨.refl _, rfl, rfl⟩, h₀.low, h₀.nodup⟩⟩
  | @init k p w rc p' w' _ hp hr ih =>
    obtain ⟨socks, i1, i2, i3⟩ := ih
    obtain ⟨_, _, _, k1, k2⟩ := init_ok hf i3 hp
    rw [k1] at hr
    cases hr
    rcases k2 with ⟨rfl, -, k3⟩ | ⟨rfl, -, more, k3, k4⟩
    · exact ⟨socks, i1, i2, k3⟩
    · refine ⟨more, ?_, ?_, k4⟩
      · rw [if_neg (by decide)]; omega
      · rw [if_neg (by decide)]; intro hc; omega
  | @grow k p w rc p' w' _ hp hr hok ih =>
    obtain ⟨socks, i1, i2, i3⟩ := ih
    obtain ⟨b, hb⟩ := Option.isSome_iff_exists.1 hp
    obtain ⟨_, _, _, k1, -, -, k2, -⟩ := grow_ok (e := e) i3 hb
    rw [k1] at hr
    cases hr
    exact ⟨socks, i1, i2, k2 hok⟩
  | @growOps k p w rc p' w' _ hp hr ih =>
    obtain ⟨socks, i1, i2, i3⟩ := ih
    obtain ⟨b, hb⟩ := Option.isSome_iff_exists.1 hp
    obtain ⟨_, _, _, k1, -, k2⟩ := growOps_ok (e := e) i3 hb
    rw [k1] at hr
    cases hr
    exact ⟨socks, i1, i2, k2⟩
  | @term k p w rc p' w' _ hr ih =>
    obtain ⟨socks, i1, i2, i3⟩ := ih
    obtain ⟨_, _, _, k1, -, k2⟩ := term_ok (e := e) i3
    rw [k1] at hr
    cases hr
    exact ⟨socks, i1, i2, k2⟩

/-- **C110**, in part, on Windows: whatever fails, a poller that was destroyed, or could not be made, has no memory and no lock, and if it could be
made every time, no socket. Each time it cannot be made it may leave two sockets open, see `leak_violated`; left out is the failure
after which it cannot be destroyed, see `destroy_violated`. -/
theorem no_leak_partial {e : Env} (hf : Sock.WinPipe.Fresh e.sock) {w₀ w : World} (h₀ : w₀.Sane) {k : Nat} {p : Poller} (h : Life e w₀ k p w)
    (hp : refused p = true) :
    w.heap.Perm w₀.heap ∧ w.locks = w₀.locks ∧ w.sock.opened.length ≤ w₀.sock.opened.length + 2 * k ∧ (k = 0 → w.sock.opened = w₀.sock.opened) := by
  obtain ⟨socks, h1, h2, h3⟩ := life_owns hf h₀ h
  obtain ⟨k1, k2, k3⟩ := h3.down (by simpa [refused] using hp)
  exact ⟨k1, k3, by rw [k2]; exact h1, by rw [k2]; exact h2⟩

/-- **C110**, in part, on Windows: nothing a poller does with its memory is undefined, and it can always be destroyed, after which to wait is refused. -/
theorem no_ub_partial {e : Env} (hf : Sock.WinPipe.Fresh e.sock) {w₀ w : World} (h₀ : w₀.Sane) {k : Nat} {p : Poller} (h : Life e w₀ k p w) :
    (∃ rc p' w', term e p w = .ok (rc, p', w') ∧ refused p' = true) ∧
    (refused p = true → ∃ rc p' w', init e w = .ok (rc, p', w') ∧ (rc = 0 ∧ refused p' = false ∨ rc = -1 ∧ refused p' = true)) ∧
    (refused p = false → (∃ r, grow e p w = .ok r) ∧ ∃ r, growOps e p w = .ok r) := by
  obtain ⟨socks, h1, h2, h3⟩ := life_owns hf h₀ h
  refine ⟨?_, ?_, ?_⟩
  · obtain ⟨rc, p', w', k1, k2, -⟩ := term_ok (e := e) h3
    exact ⟨rc, p', w', k1, by simp [refused, k2]⟩
  · intro hr
    obtain ⟨rc, p', w', k1, k2⟩ := init_ok hf h3 (by simpa [refused] using hr)
    refine ⟨rc, p', w', k1, ?_⟩
    rcases k2 with ⟨rfl, k3, -⟩ | ⟨rfl, k3, -⟩
    · exact .inl ⟨rfl, by unfold refused; revert k3; cases p'.events <;> simp⟩
    · exact .inr ⟨rfl, by simp [refused, k3]⟩
  · intro hr
    obtain ⟨b, hb⟩ : ∃ b, p.events = some b := by
      unfold refused at hr
      revert hr
      cases p.events with
      | none => intro hc; cases hc
      | some b => intro _; exact ⟨b, rfl⟩
    obtain ⟨_, _, _, k1, -⟩ := grow_ok (e := e) h3 hb
    obtain ⟨_, _, _, k2, -⟩ := growOps_ok (e := e) h3 hb
    exact ⟨⟨_, k1⟩, ⟨_, k2⟩⟩

/-- **C110 is violated** on Windows by every poller that cannot register one more object because there is no memory for the next chunk, or because 16
chunks are in use, while its array could be enlarged: to destroy it releases memory twice. -/
theorem destroy_violated {e : Env} (hf : Sock.WinPipe.Fresh e.sock) {w₀ w : World} (h₀ : w₀.Sane) {k : Nat} {p : Poller} (h : Life e w₀ k p w)
    (hp : refused p = false) (hm : e.mem w.n = true) {p' : Poller} {w' : World} (hg : grow e p w = .ok (-1, p', w')) (e' : Env) :
    term e' p' w' = .ub := by
  obtain ⟨socks, h1, h2, h3⟩ := life_owns hf h₀ h
  obtain ⟨b, hb⟩ : ∃ b, p.events = some b := by
    unfold refused at hp
    revert hp
    cases p.events with
    | none => intro hc; cases hc
    | some b => intro _; exact ⟨b, rfl⟩
  obtain ⟨_, _, _, k1, -, -, -, k2⟩ := grow_ok (e := e) h3 hb
  rw [k1] at hg
  cases hg
  exact k2 ⟨rfl, hm⟩ e'

/-! ## Examples -/

/-- Memory is to be had but for the `n`-th time; sockets can be had but for the calls given. -/
def env (n : Nat) (ok : Nat → Bool) : Env := ⟨fun i => i != n, ⟨ok, fun _ l => Sock.WinPipe.above l⟩⟩

/-- Descriptor 3 and a block are in use. -/
def world : World := ⟨[0], 1, 0, ⟨[3], 0⟩, 0⟩

theorem world_sane : world.Sane := ⟨by decide, by decide⟩

theorem env_fresh (n : Nat) (ok : Nat → Bool) : Sock.WinPipe.Fresh (env n ok).sock := fun _ => Sock.WinPipe.above_fresh

/-- What is in use -/
def inUse (r : Res (Int × Poller × World)) : Option (Int × List Nat × List Nat × Nat) :=
  match r with
  | .ok (rc, _, w) => some (rc, w.heap, w.sock.opened, w.locks)
  | .ub => none

/-- A poller is made, grows twice and is destroyed. -/
example : inUse (do
    let (_, p, w) ← init (env 99 fun _ => true) world
    let (_, p, w) ← grow (env 99 fun _ => true) p w
    let (_, p, w) ← growOps (env 99 fun _ => true) p w
    Res.ok (0, p, w)) = some (0, [6, 5, 4, 3, 1, 0], [6, 5, 3], 1) := by decide

example : inUse (do
    let (_, p, w) ← init (env 99 fun _ => true) world
    let (_, p, w) ← grow (env 99 fun _ => true) p w
    let (_, p, w) ← growOps (env 99 fun _ => true) p w
    let (_, p, w) ← term (env 99 fun _ => true) p w
    term (env 99 fun _ => true) p w) = some (0, [0], [3], 0) := by decide

/-- **C110 is violated** on Windows by a poller whose wakeup pipe cannot be connected: it is not made, and two sockets stay open. -/
theorem leak_violated : inUse (init (env 99 fun n => decide (n < 7)) world) = some (-1, [0], [5, 4, 3], 0) := by decide

/-- The poller is full; its array moves, but there is no memory for the chunk. -/
example : inUse (do
    let (_, p, w) ← init (env 4 fun _ => true) world
    let (rc, p, w) ← grow (env 4 fun _ => true) p w
    if rc = -1 then term (env 4 fun _ => true) p w else .ok (0, p, w)) = none := by decide

end Verif.Poll.Win.Life
