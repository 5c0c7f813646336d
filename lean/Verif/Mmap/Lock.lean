import Verif.Mmap.Crash

/-!
# Locked memory

`sc_mmap_mlock` keeps a range in memory until `sc_mmap_munlock`. The system locks pages, and locks do not nest.
-/

namespace Verif.Mmap.Spec

/-- Calls that succeeded -/
inductive LockAct where
  | lock (off len : Nat)
  | unlock (off len : Nat)

/-- What a user expects: a byte is locked if the last call that covers it locked it. -/
def expected : List LockAct → Nat → Prop
  | [], _ => False
  | .lock off len :: older, b => off ≤ b ∧ b < off + len ∨ expected older b
  | .unlock off len :: older, b => ¬ (off ≤ b ∧ b < off + len) ∧ expected older b

end Verif.Mmap.Spec

namespace Verif.Mmap.Lock

open Spec (Reaches LockAct expected)
open Crash (winRange)

/-- Which pages are locked, after calls that succeeded, the newest first, for a map `m` with pages of `page` bytes: memory-map/sc_mmap.c:329-353 -/
inductive Run (page : Nat) (m : Obj) : List LockAct → (Nat → Prop) → Prop
  | start : Run page m [] (fun _ => False)
  | lock {as q strerror os os' m' off len rg} : Run page m as q → mlock strerror (.ok ()) os m off len = .ok (0, rg, os', m') →
    Run page m (.lock off len :: as) (fun n => q n ∨ ∃ x, rg.addr ≤ x ∧ x < rg.addr + rg.len ∧ x / page = n)
  | unlock {as q strerror os os' m' off len rg} : Run page m as q → mlock strerror (.ok ()) os m off len = .ok (0, rg, os', m') →
    Run page m (.unlock off len :: as) (fun n => q n ∧ ¬ ∃ x, rg.addr ≤ x ∧ x < rg.addr + rg.len ∧ x / page = n)

/-- The same on Windows: memory-map/sc_mmap.c:150-176 -/
inductive WinRun (page : Nat) (m : Obj) : List LockAct → (Nat → Prop) → Prop
  | start : WinRun page m [] (fun _ => False)
  | lock {as q m' off len rg} : WinRun page m as q → winRange true none m off len = .ok (0, rg, m') →
    WinRun page m (.lock off len :: as) (fun n => q n ∨ ∃ x, rg.addr ≤ x ∧ x < rg.addr + rg.len ∧ x / page = n)
  | unlock {as q m' off len rg} : WinRun page m as q → winRange true none m off len = .ok (0, rg, m') →
    WinRun page m (.unlock off len :: as) (fun n => q n ∧ ¬ ∃ x, rg.addr ≤ x ∧ x < rg.addr + rg.len ∧ x / page = n)

/-- The pages that are locked if the system is called for exactly the ranges that are asked for -/
def pages (page ptr : Nat) : List LockAct → Nat → Prop
  | [], _ => False
  | .lock off len :: older, n => pages page ptr older n ∨ ∃ x, ptr + off ≤ x ∧ x < ptr + off + len ∧ x / page = n
  | .unlock off len :: older, n => pages page ptr older n ∧ ¬ ∃ x, ptr + off ≤ x ∧ x < ptr + off + len ∧ x / page = n

theorem mlock_range {strerror : Int → List UInt8} {r : Except Int Unit} {os os' : Os} {m m' : Obj} {off len : Nat} {rc : Int} {rg : Range}
    (h : mlock strerror r os m off len = .ok (rc, rg, os', m')) : rg = ⟨m.ptr + off, len⟩ := by
  unfold mlock at h
  simp only [Res.bind_eq_ok, Res.ok.injEq, Prod.mk.injEq] at h
  obtain ⟨_, -, -, rfl, -, -⟩ := h
  rfl

/-- On both systems the same pages are locked. -/
theorem run_pages {page : Nat} {m : Obj} {as : List LockAct} {q : Nat → Prop} (h : Run page m as q ∨ WinRun page m as q) :
    q = pages page m.ptr as := by
  rcases h with h | h
  · induction h with
    | start => rfl
    | lock _ hr ih => rw [mlock_range hr, ih]; rfl
    | unlock _ hr ih => rw [mlock_range hr, ih]; rfl
  · induction h with
    | start => rfl
    | lock _ hr ih => cases hr; rw [ih]; rfl
    | unlock _ hr ih => cases hr; rw [ih]; rfl

/-- All ranges that were unlocked are whole pages. -/
def Whole (page : Nat) (as : List LockAct) : Prop := ∀ off len, LockAct.unlock off len ∈ as → off % page = 0 ∧ len % page = 0

/-- **C122 (part).** If only whole pages are unlocked, then every byte is in memory that the user expects there. Missing: ranges that share a page
with one that is still locked. -/
theorem locked_partial {page : Nat} (hp : 0 < page) {m : Obj} (hm : m.ptr % page = 0) {as : List LockAct} {q : Nat → Prop}
    (h : Run page m as q ∨ WinRun page m as q) (hw : Whole page as) {b : Nat} (hb : expected as b) : q ((m.ptr + b) / page) := by
  rw [run_pages h]
  clear h
  induction as with
  | nil => exact hb
  | cons a as ih =>
    have ih := ih (fun off len hx => hw off len (List.mem_cons_of_mem _ hx))
    cases a with
    | lock off len =>
      rcases hb with hb | hb
      · exact Or.inr ⟨m.ptr + b, by omega, by omega, rfl⟩
      · exact Or.inl (ih hb)
    | unlock off len =>
      refine ⟨ih hb.2, ?_⟩
      rintro ⟨x, h1, h2, h3⟩
      obtain ⟨w1, w2⟩ := hw off len (List.mem_cons_self ..)
      refine hb.1 ?_
      obtain ⟨i, hi⟩ := Nat.dvd_of_mod_eq_zero hm
      obtain ⟨j, hj⟩ := Nat.dvd_of_mod_eq_zero w1
      obtain ⟨k, hk⟩ := Nat.dvd_of_mod_eq_zero w2
      have e1 : i + j ≤ x / page := by
        rw [Nat.le_div_iff_mul_le hp]
        calc (i + j) * page = page * i + page * j := by rw [Nat.add_mul, Nat.mul_comm, Nat.mul_comm j]
          _ ≤ x := by omega
      have e2 : x / page < i + j + k := by
        rw [Nat.div_lt_iff_lt_mul hp]
        calc x < page * i + page * j + page * k := by omega
          _ = (i + j + k) * page := by rw [Nat.add_mul, Nat.add_mul, Nat.mul_comm, Nat.mul_comm j, Nat.mul_comm k]
      rw [h3] at e1 e2
      have f1 := (Nat.le_div_iff_mul_le hp).1 e1
      have f2 := (Nat.div_lt_iff_lt_mul hp).1 e2
      have g1 : (i + j) * page = page * i + page * j := by rw [Nat.add_mul, Nat.mul_comm, Nat.mul_comm j]
      have g2 : (i + j + k) * page = page * i + page * j + page * k := by rw [Nat.add_mul, Nat.add_mul, Nat.mul_comm, Nat.mul_comm j, Nat.mul_comm k]
      omega

/-- Nothing stays locked that no call locked: a page that is locked has a byte that was. -/
theorem locked_cause {page : Nat} {m : Obj} {as : List LockAct} {q : Nat → Prop} (h : Run page m as q ∨ WinRun page m as q) {n : Nat} (hq : q n) :
    ∃ off len, LockAct.lock off len ∈ as ∧ ∃ x, m.ptr + off ≤ x ∧ x < m.ptr + off + len ∧ x / page = n := by
  rw [run_pages h] at hq
  clear h
  induction as with
  | nil => exact absurd hq id
  | cons a as ih =>
    cases a with
    | lock off len =>
      rcases hq with hq | hq
      · obtain ⟨o, l, h1, h2⟩ := ih hq
        exact ⟨o, l, List.mem_cons_of_mem _ h1, h2⟩
      · exact ⟨off, len, List.mem_cons_self .., hq⟩
    | unlock off len =>
      obtain ⟨o, l, h1, h2⟩ := ih hq.1
      exact ⟨o, l, List.mem_cons_of_mem _ h1, h2⟩

/-- A range that was unlocked is not locked, whatever was locked before. -/
theorem unlocked {page : Nat} {m : Obj} {as : List LockAct} {q : Nat → Prop} {off len : Nat}
    (h : Run page m (.unlock off len :: as) q ∨ WinRun page m (.unlock off len :: as) q) {b : Nat} (h1 : off ≤ b) (h2 : b < off + len) :
    ¬ q ((m.ptr + b) / page) := by
  rw [run_pages h]
  intro hq
  exact hq.2 ⟨m.ptr + b, by omega, by omega, rfl⟩

/-- One page at 4096 -/
def one : Obj := ⟨3, 4096, 4096, 4096, List.replicate 128 0⟩

/-- **C122 is violated**: of two records in the same page that are both locked, the first may be paged out once the second is unlocked. -/
theorem shared_page_violated : ∃ q : Nat → Prop, Run 4096 one [.unlock 32 32, .lock 32 32, .lock 0 32] q ∧
    WinRun 4096 one [.unlock 32 32, .lock 32 32, .lock 0 32] q ∧ (∀ b, b < 32 → expected [.unlock 32 32, .lock 32 32, .lock 0 32] b) ∧
    ∀ b, b < 32 → ¬ q ((one.ptr + b) / 4096) := by
  have r : Run 4096 one [.unlock 32 32, .lock 32 32, .lock 0 32] _ :=
    .unlock (strerror := fun _ => [0]) (os := ⟨[3], [⟨4096, 4096, 0⟩], [], 0⟩) (os' := ⟨[3], [⟨4096, 4096, 0⟩], [], 0⟩) (rg := ⟨4128, 32⟩) (m' := one)
      (.lock (strerror := fun _ => [0]) (os := ⟨[3], [⟨4096, 4096, 0⟩], [], 0⟩) (os' := ⟨[3], [⟨4096, 4096, 0⟩], [], 0⟩) (rg := ⟨4128, 32⟩) (m' := one)
        (.lock (strerror := fun _ => [0]) (os := ⟨[3], [⟨4096, 4096, 0⟩], [], 0⟩) (os' := ⟨[3], [⟨4096, 4096, 0⟩], [], 0⟩) (rg := ⟨4096, 32⟩) (m' := one)
          .start rfl) rfl) rfl
  have w : WinRun 4096 one [.unlock 32 32, .lock 32 32, .lock 0 32] _ := .unlock (.lock (.lock .start rfl) rfl) rfl
  rw [run_pages (Or.inl r)] at r
  rw [run_pages (Or.inr w)] at w
  refine ⟨_, r, w, fun b hb => ⟨by omega, Or.inr (Or.inl ⟨by omega, by omega⟩)⟩, ?_⟩
  intro b hb hq
  refine hq.2 ⟨4128, by decide, by decide, ?_⟩
  simp only [one]
  omega

/-- Two pages are locked and the second is unlocked: the first stays. -/
example : pages 4096 8192 [.unlock 4096 4096, .lock 0 8192] 2 :=
  ⟨Or.inr ⟨8192, by decide, by decide, by decide⟩, fun ⟨x, h1, h2, h3⟩ => by omega⟩

example : Whole 4096 [.unlock 4096 4096, .lock 0 8192] := by
  intro off len h
  simp only [List.mem_cons, LockAct.unlock.injEq, reduceCtorEq, List.not_mem_nil, or_false] at h
  obtain ⟨rfl, rfl⟩ := h
  exact ⟨rfl, rfl⟩

end Verif.Mmap.Lock
