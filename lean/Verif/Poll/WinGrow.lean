import Verif.CNum

/-!
# How the array of pending requests of the Windows poller grows

`Verif.Poll.Win` computes with unbounded numbers. Here only the two counters are modelled, which are of
type `int`.
-/

namespace Verif.Poll.WinGrow

def INT_MAX : Nat := 2147483647

/-- The fields `ops_cap` and `ops_count` of `struct sc_sock_poll` on Windows, socket/sc_sock.h:368-369 -/
structure Counts where
  cap : Nat
  count : Nat
  deriving DecidableEq

/-- `sc_sock_poll_submit` for a descriptor without a pending request, socket/sc_sock.c:1674-1708: whether there is
room now. `ok` tells whether memory is available. The product of two `int`s must be one. -/
def submit (ok : Bool) (c : Counts) : Res (Bool × Counts) :=
  if c.count = c.cap then
    if c.cap ≥ INT_MAX then .ok (false, c)
    else if c.cap = 0 then
      if ok then .ok (true, ⟨16, c.count + 1⟩) else .ok (false, c)
    else if c.cap * 3 > INT_MAX then .ub
    else if ok then .ok (true, ⟨c.cap * 3 / 2, c.count + 1⟩) else .ok (false, c)
  else .ok (true, { c with count := c.count + 1 })

/-- Requests come in, some of which fail; now and then the thread that polls carries all of them out,
socket/sc_sock.c:2109-2130, which leaves the array as it is. -/
inductive Reach : Counts → Prop
  | start : Reach ⟨0, 0⟩
  | submit {c c' b ok} : Reach c → submit ok c = .ok (b, c') → Reach c'
  | flush {c} : Reach c → Reach { c with count := 0 }

/-- The capacities in order, the first of which is 16 -/
def capacity : Nat → Nat
  | 0 => 16
  | n + 1 => capacity n * 3 / 2

/-- The most requests that can be pending -/
def MOST : Nat := 885410839

theorem capacity_mono (n : Nat) : 16 ≤ capacity n ∧ capacity n < capacity (n + 1) := by
  induction n with
  | zero => decide
  | succ n ih =>
    have : capacity (n + 1 + 1) = capacity (n + 1) * 3 / 2 := rfl
    omega

theorem capacity_le {m n : Nat} (h : m ≤ n) : capacity m ≤ capacity n := by
  induction h with
  | refl => exact Nat.le_refl _
  | step _ ih => exact Nat.le_trans ih (Nat.le_of_lt (capacity_mono _).2)

theorem capacity_last : capacity 44 = MOST ∧ MOST * 3 > INT_MAX ∧ capacity 43 * 3 ≤ INT_MAX := by decide +kernel

/-- What holds of the counters at any time -/
structure Inv (c : Counts) : Prop where
  room : c.count ≤ c.cap
  cap : c.cap = 0 ∨ ∃ n, n ≤ 44 ∧ c.cap = capacity n

theorem Inv.submit {c : Counts} (h : Inv c) (ok : Bool) :
    (WinGrow.submit ok c = .ub ∧ c = ⟨MOST, MOST⟩) ∨
    (∃ c', WinGrow.submit ok c = .ok (true, c') ∧ Inv c' ∧ c'.count = c.count + 1 ∧ c.cap ≤ c'.cap ∧ c ≠ ⟨MOST, MOST⟩) ∨
    (WinGrow.submit ok c = .ok (false, c) ∧ ok = false ∧ c.count = c.cap ∧ c ≠ ⟨MOST, MOST⟩) := by
  obtain ⟨cap, count⟩ := c
  obtain ⟨h1, h2⟩ := h
  simp only at h1 h2
  obtain ⟨k1, k2, k3⟩ := capacity_last
  unfold WinGrow.submit
  simp only
  by_cases hc : count = cap
  · subst hc
    rw [if_pos rfl]
    rcases h2 with rfl | ⟨n, hn, rfl⟩
    · rw [if_neg (by decide), if_pos rfl]
      cases ok with
      | true => exact .inr (.inl ⟨_, rfl, ⟨by simp, .inr ⟨0, by omega, rfl⟩⟩, rfl, by simp, by decide⟩)
      | false => exact .inr (.inr ⟨rfl, rfl, rfl, by decide⟩)
    · have hm := capacity_mono n
      have hle := capacity_le hn
      rw [if_neg (by unfold INT_MAX; unfold MOST at k1; omega), if_neg (by omega)]
      by_cases h44 : n = 44
      · subst h44
        rw [if_pos (by rw [k1]; exact k2)]
        exact .inl ⟨rfl, by rw [k1]⟩
      · have h43 := capacity_le (show n ≤ 43 by omega)
        have hne : (⟨capacity n, capacity n⟩ : Counts) ≠ ⟨MOST, MOST⟩ := by
          intro he
          injection he with he
          unfold MOST at he k2
          unfold INT_MAX at k2 k3
          omega
        rw [if_neg (by omega)]
        cases ok with
        | true =>
          refine .inr (.inl ⟨_, rfl, ⟨?_, .inr ⟨n + 1, by omega, rfl⟩⟩, rfl, ?_, hne⟩)
          · show capacity n + 1 ≤ capacity (n + 1)
            omega
          · show capacity n ≤ capacity (n + 1)
            omega
        | false => exact .inr (.inr ⟨rfl, rfl, rfl, hne⟩)
  · rw [if_neg hc]
    refine .inr (.inl ⟨_, rfl, ⟨by simp only; omega, h2⟩, rfl, Nat.le_refl _, ?_⟩)
    rintro he
    injection he with he1 he2
    omega

theorem Reach.inv {c : Counts} (h : Reach c) : Inv c := by
  induction h with
  | start => exact ⟨Nat.le_refl _, .inl rfl⟩
  | @submit c c' b ok _ hs ih =>
    rcases ih.submit ok with ⟨h, -⟩ | ⟨c1, h, hi, -⟩ | ⟨h, -⟩
    · rw [h] at hs; cases hs
    · rw [h] at hs; cases hs; exact hi
    · rw [h] at hs; cases hs; exact ih
  | flush _ ih => exact ⟨Nat.zero_le _, ih.cap⟩

/-- **C150, in part.** As long as fewer than 885410839 requests are pending, another one is defined; it is refused only if memory
is needed and not available, and then the requests that are pending are kept. What is missing: any number of requests. -/
theorem requests_partial {c : Counts} (h : Reach c) (hc : c.count < MOST) (ok : Bool) :
    (∃ c', submit ok c = .ok (true, c') ∧ c'.count = c.count + 1 ∧ c'.count ≤ c'.cap) ∨
    (submit ok c = .ok (false, c) ∧ ok = false ∧ c.count = c.cap) := by
  rcases h.inv.submit ok with ⟨-, rfl⟩ | ⟨c', h1, h2, h3, -⟩ | ⟨h1, h2, h3, -⟩
  · exact absurd hc (Nat.lt_irrefl _)
  · exact .inl ⟨c', h1, h3, h2.room⟩
  · exact .inr ⟨h1, h2, h3⟩

theorem Reach.fill {c : Counts} (h : Reach c) (hc : c.count ≤ c.cap) : Reach ⟨c.cap, c.cap⟩ := by
  obtain ⟨cap, count⟩ := c
  simp only at hc ⊢
  obtain ⟨d, rfl⟩ : ∃ d, cap = count + d := ⟨cap - count, by omega⟩
  induction d generalizing count with
  | zero => exact h
  | succ d ih =>
    have h1 : Reach ⟨count + (d + 1), count + 1⟩ := h.submit (ok := true) (b := true) (by
      unfold WinGrow.submit
      rw [if_neg (by simp only; omega)])
    have h2 : count + (d + 1) = count + 1 + d := by omega
    rw [h2] at h1 ⊢
    exact ih (count + 1) h1 (by omega)

theorem Reach.full (n : Nat) (hn : n ≤ 44) : Reach ⟨capacity n, capacity n⟩ := by
  induction n with
  | zero =>
    have h : Reach ⟨16, 1⟩ := Reach.start.submit (ok := true) (b := true) rfl
    exact h.fill (by simp)
  | succ n ih =>
    have h := ih (by omega)
    have hm := capacity_mono n
    have h43 := capacity_le (show n ≤ 43 by omega)
    have k3 := capacity_last.2.2
    have h1 : Reach ⟨capacity (n + 1), capacity n + 1⟩ := h.submit (ok := true) (b := true) (by
      unfold WinGrow.submit
      simp only
      rw [if_pos trivial, if_neg (by unfold INT_MAX at k3 ⊢; omega), if_neg (by omega), if_neg (by omega), if_pos trivial]
      rfl)
    exact h1.fill (by simp only; omega)

/-- **C150 is violated**: 885410839 requests can be pending, and the next one makes an `int` overflow; this happens with no other
number. -/
theorem requests_violated : Reach ⟨MOST, MOST⟩ ∧ ∀ c ok, Reach c → (submit ok c = .ub ↔ c.count = MOST) := by
  have hk := capacity_last.1
  refine ⟨hk ▸ Reach.full 44 (Nat.le_refl _), fun c ok h => ?_⟩
  constructor
  · intro hu
    rcases h.inv.submit ok with ⟨-, rfl⟩ | ⟨c', h1, -⟩ | ⟨h1, -⟩
    · rfl
    · rw [h1] at hu; cases hu
    · rw [h1] at hu; cases hu
  · intro hc
    have hi := h.inv
    have hcap : c = ⟨MOST, MOST⟩ := by
      obtain ⟨cap, count⟩ := c
      have hr := hi.room
      simp only at hc hr
      subst hc
      rcases hi.cap with h0 | ⟨n, hn, h0⟩
      · simp only at h0; subst h0; unfold MOST at hr; omega
      · simp only at h0
        have := capacity_le hn
        have : cap = MOST := by omega
        subst this; rfl
    rcases hi.submit ok with ⟨h1, -⟩ | ⟨c', -, -, -, -, hne⟩ | ⟨-, -, -, hne⟩
    · exact h1
    · exact absurd hcap hne
    · exact absurd hcap hne

/-! ## Examples -/

/-- The 17th request -/
example : submit true ⟨16, 16⟩ = .ok (true, ⟨24, 17⟩) := by decide

example : Reach ⟨16, 16⟩ := Reach.full 0 (by omega)

end Verif.Poll.WinGrow
