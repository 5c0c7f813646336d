import Verif.Time.Spec

/-! # Properties of clocks and sleeping -/

namespace Verif.Time

open Spec (NS Is Lawful winSleeps Sleeps)

/-! ## Sleeping -/

theorem loop_enough {env : Nat → Timespec → Nano} (h : ∀ k t, Lawful t (env k t)) (want : Nat) :
    ∀ (fuel k : Nat) (rem : Timespec) (el : Nat) {r : Int} {el' : Nat},
      (∀ n, Is rem n → want ≤ el + n) → sleepLoop env fuel k rem el = some (r, el') → r = 0 → want ≤ el' := by
  intro fuel
  induction fuel with
  | zero => intro k rem el r el' _ e; simp [sleepLoop] at e
  | succ fuel ih =>
    intro k rem el r el' hn e hr
    simp only [sleepLoop] at e
    have hk := h k rem
    revert hk e
    cases env k rem with
    | slept e =>
      intro e' ⟨n, h1, h2⟩
      simp only [Option.some.injEq, Prod.mk.injEq] at e'
      have := hn n h1
      omega
    | intr e rem' =>
      intro e' ⟨n, m, h1, h2, h3⟩
      refine ih (k + 1) rem' (el + e) (fun m' hm' => ?_) e' hr
      have := hn n h1
      have : m' = m := by
        have a := hm'.2.2.2.2; have b := h2.2.2.2.2
        omega
      omega
    | fail e =>
      intro e' _
      simp only [Option.some.injEq, Prod.mk.injEq] at e'
      omega

theorem start_spec {millis : Nat} (h : millis ≤ 2 ^ 64 - 1000) {n : Nat}
    (hi : Is ⟨(toInt64 millis).tdiv 1000, toInt64 (millis % 1000) * 1000000⟩ n) : millis * 1000000 ≤ n := by
  obtain ⟨h1, h2, h3, h4, h5⟩ := hi
  simp only [NS] at h1 h2 h3 h4 h5
  have e : toInt64 (millis % 1000) = ((millis % 1000 : Nat) : Int) := by
    unfold toInt64; rw [if_pos (by omega)]
  rw [e] at h5
  by_cases hm : millis < 2 ^ 63
  · have e : (toInt64 millis).tdiv 1000 = ((millis / 1000 : Nat) : Int) := by
      unfold toInt64; rw [if_pos hm, Int.tdiv_eq_ediv_of_nonneg (by omega)]; omega
    rw [e] at h5
    omega
  · exfalso
    have e : toInt64 millis = (millis : Int) - 2 ^ 64 := by unfold toInt64; rw [if_neg hm]
    rw [e] at h3
    have : ((millis : Int) - 2 ^ 64).tdiv 1000 = -((2 ^ 64 - (millis : Int)).tdiv 1000) := by
      rw [← Int.neg_tdiv]; congr 1; omega
    rw [this, Int.tdiv_eq_ediv_of_nonneg (by omega)] at h3
    omega

/-- **C67.** When `sc_time_sleep` returns 0, the time asked for has passed, however often the sleep
was interrupted. Missing: the 999 largest numbers. -/
theorem sleep_enough_partial {env : Nat → Timespec → Nano} (h : ∀ k t, Lawful t (env k t)) {fuel millis : Nat}
    (hm : millis ≤ 2 ^ 64 - 1000) {el : Nat} (e : sleep env fuel millis = some (0, el)) :
    millis * 1000000 ≤ el :=
  loop_enough h _ fuel 0 _ 0 (fun n hn => by have := start_spec hm hn; omega) e rfl

/-- **C67.** It does return once it is no longer interrupted. -/
theorem sleep_returns {env : Nat → Timespec → Nano} {n : Nat} (h : ∀ k t, n ≤ k → ∀ e rem, env k t ≠ .intr e rem)
    (millis : Nat) : ∃ r, sleep env (n + 1) millis = some r := by
  have key : ∀ (d k : Nat) rem el, n ≤ k + d → ∃ r, sleepLoop env (d + 1) k rem el = some r := by
    intro d
    induction d with
    | zero =>
      intro k rem el hk
      rw [sleepLoop]
      have := h k rem (by omega)
      cases e : env k rem with
      | slept a => exact ⟨_, rfl⟩
      | fail a => exact ⟨_, rfl⟩
      | intr a b => exact absurd e (this a b)
    | succ d ih =>
      intro k rem el hk
      rw [sleepLoop]
      cases e : env k rem with
      | slept a => exact ⟨_, rfl⟩
      | fail a => exact ⟨_, rfl⟩
      | intr a b => exact ih (k + 1) b _ (by omega)
  exact key n 0 _ _ (by omega)

/-- **C67.** What it returns is 0, or -1 after a call that failed otherwise than by an interruption; it
calls `nanosleep` again, for what was left, just after interruptions, and takes as long as these calls. -/
theorem sleep_result {env : Nat → Timespec → Nano} {fuel millis : Nat} {r : Int} {el : Nat} (h : sleep env fuel millis = some (r, el)) :
    ∃ t, Sleeps env 0 t r el ∧ (millis < 2 ^ 63 → Is t (millis * 1000000)) := by
  have key : ∀ (fuel k : Nat) rem el0, sleepLoop env fuel k rem el0 = some (r, el) →
      ∃ d, el = el0 + d ∧ Sleeps env k rem r d := by
    intro fuel
    induction fuel with
    | zero => intro k rem el0 h; cases h
    | succ fuel ih =>
      intro k rem el0 h
      rw [sleepLoop] at h
      cases e : env k rem with
      | slept a => simp only [e] at h; cases h; exact ⟨a, rfl, .slept e⟩
      | fail a => simp only [e] at h; cases h; exact ⟨a, rfl, .fail e⟩
      | intr a b =>
        simp only [e] at h
        obtain ⟨d, h1, h2⟩ := ih _ _ _ h
        exact ⟨a + d, by omega, .intr e h2⟩
  obtain ⟨d, h1, h2⟩ := key fuel 0 _ 0 h
  rw [Nat.zero_add] at h1
  subst h1
  refine ⟨_, h2, fun hm => ?_⟩
  have e1 : toInt64 (millis % 1000) = ((millis % 1000 : Nat) : Int) := by
    unfold toInt64; rw [if_pos (by omega)]
  have e2 : (toInt64 millis).tdiv 1000 = ((millis / 1000 : Nat) : Int) := by
    unfold toInt64; rw [if_pos (by omega), Int.tdiv_eq_ediv_of_nonneg (by omega)]; omega
  rw [e1, e2]
  refine ⟨?_, ?_, ?_, ?_, ?_⟩ <;> simp only [NS] <;> omega

/-- A sleep that fails after an interruption: the time of both calls has passed. -/
example : Sleeps (fun k _ => if k = 0 then .intr 400 ⟨0, 600⟩ else .fail 7) 0 ⟨0, 1000⟩ (-1) (400 + 7) := by
  refine .intr (rem := ⟨0, 600⟩) ?_ (.fail ?_) <;> rfl

/-- Sleeps that are never interrupted and last exactly as long as asked for. -/
def exact (_ : Nat) (t : Timespec) : Nano :=
  if 0 ≤ t.nsec ∧ t.nsec < NS ∧ 0 ≤ t.sec ∧ t.sec < 2 ^ 63 then .slept (t.sec * NS + t.nsec).toNat else .fail 0

theorem exact_lawful (k : Nat) (t : Timespec) : Lawful t (exact k t) := by
  unfold exact
  split
  · next h =>
    refine ⟨_, ⟨h.1, h.2.1, h.2.2.1, h.2.2.2, ?_⟩, Nat.le_refl _⟩
    have : 0 ≤ t.sec * (NS : Int) := Int.mul_nonneg h.2.2.1 (by simp [NS])
    omega
  · trivial

/-- **C67, violated.** The number is converted to a signed type before it is divided: asked for
2^64-1 milliseconds, it returns 0 after 615. -/
theorem sleep_enough_violated : ∃ env, (∀ k t, Lawful t (env k t)) ∧ ∃ millis el, millis < 2 ^ 64 ∧
    sleep env 1 millis = some (0, el) ∧ el < millis * 1000000 :=
  ⟨exact, exact_lawful, 2 ^ 64 - 1, 615000000, by decide, by decide +kernel, by decide⟩

/-- **C67.** On Windows a request below 2^32-1 milliseconds is passed on as it is. -/
theorem sleep_win_partial {millis : Nat} (h : millis < 2 ^ 32 - 1) : winSleeps (sleepWin millis) = some millis := by
  unfold winSleeps sleepWin
  rw [Nat.mod_eq_of_lt (by omega), if_neg (by omega)]

/-- **C67, violated.** On Windows 2^32 milliseconds are no time at all, and 2^32-1 are forever. -/
theorem sleep_win_violated : winSleeps (sleepWin (2 ^ 32)) = some 0 ∧ winSleeps (sleepWin (2 ^ 32 - 1)) = none := by
  decide

/-! ## Clocks -/

theorem toU64_nat {n : Nat} (h : n < 2 ^ 64) : toU64 (n : Int) = n := by
  unfold toU64
  rw [Int.emod_eq_of_lt (by omega) (by omega)]
  rfl

theorem int64_nat {n : Nat} (h : n < 2 ^ 63) : int64 (n : Int) = .ok (n : Int) := by
  unfold int64
  rw [if_pos (by omega)]

theorem is_u64 {ts : Timespec} {n : Nat} (h : Is ts n) :
    ∃ q r : Nat, ts = ⟨(q : Int), (r : Int)⟩ ∧ r < 1000000000 ∧ q < 2 ^ 63 ∧ n = q * 1000000000 + r := by
  obtain ⟨h1, h2, h3, h4, h5⟩ := h
  obtain ⟨sec, nsec⟩ := ts
  simp only [NS] at *
  refine ⟨sec.toNat, nsec.toNat, ?_, ?_, ?_, ?_⟩
  · simp only [Int.toNat_of_nonneg h1, Int.toNat_of_nonneg h3]
  · omega
  · omega
  · omega

/-- **C88.** `sc_time_ns` and `sc_time_mono_ns` return the nanoseconds of the clock, as long as
64 bits suffice. -/
theorem ns_exact {ts : Timespec} {n : Nat} (h : Is ts n) (hn : n < 2 ^ 64) : timeNs ts = .ok n ∧ monoNs ts = .ok n := by
  obtain ⟨q, r, rfl, hr, hq, rfl⟩ := is_u64 h
  unfold timeNs monoNs
  simp only [toU64_nat (n := q) (by omega), toU64_nat (n := r) (by omega)]
  have h1 : q * 1000000000 < 2 ^ 64 := Nat.lt_of_le_of_lt (Nat.le_add_right _ _) hn
  rw [Nat.mod_eq_of_lt h1, Nat.mod_eq_of_lt hn]
  exact ⟨rfl, rfl⟩

/-- **C88.** `sc_time_ms` and `sc_time_mono_ms` return the whole milliseconds of the clock, as long
as 63 bits suffice. -/
theorem ms_exact {ts : Timespec} {n : Nat} (h : Is ts n) (hn : n / 1000000 < 2 ^ 63) :
    timeMs ts = .ok (n / 1000000) ∧ monoMs ts = .ok (n / 1000000) := by
  obtain ⟨q, r, rfl, hr, hq, rfl⟩ := is_u64 h
  have e : (q * 1000000000 + r) / 1000000 = q * 1000 + r / 1000000 := by omega
  rw [e] at hn ⊢
  unfold timeMs monoMs
  have c : ((q : Int) * 1000) = ((q * 1000 : Nat) : Int) := by omega
  have d : ((r : Int).tdiv 1000000) = ((r / 1000000 : Nat) : Int) := by
    rw [Int.tdiv_eq_ediv_of_nonneg (by omega)]; omega
  simp only [c, d]
  have h1 : q * 1000 < 2 ^ 63 := Nat.lt_of_le_of_lt (Nat.le_add_right _ _) hn
  have h2 : q * 1000 < 2 ^ 64 := Nat.lt_trans h1 (by decide)
  have h3 : r / 1000000 < 2 ^ 64 := by omega
  have h4 : q * 1000 + r / 1000000 < 2 ^ 64 := Nat.lt_trans hn (by decide)
  have h5 : q < 2 ^ 64 := by omega
  have h6 : r < 2 ^ 64 := by omega
  rw [int64_nat h1, Res.ok_bind, toU64_nat h2, toU64_nat h3, toU64_nat h5, toU64_nat h6, Nat.mod_eq_of_lt h2,
    Nat.mod_eq_of_lt h4]
  exact ⟨rfl, rfl⟩

/-- **C88.** Differences of the monotonic clock in milliseconds are right to less than a
millisecond, and never negative. -/
theorem mono_ms_elapsed {a b : Timespec} {n m : Nat} (ha : Is a n) (hb : Is b m) (hle : n ≤ m)
    (hm : m / 1000000 < 2 ^ 63) : ∃ x y, monoMs a = .ok x ∧ monoMs b = .ok y ∧ x ≤ y ∧
      (m - n) < (y - x + 1) * 1000000 ∧ (y - x) * 1000000 < (m - n) + 1000000 := by
  refine ⟨_, _, (ms_exact ha (by omega)).2, (ms_exact hb hm).2, by omega, ?_, ?_⟩ <;> omega

/-- **C88, violated.** Beyond 64 bits of nanoseconds, from the year 2554 on, the clock starts again. -/
theorem ns_wrap_violated : ∃ a b n m, Is a n ∧ Is b m ∧ n < m ∧ timeNs a = .ok (2 ^ 64 - 1) ∧ timeNs b = .ok 0 :=
  ⟨⟨18446744073, 709551615⟩, ⟨18446744073, 709551616⟩, 2 ^ 64 - 1, 2 ^ 64, by decide, by decide, by decide, by decide,
    by decide⟩

/-- **C88.** On Windows the monotonic clock is right while the product fits. -/
theorem mono_win_partial {count freq : Nat} (hf : 0 < freq) (hf' : freq < 2 ^ 63) (h : count * 1000000000 < 2 ^ 63) :
    monoNsWin count freq = .ok (count * 1000000000 / freq) ∧ monoMsWin count freq = .ok (count * 1000 / freq) := by
  have c : ((count : Int) * 1000) = ((count * 1000 : Nat) : Int) := by omega
  have d : ((count : Int) * 1000000000) = ((count * 1000000000 : Nat) : Int) := by omega
  have e := Nat.div_le_self (count * 1000) freq
  unfold monoNsWin monoMsWin
  have h1 : count * 1000 < 2 ^ 63 := Nat.lt_of_le_of_lt (Nat.mul_le_mul_left _ (by decide)) h
  have h2 : freq < 2 ^ 64 := Nat.lt_trans hf' (by decide)
  have h3 : count * 1000000000 < 2 ^ 64 := Nat.lt_trans h (by decide)
  have h4 : count * 1000 / freq < 2 ^ 64 := Nat.lt_of_le_of_lt e (Nat.lt_trans h1 (by decide))
  have h5 : ¬ ((freq : Int) = 0) := by omega
  have h6 : ¬ (freq = 0) := by omega
  have h7 : (0 : Int) ≤ ((count * 1000 : Nat) : Int) := by omega
  rw [c, d, int64_nat h, int64_nat h1, Res.ok_bind, Res.ok_bind, toU64_nat h2, if_neg h5, if_neg h6, toU64_nat h3,
    Int.tdiv_eq_ediv_of_nonneg h7, ← Int.natCast_ediv, toU64_nat h4]
  exact ⟨rfl, rfl⟩

/-- **C88, violated.** On Windows the product of `sc_time_mono_ns` overflows a signed type after
923 seconds with the usual frequency of 10 MHz: undefined behaviour. -/
theorem mono_win_violated : ∃ count : Int, count = 923 * 10000000 ∧ monoNsWin count 10000000 = .ub :=
  ⟨_, rfl, by decide⟩

/-! ## Examples -/

/-- Interrupted twice, the sleep of 1500 ms goes on. -/
example : sleep (fun k t => if k = 0 then .intr 400000000 ⟨1, 100000000⟩ else if k = 1 then .intr 1000000000 ⟨0, 100000000⟩
    else exact k t) 5 1500 = some (0, 1500000000) := by decide +kernel

example : Is ⟨1700000000, 123456789⟩ 1700000000123456789 := by decide

example : timeMs ⟨1700000000, 123456789⟩ = .ok 1700000000123 := by decide

end Verif.Time
