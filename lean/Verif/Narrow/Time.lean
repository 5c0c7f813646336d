import Verif.Time.Props

/-!
# `sc_time` where `time_t` and `long` have 32 bits

`Verif.Time` is for systems with 64 bits. Only `sc_time_ms` and `sc_time_sleep` compute with `time_t`; the other functions
convert the seconds to `uint64_t` first.
-/

namespace Verif.Narrow

open Time (Timespec Nano sleepLoop sleep toU64)
open Time.Spec (Is Lawful NS)

/-- Arithmetic of a signed type of 32 bits: overflow is undefined. -/
def int32 (i : Int) : Res Int := if -2 ^ 31 ≤ i ∧ i < 2 ^ 31 then .ok i else .ub

/-- Conversion to a signed type of 32 bits, which wraps -/
def toInt32 (n : Nat) : Int := if n % 2 ^ 32 < 2 ^ 31 then ((n % 2 ^ 32 : Nat) : Int) else ((n % 2 ^ 32 : Nat) : Int) - 2 ^ 32

/-- `sc_time_ms`, time/sc_time.c:59-66: `tv_sec * 1000` has the type of `tv_sec`. -/
def timeMs (ts : Timespec) : Res Nat := do
  let a ← int32 (ts.sec * 1000)
  .ok ((toU64 a + toU64 (ts.nsec.tdiv 1000000)) % 2 ^ 64)

/-- `sc_time_sleep`, time/sc_time.c:151-162: `(time_t) millis` is divided. -/
def sleep32 (env : Nat → Timespec → Nano) (fuel : Nat) (millis : Nat) : Option (Int × Nat) :=
  let sec := (toInt32 millis).tdiv 1000
  let nsec := toInt32 (millis % 1000) * 1000000
  sleepLoop env fuel 0 ⟨sec, nsec⟩ 0

/-- **C152, in part**: the time of day in milliseconds is right until 1970-01-25 20:31:24. -/
theorem time_ms_narrow_partial {ts : Timespec} {n : Nat} (h : Is ts n) (hs : ts.sec < 2147484) :
    timeMs ts = .ok (n / 1000000) := by
  obtain ⟨q, r, rfl, hr, hq, rfl⟩ := Time.is_u64 h
  simp only at hs
  unfold timeMs int32
  rw [if_pos (by simp only; omega)]
  simp only [Res.ok_bind]
  have h1 : toU64 ((q : Int) * 1000) = q * 1000 := by
    rw [show ((q : Int) * 1000) = ((q * 1000 : Nat) : Int) by omega]
    exact Time.toU64_nat (by omega)
  have h2 : toU64 ((r : Int).tdiv 1000000) = r / 1000000 := by
    rw [Int.tdiv_eq_ediv_of_nonneg (by omega), show ((r : Int) / 1000000) = ((r / 1000000 : Nat) : Int) by omega]
    exact Time.toU64_nat (by omega)
  have e : (q * 1000000000 + r) / 1000000 = q * 1000 + r / 1000000 := by omega
  rw [h1, h2, e, Nat.mod_eq_of_lt (by omega)]

/-- **C152 is violated**: later it is undefined, at every time. -/
theorem time_ms_narrow_violated {ts : Timespec} (hs : 2147484 ≤ ts.sec) : timeMs ts = .ub := by
  unfold timeMs int32
  rw [if_neg (by omega)]
  rfl

/-- **C152, in part**: sleeping for less than 2^31 milliseconds, nearly 25 days, is as with 64 bits, see `Time.sleep_enough_partial`. -/
theorem sleep_narrow_partial {env : Nat → Timespec → Nano} {fuel millis : Nat} (h : millis < 2 ^ 31) : sleep32 env fuel millis = sleep env fuel millis := by
  have key : ∀ m, m < 2 ^ 31 → toInt32 m = Time.toInt64 m := by
    intro m hm
    unfold toInt32 Time.toInt64
    rw [if_pos (by omega), if_pos (by omega)]
    omega
  unfold sleep32 sleep
  rw [key millis h, key (millis % 1000) (by omega)]

/-- **C152 is violated**: asked for 2^31 milliseconds, it fails at once, and asked for 2^32 + 5, nearly 50 days, it returns 0 after 301
milliseconds: the seconds are those of 5, the rest is that of 2^32 + 5. -/
theorem sleep_narrow_violated : (∀ k t, Lawful t (Time.exact k t)) ∧ sleep32 Time.exact 1 (2 ^ 31) = some (-1, 0) ∧
    sleep32 Time.exact 1 (2 ^ 32 + 5) = some (0, 301000000) :=
  ⟨Time.exact_lawful, by decide +kernel, by decide +kernel⟩

/-! ## Examples -/

example : Is ⟨1763337600, 5⟩ 1763337600000000005 ∧ timeMs ⟨1763337600, 5⟩ = .ub := by decide +kernel
example : Is ⟨86400, 7000000⟩ 86400007000000 ∧ timeMs ⟨86400, 7000000⟩ = .ok 86400007 := by decide +kernel

end Verif.Narrow
