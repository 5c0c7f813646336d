import Verif.Basic

/-!
# Model of time/sc_time.c

A 64-bit system: `time_t` and `long` have 64 bits. Conversions to signed types wrap (gcc).
-/

namespace Verif.Time

/-- `struct timespec` -/
structure Timespec where
  sec : Int
  nsec : Int
  deriving DecidableEq

/-- Conversion of a `uint64_t` to a signed type of 64 bits. -/
def toInt64 (n : Nat) : Int := if n < 2 ^ 63 then n else (n : Int) - 2 ^ 64

/-- Conversion of a signed integer to `uint64_t`. -/
def toU64 (i : Int) : Nat := (i % 2 ^ 64).toNat

/-- Arithmetic of a signed type of 64 bits: overflow is undefined. -/
def int64 (i : Int) : Res Int := if -2 ^ 63 ≤ i ∧ i < 2 ^ 63 then .ok i else .ub

/-! ## The clocks -/

/-- `sc_time_ms`, time/sc_time.c:59-66, for a reading of the clock. `tv_sec * 1000` is signed. -/
def timeMs (ts : Timespec) : Res Nat := do
  let a ← int64 (ts.sec * 1000)
  .ok ((toU64 a + toU64 (ts.nsec.tdiv 1000000)) % 2 ^ 64)

/-- `sc_time_ns`, time/sc_time.c:82-89 -/
def timeNs (ts : Timespec) : Res Nat := .ok ((toU64 ts.sec * 1000000000 % 2 ^ 64 + toU64 ts.nsec) % 2 ^ 64)

/-- `sc_time_mono_ms`, time/sc_time.c:108-116 -/
def monoMs (ts : Timespec) : Res Nat := .ok ((toU64 ts.sec * 1000 % 2 ^ 64 + toU64 ts.nsec / 1000000) % 2 ^ 64)

/-- `sc_time_mono_ns`, time/sc_time.c:134-141 -/
def monoNs (ts : Timespec) : Res Nat := .ok ((toU64 ts.sec * 1000000000 % 2 ^ 64 + toU64 ts.nsec) % 2 ^ 64)

/-- `sc_time_mono_ms` on Windows, time/sc_time.c:96-106, for a reading of the counter and its
frequency. The product is signed. -/
def monoMsWin (count freq : Int) : Res Nat := do
  let a ← int64 (count * 1000)
  if freq = 0 then .ub else .ok (toU64 (a.tdiv freq))

/-- `sc_time_mono_ns` on Windows, time/sc_time.c:122-132. The product is signed, the division is
not. -/
def monoNsWin (count freq : Int) : Res Nat := do
  let a ← int64 (count * 1000000000)
  if toU64 freq = 0 then .ub else .ok (toU64 a / toU64 freq)

/-! ## Sleeping -/

/-- How a call of `nanosleep` turns out: after how many nanoseconds, and how. -/
inductive Nano where
  /-- returns 0 -/
  | slept (e : Nat)
  /-- returns -1, `errno` is `EINTR`, and `rem` is stored -/
  | intr (e : Nat) (rem : Timespec)
  /-- returns -1, `errno` is something else -/
  | fail (e : Nat)

/-- The loop of `sc_time_sleep`, time/sc_time.c:157-160, from the `k`-th call on: the result and the
time that has passed, or `none` if it is still sleeping after `fuel` calls. -/
def sleepLoop (env : Nat → Timespec → Nano) : (fuel k : Nat) → (rem : Timespec) → (elapsed : Nat) → Option (Int × Nat)
  | 0, _, _, _ => none
  | fuel + 1, k, rem, elapsed =>
    let t := rem
    match env k t with
    | .slept e => some (0, elapsed + e)
    | .intr e rem => sleepLoop env fuel (k + 1) rem (elapsed + e)
    | .fail e => some (-1, elapsed + e)

/-- `sc_time_sleep`, time/sc_time.c:151-162. `env k t` is how the `k`-th call of `nanosleep`, with
argument `t`, turns out. -/
def sleep (env : Nat → Timespec → Nano) (fuel : Nat) (millis : Nat) : Option (Int × Nat) :=
  let sec := (toInt64 millis).tdiv 1000
  let nsec := toInt64 (millis % 1000) * 1000000
  sleepLoop env fuel 0 ⟨sec, nsec⟩ 0

/-- `sc_time_sleep` on Windows, time/sc_time.c:148-149: the argument of `Sleep`. -/
def sleepWin (millis : Nat) : Nat := millis % 2 ^ 32

end Verif.Time
