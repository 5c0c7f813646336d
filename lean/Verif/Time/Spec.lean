import Verif.Time.Model

/-! # What clocks read and what `nanosleep` does -/

namespace Verif.Time.Spec

/-- Nanoseconds in a second. -/
def NS : Nat := 1000000000

/-- The record stands for this many nanoseconds. -/
def Is (ts : Timespec) (n : Nat) : Prop :=
  0 ≤ ts.nsec ∧ ts.nsec < NS ∧ 0 ≤ ts.sec ∧ ts.sec < 2 ^ 63 ∧ ts.sec * NS + ts.nsec = n

instance (ts : Timespec) (n : Nat) : Decidable (Is ts n) := by unfold Is; infer_instance

/-- How POSIX lets a call of `nanosleep` turn out: it returns 0 after the requested time at the
earliest; if a signal interrupts it, it stores at least what is left; a request that is not a valid
time fails. -/
def Lawful (t : Timespec) : Nano → Prop
  | .slept e => ∃ n, Is t n ∧ n ≤ e
  | .intr e rem => ∃ n m, Is t n ∧ Is rem m ∧ n ≤ e + m
  | .fail _ => True

/-- Sleeping for `t`, from the `k`-th call of `nanosleep` on: a call that is interrupted is followed by
one for what was left. `r` is 0 if the last call slept to its end and -1 if it failed otherwise, and
`el` is what all these calls took. -/
inductive Sleeps (env : Nat → Timespec → Nano) : Nat → Timespec → Int → Nat → Prop where
  | slept {k t e} : env k t = .slept e → Sleeps env k t 0 e
  | fail {k t e} : env k t = .fail e → Sleeps env k t (-1) e
  | intr {k t e rem r el} : env k t = .intr e rem → Sleeps env (k + 1) rem r el → Sleeps env k t r (e + el)

/-- `Sleep(ms)` of Windows returns after this many milliseconds at the earliest, or never. -/
def winSleeps (ms : Nat) : Option Nat := if ms = 2 ^ 32 - 1 then none else some ms

end Verif.Time.Spec
