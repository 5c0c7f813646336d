import Verif.Time.Props

/-!
# The wall clock on Windows (C118)

`GetSystemTimeAsFileTime` counts units of 100 ns since the year 1601, `CLOCK_REALTIME` counts from 1970.
-/

namespace Verif.Time

open Spec

/-- `FILETIME`: the two halves of a count of 64 bits -/
structure FileTime where
  low : Nat
  high : Nat
  deriving DecidableEq

/-- `dateTime.QuadPart`, time/sc_time.c:53-54 and 76-77: the halves have 32 bits each. -/
def quad (ft : FileTime) : Nat := ft.low % 2 ^ 32 + ft.high % 2 ^ 32 * 2 ^ 32

/-- `sc_time_ms` on Windows, time/sc_time.c:49-56 -/
def timeMsWin (ft : FileTime) : Nat := quad ft / 10000

/-- `sc_time_ns` on Windows, time/sc_time.c:72-79: the product has 64 bits. -/
def timeNsWin (ft : FileTime) : Nat := quad ft * 100 % 2 ^ 64

/-- From 1601 to 1970: 369 years with 89 leap days, in seconds. -/
def era : Nat := (369 * 365 + 89) * 86400

/-- What `GetSystemTimeAsFileTime` gives `n` nanoseconds after the beginning of 1970: whole units of 100 ns since 1601. -/
def Reads (ft : FileTime) (n : Nat) : Prop :=
  ft.low < 2 ^ 32 ∧ ft.high < 2 ^ 32 ∧ ft.low + ft.high * 2 ^ 32 = era * 10000000 + n / 100

theorem reads_quad {ft : FileTime} {n : Nat} (h : Reads ft n) : quad ft = era * 10000000 + n / 100 := by
  obtain ⟨h1, h2, h3⟩ := h
  unfold quad
  rw [Nat.mod_eq_of_lt h1, Nat.mod_eq_of_lt h2]
  exact h3

/-- **C118 is violated.** At no moment do `sc_time_ms` and `sc_time_ns` return the same on Windows as elsewhere: they are
369 years ahead, and `sc_time_ns` counts in steps of 100 ns (as long as the results fit). -/
theorem wall_violated {ts : Timespec} {ft : FileTime} {n : Nat} (h : Is ts n) (hw : Reads ft n) (hn : era * 1000000000 + n < 2 ^ 64) :
    ∃ ms ns, timeMs ts = .ok ms ∧ timeNs ts = .ok ns ∧ timeMsWin ft = ms + 11644473600000 ∧
      timeNsWin ft = ns / 100 * 100 + 11644473600000000000 := by
  have hera : era = 11644473600 := rfl
  have hq := reads_quad hw
  rw [hera] at hq hn
  refine ⟨n / 1000000, n, (ms_exact h (by omega)).1, (ns_exact h (by omega)).1, ?_, ?_⟩
  · unfold timeMsWin
    rw [hq]
    omega
  · unfold timeNsWin
    rw [hq]
    rw [Nat.mod_eq_of_lt (by omega)]
    omega

/-- **C118, in part.** What passes between two calls is told the same on every system, to less than a millisecond and, with
`sc_time_ns`, less than 100 ns, as long as the results fit. -/
theorem elapsed_partial {ts ts' : Timespec} {ft ft' : FileTime} {n m : Nat} (h : Is ts n) (h' : Is ts' m) (hw : Reads ft n)
    (hw' : Reads ft' m) (hle : n ≤ m) (hm : era * 1000000000 + m < 2 ^ 64) :
    ∃ a b c d, timeMs ts = .ok a ∧ timeMs ts' = .ok b ∧ timeNs ts = .ok c ∧ timeNs ts' = .ok d ∧
      timeMsWin ft' - timeMsWin ft = b - a ∧ timeMsWin ft ≤ timeMsWin ft' ∧ d - c = m - n ∧
      (timeNsWin ft' - timeNsWin ft) < m - n + 100 ∧ m - n < (timeNsWin ft' - timeNsWin ft) + 100 := by
  have hera : era = 11644473600 := rfl
  rw [hera] at hm
  obtain ⟨a, c, h1, h2, h3, h4⟩ := wall_violated h hw (by rw [hera]; omega)
  obtain ⟨b, d, h5, h6, h7, h8⟩ := wall_violated h' hw' (by rw [hera]; omega)
  rw [(ms_exact h (by omega)).1] at h1
  rw [(ns_exact h (by omega)).1] at h2
  rw [(ms_exact h' (by omega)).1] at h5
  rw [(ns_exact h' (by omega)).1] at h6
  cases h1; cases h2; cases h5; cases h6
  refine ⟨_, _, _, _, (ms_exact h (by omega)).1, (ms_exact h' (by omega)).1, (ns_exact h (by omega)).1, (ns_exact h' (by omega)).1, ?_⟩
  omega

/-- **C118 is violated** by `sc_time_ns` on Windows from the year 2185 on: it starts again at 0, 369 years before it does
elsewhere. -/
theorem ns_wrap_win_violated : ∃ ft ft' n m, Reads ft n ∧ Reads ft' m ∧ n < m ∧ timeNsWin ft' < timeNsWin ft ∧
    m < 2 ^ 64 ∧ ∃ ts, Is ts m ∧ timeNs ts = .ok m :=
  ⟨⟨184467440737095516 % 2 ^ 32, 184467440737095516 / 2 ^ 32⟩, ⟨184467440737095517 % 2 ^ 32, 184467440737095517 / 2 ^ 32⟩,
    (184467440737095516 - 116444736000000000) * 100, (184467440737095517 - 116444736000000000) * 100,
    by unfold Reads; decide, by unfold Reads; decide, by decide, by decide, by decide,
    ⟨(184467440737095517 - 116444736000000000) * 100 / 1000000000, (184467440737095517 - 116444736000000000) * 100 % 1000000000⟩,
    by unfold Is; decide, by decide⟩

/-- The first second of 2026 -/
example : Is ⟨1767225600, 0⟩ 1767225600000000000 ∧ Reads ⟨134116992000000000 % 2 ^ 32, 134116992000000000 / 2 ^ 32⟩ 1767225600000000000 := by
  unfold Is Reads; decide

example : timeMs ⟨1767225600, 0⟩ = .ok 1767225600000 ∧
    timeMsWin ⟨134116992000000000 % 2 ^ 32, 134116992000000000 / 2 ^ 32⟩ = 13411699200000 := by decide

end Verif.Time
