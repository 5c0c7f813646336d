import Verif.Basic

/-!
# What measuring promises

A measurement begins with the first start and ends with end. Time and events count while it is
started and not paused. Reported are the time, and for each event an estimate of how often it
happened, with the share of the time in which it was counted: when the counters of the machine are
too few, each event is counted for a part of the time only, and the estimate is the count divided by
that part.
-/

namespace Verif.Perf.Spec

/-- How often an event was counted, in how many of how many nanoseconds. -/
structure Tally where
  count : Nat
  enabled : Nat
  running : Nat
  deriving DecidableEq

/-- The estimate of the number of events. -/
def Tally.estimate (t : Tally) : Rat :=
  if t.enabled = 0 ∨ t.running = 0 then t.count else t.count / ((t.running : Rat) / t.enabled)

/-- The share of the time in which the event was counted. -/
def Tally.share (t : Tally) : Rat := if t.enabled = 0 ∨ t.running = 0 then 0 else (t.running : Rat) / t.enabled

/-- What is reported: nanoseconds, and for each event its name, the estimate and the share. -/
structure Report where
  ns : Nat
  events : List (String × Rat × Rat)
  deriving DecidableEq

/-- Nothing is being measured, or a measurement is under way. -/
inductive State where
  | idle
  | on (counting : Bool) (ns : Nat) (tallies : List Tally)
  deriving DecidableEq

/-- What happens. `tick ns incs`: time passes, each event is counted so many times in so many of the
nanoseconds. -/
inductive Event where
  | start
  | pause
  | stop (r : Report)
  | tick (ns : Nat) (incs : List (Nat × Nat))
  deriving DecidableEq

def Tally.add (ns : Nat) (t : Tally) (i : Nat × Nat) : Tally := ⟨t.count + i.1, t.enabled + ns, t.running + i.2⟩

/-- What is reported of an event, if `est` is the estimate. -/
def Tally.line (est : Tally → Rat) (name : String) (t : Tally) : String × Rat × Rat := (name, est t, t.share)

/-- The state after something happens, or `none` if it must not: pausing or ending what has not been
started, and a wrong report. `names` are the names of the events, `est` says how their number is
estimated. -/
def next (est : Tally → Rat) (names : List String) : State → Event → Option State
  | .idle, .start => some (.on true 0 (names.map fun _ => ⟨0, 0, 0⟩))
  | .idle, .tick _ _ => some .idle
  | .idle, _ => none
  | .on _ ns ts, .start => some (.on true ns ts)
  | .on _ ns ts, .pause => some (.on false ns ts)
  | .on true ns ts, .tick d incs => some (.on true (ns + d) (List.zipWith (Tally.add d) ts incs))
  | .on false ns ts, .tick _ _ => some (.on false ns ts)
  | .on _ ns ts, .stop r => if r = ⟨ns, List.zipWith (Tally.line est) names ts⟩ then some .idle else none

/-- The state after a history, from the beginning; `none` if it must not happen. -/
def run (est : Tally → Rat) (names : List String) (es : List Event) : Option State := es.foldlM (next est names) .idle

/-- Histories that must happen as they do: a measurement is reported as it was. -/
def Right (est : Tally → Rat) (names : List String) (es : List Event) : Prop := run est names es ≠ none

/-- Whether the measurement is under way after a history. -/
def counting (es : List Event) : Bool :=
  es.foldl (fun b e => match e with | .start => true | .pause => false | .stop _ => false | .tick _ _ => b) false

/-- A start comes only when the measurement is not under way. -/
def Tame (es : List Event) : Prop := ∀ a b, es = a ++ .start :: b → counting a = false

/-- Every event is counted all the time. -/
def Undivided (es : List Event) : Prop := ∀ d incs, Event.tick d incs ∈ es → ∀ i ∈ incs, i.2 = d

end Verif.Perf.Spec
