import Verif.Sc.Spec

/-!
# What the logger should do

Levels, the header of a line, and what the log files hold, with no reference to the model.
-/

namespace Verif.Log.Spec

open Sc.Spec (IsDec)

/-- The levels, logger/sc_log.h:43-50. -/
inductive Level where
  | debug | info | warn | error | off
  deriving DecidableEq

/-- Levels are ordered as they are listed. -/
def Level.rank : Level → Nat
  | .debug => 0 | .info => 1 | .warn => 2 | .error => 3 | .off => 4

/-- The names of the levels. -/
def Level.name : Level → List UInt8
  | .debug => [68, 69, 66, 85, 71]
  | .info => [73, 78, 70, 79]
  | .warn => [87, 65, 82, 78]
  | .error => [69, 82, 82, 79, 82]
  | .off => [79, 70, 70]

/-- Equal but for the case of letters. -/
def SameLetters (s t : List UInt8) : Prop := s.map toLower = t.map toLower

/-- A point in local time, months counted from 1. -/
structure Tm where
  year : Nat
  mon : Nat
  mday : Nat
  hour : Nat
  min : Nat
  sec : Nat

/-- A decimal number with at least two digits. -/
def Two (s : List UInt8) (n : Nat) : Prop :=
  ∃ t, IsDec t n ∧ s = if t.length < 2 then 48 :: t else t

/-- `[2021-02-03 04:05:06][INFO ][name] ` -/
def Header (tm : Tm) (l : Level) (name h : List UInt8) : Prop :=
  ∃ y mo d hh mi s, IsDec y tm.year ∧ Two mo tm.mon ∧ Two d tm.mday ∧ Two hh tm.hour ∧ Two mi tm.min ∧
    Two s tm.sec ∧
    h = [91] ++ y ++ [45] ++ mo ++ [45] ++ d ++ [32] ++ hh ++ [58] ++ mi ++ [58] ++ s ++ [93] ++
      [91] ++ (l.name ++ List.replicate (5 - l.name.length) 32) ++ [93] ++ [91] ++ name ++ [93] ++ [32]

/-- A line of the log: a header and the message. -/
structure Line where
  header : List UInt8
  msg : List UInt8

/-- The bytes of a line. -/
def Line.bytes (l : Line) : List UInt8 := l.header ++ l.msg

/-- The bytes of several lines. -/
def bytes (ls : List Line) : List UInt8 := (ls.map Line.bytes).flatten

/-- What the two files hold after the lines `ls` were logged: `base` and `prev` are what the current
and the previous file held when logging to them began. Either nothing has been rotated, or the
previous file holds a run of whole lines, with `base` in front if it was rotated only once, and the
current file holds the lines after that. -/
inductive Kept (base : List UInt8) (prev : Option (List UInt8)) (ls : List Line) :
    Option (List UInt8) → Option (List UInt8) → Prop
  | first : Kept base prev ls prev (some (base ++ bytes ls))
  | once {b c} : ls = b ++ c → b ≠ [] → Kept base prev ls (some (base ++ bytes b)) (some (bytes c))
  | more {a b c} : ls = a ++ b ++ c → a ≠ [] → b ≠ [] →
      Kept base prev ls (some (bytes b)) (some (bytes c))

end Verif.Log.Spec
