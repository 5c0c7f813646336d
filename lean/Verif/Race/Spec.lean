import Verif.Basic

/-!
# Data races

An execution is a list of what threads do, in the order in which it happens. What one thread does
is ordered, and an unlock is ordered before every later lock of the same mutex (C11 7.26.4.3 and
5.1.2.4; POSIX 4.12): so much a thread can rely on. Two accesses of different threads to the same
place, one of them a write, that are not ordered are a data race, and the program is undefined.
-/

namespace Verif.Race

/-- What a thread does: it locks and unlocks mutexes `L`, reads and writes places `X`, and does
other things `E` that are of interest. -/
inductive Act (L X E : Type) where
  | acq (l : L)
  | rel (l : L)
  | rd (x : X)
  | wr (x : X)
  | ev (e : E)
  deriving DecidableEq

/-- Threads and what they do. -/
abbrev Trace (L X E : Type) := List (Nat × Act L X E)

variable {L X E : Type}

/-- The `i`th thing that happens is that `t` does `a`. -/
abbrev At (tr : Trace L X E) (i t : Nat) (a : Act L X E) : Prop := tr[i]? = some (t, a)

/-- The `i`th thing happens before the `j`th. -/
inductive HB (tr : Trace L X E) : Nat → Nat → Prop
  | thread {i j t a b} : i < j → At tr i t a → At tr j t b → HB tr i j
  | mutex {i j t u l} : i < j → At tr i t (.rel l) → At tr j u (.acq l) → HB tr i j
  | trans {i j k} : HB tr i j → HB tr j k → HB tr i k

/-- An access to a place. -/
def Act.touches (x : X) : Act L X E → Prop
  | .rd y => y = x
  | .wr y => y = x
  | _ => False

/-- A write to a place. -/
def Act.writes (x : X) : Act L X E → Prop
  | .wr y => y = x
  | _ => False

/-- A data race. -/
def Racy (tr : Trace L X E) : Prop :=
  ∃ i j t u a b x, At tr i t a ∧ At tr j u b ∧ t ≠ u ∧ a.touches x ∧ b.touches x ∧
    (a.writes x ∨ b.writes x) ∧ ¬ HB tr i j ∧ ¬ HB tr j i

/-- Mutexes are held by one thread at a time, and each place is accessed only by a thread that holds
its mutex. `o` says who holds what in the end. -/
inductive Guarded (g : X → L) : Trace L X E → (L → Option Nat) → Prop
  | nil : Guarded g [] fun _ => none
  | acq {tr o o'} (t : Nat) (l : L) : Guarded g tr o → o l = none → o' l = some t →
      (∀ k, k ≠ l → o' k = o k) → Guarded g (tr ++ [(t, .acq l)]) o'
  | rel {tr o o'} (t : Nat) (l : L) : Guarded g tr o → o l = some t → o' l = none →
      (∀ k, k ≠ l → o' k = o k) → Guarded g (tr ++ [(t, .rel l)]) o'
  | rd {tr o} (t : Nat) (x : X) : Guarded g tr o → o (g x) = some t → Guarded g (tr ++ [(t, .rd x)]) o
  | wr {tr o} (t : Nat) (x : X) : Guarded g tr o → o (g x) = some t → Guarded g (tr ++ [(t, .wr x)]) o
  | ev {tr o} (t : Nat) (e : E) : Guarded g tr o → Guarded g (tr ++ [(t, .ev e)]) o

/-- Who may access something: a thread, or whoever next locks (or waits for) `l`. -/
inductive Owner (L : Type) where
  | thread (t : Nat)
  | left (l : L)
  deriving DecidableEq

/-- Places are accessed only by the thread that owns them; a thread leaves what it owns with a mutex
(or with a thread that it starts, or that waits for its end), and whoever locks it next takes what
was left there. `o` says who owns what in the end. -/
inductive Passed {K : Type} (g : X → K) : Trace L X E → (K → Owner L) → Prop
  | nil (o : K → Owner L) : Passed g [] o
  | acq {tr o o'} (t : Nat) (l : L) : Passed g tr o →
      (∀ k, o' k = o k ∨ (o k = .left l ∧ o' k = .thread t)) → Passed g (tr ++ [(t, .acq l)]) o'
  | rel {tr o o'} (t : Nat) (l : L) : Passed g tr o →
      (∀ k, o' k = o k ∨ (o k = .thread t ∧ o' k = .left l)) → Passed g (tr ++ [(t, .rel l)]) o'
  | rd {tr o} (t : Nat) (x : X) : Passed g tr o → o (g x) = .thread t → Passed g (tr ++ [(t, .rd x)]) o
  | wr {tr o} (t : Nat) (x : X) : Passed g tr o → o (g x) = .thread t → Passed g (tr ++ [(t, .wr x)]) o
  | ev {tr o} (t : Nat) (e : E) : Passed g tr o → Passed g (tr ++ [(t, .ev e)]) o

end Verif.Race
