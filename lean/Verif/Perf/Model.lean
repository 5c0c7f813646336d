import Verif.Perf.Spec

/-!
# Model of perf/sc_perf.c

The system has a clock and counters, named by descriptors; each counts while it is enabled. Numbers
of type `double` are rational numbers here; `Verif.Flt.value_double` tells how far rounding takes the
results away from these. A failed call ends the program
(`abort`): `none`. The text that `sc_perf_end` prints is modelled by the values it is made of.
-/

namespace Verif.Perf

open Spec (Event Report)

/-- A counter of the system. -/
structure Counter where
  on : Bool
  value : Nat
  enabled : Nat
  running : Nat
  deriving DecidableEq

/-- The clock in nanoseconds, and the open counters. -/
structure World where
  clock : Nat
  ctr : Int → Option Counter

/-- `struct sc_perf_item`, perf/sc_perf.c:59-64, with the name of its event. -/
structure Item where
  name : String
  value : Rat
  active : Rat
  fd : Int

/-- The variables, perf/sc_perf.c:54-57 and 66. -/
structure Perf where
  init : Bool
  running : Bool
  total : Nat
  start : Nat
  items : List Item

/-- `sc_perf_clear`, perf/sc_perf.c:136-149 -/
def clear (names : List String) : Perf :=
  { total := 0, start := 0, running := false, init := false, items := names.map fun n => ⟨n, 0, 0, -1⟩ }

/-- `perf_event_open` with `disabled` set -/
def World.opened (w : World) (fd : Int) : World :=
  { w with ctr := fun i => if i = fd then some ⟨false, 0, 0, 0⟩ else w.ctr i }

/-- `sc_perf_set`, perf/sc_perf.c:79-110: `fds` are what `perf_event_open` returns. -/
def set : List Item → List Int → World → Option (World × List Item)
  | [], _, w => some (w, [])
  | _ :: _, [], _ => none
  | it :: its, fd :: fds, w =>
    if fd = -1 then none
    else
      match set its fds (w.opened fd) with
      | none => none
      | some (w, its) => some (w, { it with fd := fd } :: its)

/-- `prctl(PR_TASK_PERF_EVENTS_ENABLE)` and `prctl(PR_TASK_PERF_EVENTS_DISABLE)`: all counters. -/
def World.switch (w : World) (on : Bool) : World :=
  { w with ctr := fun i => (w.ctr i).map fun c => { c with on := on } }

/-- `sy_time_nano`, perf/sc_perf.c:151-162: computed in `long`. -/
def nano (w : World) : Res Nat := if w.clock < 2 ^ 63 then .ok w.clock else .ub

/-- perf/sc_perf.c:166-170 -/
def ensure (names : List String) (fds : List Int) (w : World) (p : Perf) : Option (World × Perf) :=
  if ¬ p.init then
    let p := clear names
    match set p.items fds w with
    | none => none
    | some (w, items) => some (w, { p with items := items, init := true })
  else some (w, p)

/-- `sc_perf_start`, perf/sc_perf.c:164-176; `ok` is whether `prctl` succeeds. -/
def start (names : List String) (fds : List Int) (ok : Bool) (w : World) (p : Perf) : Res (Option (World × Perf)) :=
  match ensure names fds w p with
  | none => .ok none
  | some (w, p) =>
    if ¬ ok then .ok none
    else do
      let w := w.switch true
      let now ← nano w
      .ok (some (w, { p with start := now, running := true }))

/-- `sc_perf_pause`, perf/sc_perf.c:178-190 -/
def pause (ok : Bool) (w : World) (p : Perf) : Res (Option (World × Perf)) :=
  if ¬ p.init then .ok none
  else if ¬ p.running then .ok (some (w, p))
  else if ¬ ok then .ok none
  else do
    let w := w.switch false
    let now ← nano w
    .ok (some (w, { p with total := (p.total + (now + 2 ^ 64 - p.start) % 2 ^ 64) % 2 ^ 64, running := false }))

/-- `sc_read`, perf/sc_perf.c:112-134: `read` of a descriptor that is no counter fails. -/
def readAll (w : World) : List Item → Option (List Item)
  | [] => some []
  | it :: its =>
    match w.ctr it.fd with
    | none => none
    | some c =>
      let n : Rat := 1
      let (n, active) := if c.enabled > 0 ∧ c.running > 0 then ((c.running : Rat) / c.enabled, (c.running : Rat) / c.enabled)
        else (n, it.active)
      match readAll w its with
      | none => none
      | some its => some ({ it with active := active, value := it.value + c.value * n } :: its)

/-- `close` -/
def World.closed (w : World) (fd : Int) : World := { w with ctr := fun i => if i = fd then none else w.ctr i }

/-- `sc_perf_end`, perf/sc_perf.c:192-217: also what is printed. -/
def stop (names : List String) (ok : Bool) (w : World) (p : Perf) : Res (Option (World × Perf × Report)) :=
  if ¬ p.init then .ok none
  else do
    let r ← pause ok w p
    match r with
    | none => .ok none
    | some (w, p) =>
      match readAll w p.items with
      | none => .ok none
      | some items =>
        let w := items.foldl (fun w it => w.closed it.fd) w
        .ok (some (w, clear names, ⟨p.total, items.map fun it => (it.name, it.value, it.active)⟩))

/-- Time passes: an enabled counter counts. -/
def World.tick (w : World) (d : Nat) (inc : Int → Nat × Nat) : World :=
  { clock := w.clock + d
    ctr := fun i => (w.ctr i).map fun c =>
      if c.on then { c with value := c.value + (inc i).1, enabled := c.enabled + d, running := c.running + (inc i).2 } else c }

structure State where
  w : World
  p : Perf

/-- What the program does and what happens; the descriptors the system gives out are new. -/
inductive Step (names : List String) : State → Event → State → Prop
  | start {s fds ok w p} : fds.Nodup → (∀ fd ∈ fds, s.w.ctr fd = none) →
      start names fds ok s.w s.p = .ok (some (w, p)) → Step names s .start ⟨w, p⟩
  | pause {s ok w p} : pause ok s.w s.p = .ok (some (w, p)) → Step names s .pause ⟨w, p⟩
  | stop {s ok w p r} : stop names ok s.w s.p = .ok (some (w, p, r)) → Step names s (.stop r) ⟨w, p⟩
  | tick {s d inc} : Step names s (.tick d (s.p.items.map fun it => inc it.fd)) ⟨s.w.tick d inc, s.p⟩

inductive Run (names : List String) : State → List Event → State → Prop
  | refl {s} : Run names s [] s
  | step {s s' s'' e es} : Run names s es s' → Step names s' e s'' → Run names s (es ++ [e]) s''

/-- Before the first call: the variables are zero and the items empty, perf/sc_perf.c:54-66. -/
def State.fresh (names : List String) (clock : Nat) : State :=
  ⟨⟨clock, fun _ => none⟩, ⟨false, false, 0, 0, names.map fun _ => ⟨"", 0, 0, 0⟩⟩⟩

end Verif.Perf
