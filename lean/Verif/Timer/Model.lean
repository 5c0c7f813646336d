import Verif.Basic

/-! # Model of `timer/sc_timer.c` and of the code that uses it -/

namespace Verif.Timer

/-- Unsigned 32-bit addition. -/
def add32 (a b : Nat) : Nat := (a + b) % W32
/-- Unsigned 32-bit multiplication. -/
def mul32 (a b : Nat) : Nat := (a * b) % W32

/-- `SC_TIMER_INVALID`, timer/sc_timer.h:49. -/
notation "INVALID" => (18446744073709551615 : Nat)
/-- `TICK`, timer/sc_timer.c:37. -/
notation "TICK" => (16 : Nat)
/-- `WHEEL_COUNT`, timer/sc_timer.c:38. -/
notation "WHEEL_COUNT" => (16 : Nat)
/-- `SC_TIMER_MAX`, timer/sc_timer.c:40-42: `(UINT32_MAX / 24) / 16`. -/
notation "TIMER_MAX" => (11184810 : Nat)

/-- `struct sc_timer_data`, timer/sc_timer.h:51-55. Pointers are numbers. -/
structure Cell where
  timeout : Nat
  type : Nat
  data : Nat
  deriving Repr, DecidableEq

/-- `struct sc_timer`, timer/sc_timer.h:57-62. `list` is the block it points to (`[]` for
NULL). -/
structure T where
  timestamp : Nat
  head : Nat
  wheel : Nat
  list : List Cell
  deriving Repr, DecidableEq

/-- `sc_timer_init`, timer/sc_timer.c:44-49. -/
def init (timestamp : Nat) : T := ⟨timestamp, 0, 0, []⟩

/-- `sc_timer_term`, timer/sc_timer.c:51-58. -/
def term (t : T) : T := ⟨t.timestamp, 0, 0, []⟩

/-- The loop of `sc_timer_clear`, timer/sc_timer.c:66-69, for the cells from `i` on. -/
def clearLoop : (n i : Nat) → List Cell → Res (List Cell)
  | 0, _, l => .ok l
  | n + 1, i, l => do
    let c ← rd l i
    let l ← wr l i { c with timeout := INVALID, data := 0 }
    clearLoop n (i + 1) l

/-- `sc_timer_clear`, timer/sc_timer.c:60-70. -/
def clear (t : T) : Res T := do
  let cap := mul32 t.wheel WHEEL_COUNT
  let l ← clearLoop cap 0 t.list
  return { t with head := 0, list := l }

/-- `memcpy` of `n` cells between different blocks. -/
def copyCells (dst : List Cell) (d : Nat) (src : List Cell) (s n : Nat) : Res (List Cell) :=
  if d + n ≤ dst.length ∧ s + n ≤ src.length then
    .ok (dst.take d ++ (src.drop s).take n ++ dst.drop (d + n))
  else .ub

/-- The copy loop of `expand`, timer/sc_timer.c:97-103, from slot `i` on. -/
def copyLoop (old : List Cell) (wheel : Nat) : (n i : Nat) → List Cell → Res (List Cell)
  | 0, _, new => .ok new
  | n + 1, i, new => do
    let new ← copyCells new (mul32 (mul32 i wheel) 2) old (mul32 i wheel) wheel
    copyLoop old wheel n (i + 1) new

/-- The fresh block of `cap` cells after the loop of timer/sc_timer.c:91-94. The `type`
members stay indeterminate: they are what the allocator gives. -/
def blank (cap : Nat) (fill : Nat → Nat) : List Cell :=
  List.ofFn (n := cap) fun i => (⟨INVALID, fill i.val, 0⟩ : Cell)

/-- `expand`, timer/sc_timer.c:72-111. -/
def expand (al : Alloc Nat) (t : T) : Res (Bool × T) := do
  let wheel := if t.wheel ≠ 0 then mul32 t.wheel 2 else 4
  let cap := mul32 (mul32 wheel WHEEL_COUNT) 2
  let size := mul64 cap 24
  cassert (size ≠ 0)
  if t.wheel ≥ TIMER_MAX / 2 then return (false, t)
  match al with
  | none => return (false, t)
  | some fill =>
    let new ← if t.wheel ≠ 0 then copyLoop t.list t.wheel WHEEL_COUNT 0 (blank cap fill)
      else .ok (blank cap fill)
    return (true, { t with list := new, wheel := wheel })

/-- The search loop of `sc_timer_add`, timer/sc_timer.c:122-127: the first free `seq`, or
`none` when the loop runs to the end. -/
def findFree (l : List Cell) (wheelPos : Nat) : (n seq : Nat) → Res (Option Nat)
  | 0, _ => .ok none
  | n + 1, seq => do
    let c ← rd l (add32 wheelPos seq)
    if c.timeout = INVALID then return some seq
    else findFree l wheelPos n (seq + 1)

/-- The end of `sc_timer_add`, timer/sc_timer.c:136-144. -/
def addAt (t : T) (index seq pos timeout type data : Nat) : Res (T × Nat) := do
  let l ← wr t.list index ⟨add64 timeout t.timestamp, type, data⟩
  let id := ((seq <<< 32) % W64) ||| pos
  cassert (id ≠ INVALID)
  return ({ t with list := l }, id)

/-- `sc_timer_add`, timer/sc_timer.c:113-145. -/
def add (al : Alloc Nat) (t : T) (timeout type data : Nat) : Res (T × Nat) := do
  let offset := (timeout / TICK + t.head) % W32
  let pos := offset % WHEEL_COUNT
  let wheelPos := mul32 pos t.wheel
  match ← findFree t.list wheelPos t.wheel 0 with
  | some seq => addAt t (add32 wheelPos seq) seq pos timeout type data
  | none =>
    let seq := t.wheel
    let (ok, t) ← expand al t
    if !ok then return (t, INVALID)
    let index := add32 (mul32 pos t.wheel) seq
    let c ← rd t.list index
    cassert (c.timeout = INVALID)
    addAt t index seq pos timeout type data

/-- `sc_timer_cancel`, timer/sc_timer.c:147-159. The caller's variable becomes the second
component. -/
def cancel (t : T) (id : Nat) : Res (T × Nat) :=
  if id = INVALID then .ok (t, id) else do
    let pos := add64 (mul32 (id % W32) t.wheel) (id >>> 32)
    let c ← rd t.list pos
    let l ← wr t.list pos { c with timeout := INVALID }
    return ({ t with list := l }, INVALID)

/-- `sc_timer_min(TICK - time, TICK)`, timer/sc_timer.c:161,175,203: `TICK - time` is
unsigned 64-bit. -/
def hint (time : Nat) : Nat := if sub64 TICK time < TICK then sub64 TICK time else TICK

/-! ## The client

The code that uses a timer, both outside `sc_timer_timeout` and in its callback, is any
program that makes calls and looks at their results. -/

/-- A client program: it ends with a value, or makes a call and goes on with the result.
`al` is the behaviour of the allocator during the call. -/
inductive Prog (σ : Type) where
  | ret (s : σ)
  | add (al : Alloc Nat) (timeout type data : Nat) (k : Nat → Prog σ)
  | cancel (id : Nat) (k : Prog σ)
  | clear (k : Prog σ)

/-- What happens, in order. The `id` of `fire` is the id of the cell the expired timer was
in; the callback itself is given the other three. -/
inductive Ev where
  | add (timeout type data id : Nat)
  | addFail
  | cancel (id : Nat)
  | clear
  | now (ts : Nat)
  | fire (id timeout type data : Nat)
  deriving Repr, DecidableEq

/-- The id of the cell `seq` of slot `pos`. -/
def mkid (seq pos : Nat) : Nat := seq * W32 + pos

/-- The timer, and the ids the client has been given so far. -/
structure Cfg where
  t : T
  issued : List Nat
  deriving Repr, DecidableEq

/-- The outcome of defined client code: `none` if the client broke a rule of the API (below). -/
abbrev Out (σ : Type) := Option (Cfg × σ × List Ev)

/-- Put events in front. -/
def pre (evs : List Ev) (o : Res (Out σ)) : Res (Out σ) := do
  let r ← o
  return r.map fun (c, s, es) => (c, s, evs ++ es)

/-- Running client code. The rules: the deadline `timestamp + timeout` of an added timer
fits in 64 bits and is not `SC_TIMER_INVALID`; only ids that were handed out (or
`SC_TIMER_INVALID`) are cancelled. -/
def exec : Prog σ → Cfg → Res (Out σ)
  | .ret s, c => .ok (some (c, s, []))
  | .add al timeout type data k, c =>
    if timeout + c.t.timestamp < INVALID then do
      let (t, id) ← add al c.t timeout type data
      if id = INVALID then
        pre [.addFail] (exec (k id) { c with t := t })
      else
        pre [.add timeout type data id] (exec (k id) ⟨t, id :: c.issued⟩)
    else .ok none
  | .cancel id k, c =>
    if id = INVALID ∨ id ∈ c.issued then do
      let (t, _) ← cancel c.t id
      pre [.cancel id] (exec k { c with t := t })
    else .ok none
  | .clear k, c => do
    let t ← clear c.t
    pre [.clear] (exec k { c with t := t })

/-- The inner loop of `sc_timer_timeout`, timer/sc_timer.c:185-199, for `n` more cells from
`i` on. `cb` is the callback, `s` its state. -/
def cells (cb : σ → Nat → Nat → Nat → Prog σ) (head : Nat) :
    (n i base : Nat) → Cfg → σ → Res (Out σ)
  | 0, _, _, c, s => .ok (some (c, s, []))
  | n + 1, i, base, c, s => do
    let index := add32 base i
    let item ← rd c.t.list index
    if item.timeout ≤ c.t.timestamp then
      let l ← wr c.t.list index { item with timeout := INVALID }
      let r ← exec (cb s item.timeout item.type item.data) { c with t := { c.t with list := l } }
      match r with
      | none => .ok none
      | some (c, s, es) =>
        let base := mul32 c.t.wheel head
        pre (.fire (mkid i head) item.timeout item.type item.data :: es)
          (cells cb head n (i + 1) base c s)
    else cells cb head n (i + 1) base c s

/-- The outer loop of `sc_timer_timeout`, timer/sc_timer.c:181-202. -/
def slots (cb : σ → Nat → Nat → Nat → Prog σ) : (wheels head : Nat) → Cfg → σ → Res (Out σ)
  | 0, _, c, s => .ok (some (c, s, []))
  | n + 1, head, c, s => do
    let r ← cells cb head c.t.wheel 0 (mul32 c.t.wheel head) c s
    match r with
    | none => .ok none
    | some (c, s, es) => pre es (slots cb n ((head + 1) % WHEEL_COUNT) c s)

/-- `sc_timer_timeout`, timer/sc_timer.c:163-204; with the return value. -/
def timeout (cb : σ → Nat → Nat → Nat → Prog σ) (ts : Nat) (c : Cfg) (s : σ) :
    Res (Out σ × Nat) := do
  let time := sub64 ts c.t.timestamp
  let wheels := (if time / TICK < WHEEL_COUNT then time / TICK else WHEEL_COUNT) % W32
  if wheels = 0 then return (some (c, s, []), hint time)
  let head := c.t.head
  let t := { c.t with timestamp := ts, head := (add32 c.t.head wheels) % WHEEL_COUNT }
  let r ← pre [.now ts] (slots cb wheels head { c with t := t } s)
  return (r, hint time)

/-- What the client does at top level. -/
inductive Op (σ : Type) where
  | call (p : σ → Prog σ)
  | timeout (ts : Nat)
  | term

/-- One top-level action. The times given to `sc_timer_timeout` do not decrease and are not
`SC_TIMER_INVALID`. The ids handed out before `sc_timer_term` must not be used after it. -/
def step (cb : σ → Nat → Nat → Nat → Prog σ) (c : Cfg) (s : σ) : Op σ → Res (Out σ)
  | .call p => exec (p s) c
  | .timeout ts =>
    if c.t.timestamp ≤ ts ∧ ts < INVALID then do
      let (r, _) ← timeout cb ts c s
      return r
    else .ok none
  | .term => .ok (some (⟨term c.t, []⟩, s, [.clear]))

/-- A history. -/
def run (cb : σ → Nat → Nat → Nat → Prog σ) : List (Op σ) → Cfg → σ → Res (Out σ)
  | [], c, s => .ok (some (c, s, []))
  | op :: ops, c, s => do
    let r ← step cb c s op
    match r with
    | none => .ok none
    | some (c, s, es) => pre es (run cb ops c s)

end Verif.Timer
