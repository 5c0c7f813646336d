import Verif.Poll.Table
import Verif.Poll.Mask

/-!
# Model of socket/sc_sock.c: the poller for Windows

The array for `WSAPoll` and the table of entries are kept as they are in memory; what was never
written is `none`, and reading it is undefined. `events` of the poller is `none` once it points to
memory that was freed. Objects (`struct sc_sock_fd`) have numbers. The texts of errors are left out.

`POLLIN` and `POLLOUT` are the bits `READ` and `WRITE`.
-/

namespace Verif.Poll.Win

open Table (dataInner)

/-- `SC_INVALID` -/
def INVALID : Int := -1

/-- `struct sc_sock_poll_data`, socket/sc_sock.h:81-85 -/
structure PData where
  edge : Bits
  index : Nat
  data : Nat
  deriving DecidableEq

/-- `revents`: input, output, `POLLHUP` or `POLLERR`, others -/
structure Rev where
  inp : Bool
  out : Bool
  bad : Bool
  other : Bool
  deriving DecidableEq

def Rev.zero : Rev := ⟨false, false, false, false⟩

/-- `struct pollfd` -/
structure Slot where
  fd : Int
  ev : Option Bits
  rev : Option Rev
  deriving DecidableEq

/-- `struct sc_sock_poll_op`, socket/sc_sock.h:346-353 -/
structure Op where
  full : Bool
  add : Bits
  del : Bits
  fdt : Option Nat
  pd : Option (Nat × Nat)
  data : Nat
  deriving DecidableEq

/-- Of `struct sc_sock_poll`, socket/sc_sock.h:360-378; `n` counts allocations. -/
structure P where
  count : Nat
  cap : Nat
  events : Option (List Slot)
  chunks : List (Option (List (Option PData)))
  ops : List Op
  opsCap : Nat
  polling : Bool
  remaining : Int
  offset : Nat
  n : Nat
  deriving DecidableEq

/-- `struct sc_sock_fd`, socket/sc_sock.h:88-96. `opIndex` is `none` for -1. -/
structure Fdt where
  fd : Int
  op : Bits
  pd : Option (Nat × Nat)
  opIndex : Option Nat
  deriving DecidableEq

/-- Whether the n-th allocation succeeds, for entries and for operations -/
structure Env where
  alloc : Nat → Bool
  allocOps : Nat → Bool

/-! ## Memory -/

/-- `p->events[i]` -/
def getSlot (p : P) (i : Nat) : Res Slot :=
  match p.events with
  | none => .ub
  | some ev => rd ev i

/-- `p->events[i] = s` -/
def setSlot (p : P) (i : Nat) (s : Slot) : Res P :=
  match p.events with
  | none => .ub
  | some ev => do
    let ev ← wr ev i s
    .ok { p with events := some ev }

/-- `*pd`, of which every member was written -/
def getCell (p : P) (a : Nat × Nat) : Res PData := do
  match ← rd p.chunks a.1 with
  | none => .ub
  | some ch =>
    match ← rd ch a.2 with
    | none => .ub
    | some c => .ok c

/-- `*pd = c` -/
def setCell (p : P) (a : Nat × Nat) (c : PData) : Res P := do
  match ← rd p.chunks a.1 with
  | none => .ub
  | some ch =>
    let ch ← wr ch a.2 (some c)
    let chunks ← wr p.chunks a.1 (some ch)
    .ok { p with chunks := chunks }

/-- The first chunk that does not exist, socket/sc_sock.c:1643-1644 -/
def freeChunk (chunks : List (Option (List (Option PData)))) : Option Nat :=
  ((List.range 16).drop 1).find? fun x => chunks[x]? == some none

/-- `sc_sock_poll_expand`, socket/sc_sock.c:1613-1672. `realloc` releases the old array; where the new one
is released after that, `p->events` points to no memory. -/
def expand (e : Env) (p : P) : Res (Bool × P) :=
  if p.count = p.cap then
    if p.cap ≥ 2147483647 / 2 then .ok (false, p)
    else
      match p.events with
      | none => .ub
      | some ev =>
        if !e.alloc p.n then .ok (false, { p with n := p.n + 1 })
        else
          match freeChunk p.chunks with
          | none => .ok (false, { p with n := p.n + 1, events := none })
          | some x =>
            if !e.alloc (p.n + 1) then .ok (false, { p with n := p.n + 2, events := none })
            else .ok (true, { p with
              n := p.n + 2
              chunks := p.chunks.set x (some (List.replicate p.cap none))
              events := some (ev ++ List.replicate p.cap ⟨INVALID, none, none⟩)
              cap := p.cap * 2 })
  else .ok (true, p)

/-- The search for an entry that is not used, socket/sc_sock.c:1828-1833 -/
def freeSlot (p : P) : Res (Option Nat) :=
  match p.events with
  | none => .ub
  | some ev => .ok ((ev.take p.cap).findIdx? fun s => s.fd = INVALID)

/-- The events for the system, socket/sc_sock.c:1853-1862 and 1911-1919 -/
def pollBits (m : Bits) : Bits := m &&& (READ ||| WRITE)

/-- The end of `sc_sock_poll_add`, socket/sc_sock.c:1851-1868 -/
def addEnd (mask : Bits) (index : Nat) (a : Nat × Nat) (data : Nat) (f : Fdt) (p : P) : Res (Int × Fdt × P) := do
  let s ← getSlot p index
  let p ← setSlot p index { s with ev := some (pollBits mask), rev := some Rev.zero }
  let c ← getCell p a
  let p ← setCell p a { c with edge := if mask &&& EDGE ≠ 0 then c.edge ||| EDGE else c.edge, data := data }
  .ok (0, { f with op := mask }, p)

/-- `sc_sock_poll_add` when nobody polls, socket/sc_sock.c:1809-1872. The new entry's data is written
together with its other members. -/
def addNow (e : Env) (evs : Bits) (data : Nat) (f : Fdt) (p : P) : Res (Int × Fdt × P) :=
  let mask := dropEdge (f.op ||| evs)
  if f.op = mask then .ok (0, f, p)
  else if f.op = NONE then do
    let (ok, p) ← expand e p
    if !ok then .ok (-1, f, p)
    else do
      let p := { p with count := p.count + 1 }
      match ← freeSlot p with
      | none => .ub
      | some index => do
        let a := dataInner index
        let p ← setCell p a ⟨NONE, index, data⟩
        let f := { f with pd := some a }
        let s ← getSlot p index
        let p ← setSlot p index { s with fd := f.fd }
        addEnd mask index a data f p
  else
    match f.pd with
    | none => .ub
    | some a => do
      let c ← getCell p a
      addEnd mask c.index a data f p

/-- `sc_sock_poll_del_full`, socket/sc_sock.c:1875-1881 -/
def delFull (a : Option (Nat × Nat)) (p : P) : Res P :=
  match a with
  | none => .ub
  | some a => do
    let c ← getCell p a
    let s ← getSlot p c.index
    let p ← setSlot p c.index { s with fd := INVALID }
    let p := { p with count := p.count - 1 }
    setCell p a { c with edge := NONE }

/-- `sc_sock_poll_del` when nobody polls, socket/sc_sock.c:1895-1931 -/
def delNow (evs : Bits) (data : Nat) (f : Fdt) (p : P) : Res (Int × Fdt × P) :=
  if f.op &&& evs = 0 then .ok (0, f, p)
  else
    let op := dropEdge (f.op &&& ~~~evs)
    if op = NONE then do
      let p ← delFull f.pd p
      .ok (0, { f with op := op, pd := none }, p)
    else
      match f.pd with
      | none => .ub
      | some a => do
        let c ← getCell p a
        let s ← getSlot p c.index
        let p ← setSlot p c.index { s with ev := some (pollBits op) }
        let p ← setCell p a { c with edge := if op &&& EDGE = 0 then NONE else c.edge, data := data }
        .ok (0, { f with op := op }, p)

/-! ## Changes while another thread polls -/

/-- The poller and all objects -/
structure Sys where
  p : P
  obj : Nat → Fdt

def Sys.set (s : Sys) (i : Nat) (f : Fdt) (p : P) : Sys := ⟨p, fun j => if j = i then f else s.obj j⟩

/-- Finding or making room for the operation of an object, socket/sc_sock.c:1681-1717 -/
def opSlot (e : Env) (f : Fdt) (p : P) : Option (Nat × P) × P :=
  match f.opIndex with
  | some k => (some (k, p), p)
  | none =>
    let index := p.ops.length
    let room : Option P × P :=
      if index = p.opsCap then
        if p.opsCap ≥ 2147483647 then (none, p)
        else if !e.allocOps p.n then (none, { p with n := p.n + 1 })
        else
          let q := { p with n := p.n + 1, opsCap := if p.opsCap = 0 then 16 else p.opsCap * 3 / 2 }
          (some q, q)
      else (some p, p)
    match room with
    | (none, p) => (none, p)
    | (some p, _) =>
      let p := { p with ops := p.ops ++ [⟨false, NONE, NONE, none, none, 0⟩] }
      (some (index, p), p)

/-- The operation after a request was merged into it, socket/sc_sock.c:1721-1731 -/
def merge (add : Bool) (evs : Bits) (op : Bits) (o : Op) : Op :=
  let o := if add then { o with add := o.add ||| evs, del := o.del &&& ~~~evs }
    else { o with add := o.add &&& ~~~evs, del := o.del ||| evs }
  { o with full := (op ||| o.add) &&& ~~~(o.del ||| EDGE) = 0 }

/-- `sc_sock_poll_submit`, socket/sc_sock.c:1674-1752, to the end of the lock. An operation that an object
refers to and that does not exist is undefined. The result is the return code, and whether the poller has
to be woken up. -/
def submit (e : Env) (add : Bool) (evs : Bits) (data : Nat) (i : Nat) (s : Sys) : Res (Int × Bool × Sys) := do
  let f := s.obj i
  match opSlot e f s.p with
  | (none, p) => .ok (-1, false, { s with p := p })
  | (some (index, p), _) =>
    let wake := f.opIndex = none ∧ index = 0
    let o ← rd p.ops index
    let o := merge add evs f.op o
    if o.full then do
      let o := { o with pd := f.pd, data := data }
      let ops ← wr p.ops index o
      .ok (0, wake, s.set i { f with pd := none, opIndex := none, op := NONE } { p with ops := ops })
    else do
      let o := { o with fdt := some i, data := data }
      let ops ← wr p.ops index o
      .ok (0, wake, s.set i { f with opIndex := some index } { p with ops := ops })

/-- `sc_sock_poll_add`, socket/sc_sock.c:1792-1873 -/
def add (e : Env) (evs : Bits) (data : Nat) (i : Nat) (s : Sys) : Res (Int × Bool × Sys) :=
  if s.p.polling then submit e true evs data i s
  else do
    let (rc, f, p) ← addNow e evs data (s.obj i) s.p
    .ok (rc, false, s.set i f p)

/-- `sc_sock_poll_del`, socket/sc_sock.c:1883-1931 -/
def del (e : Env) (evs : Bits) (data : Nat) (i : Nat) (s : Sys) : Res (Int × Bool × Sys) :=
  if s.p.polling then submit e false evs data i s
  else do
    let (rc, f, p) ← delNow evs data (s.obj i) s.p
    .ok (rc, false, s.set i f p)

/-- What an operation adds, socket/sc_sock.c:2119-2120 -/
def applyAdd (e : Env) (o : Op) (i : Nat) (s : Sys) : Res (Int × Sys) :=
  if o.add ≠ 0 then do
    let (rc, f, p) ← addNow e o.add o.data (s.obj i) s.p
    .ok (rc, s.set i f p)
  else .ok (0, s)

/-- One operation, socket/sc_sock.c:2112-2126; nobody polls now. -/
def applyOp (e : Env) (o : Op) (s : Sys) : Res (Int × Sys) :=
  if o.full then do
    let p ← delFull o.pd s.p
    .ok (0, { s with p := p })
  else
    match o.fdt with
    | none => .ub
    | some i => do
      let s := s.set i { s.obj i with opIndex := none } s.p
      let (rc, s) ← applyAdd e o i s
      if rc ≠ 0 then .ok (-1, s)
      else if o.del ≠ 0 then do
        let (rc, f, p) ← delNow o.del o.data (s.obj i) s.p
        .ok (if rc ≠ 0 then -1 else 0, s.set i f p)
      else .ok (0, s)

/-- The operations in order, socket/sc_sock.c:2109-2127 -/
def applyOps (e : Env) : List Op → Int → Sys → Res (Int × Sys)
  | [], rc, s => .ok (rc, s)
  | o :: os, rc, s => do
    let (r, s) ← applyOp e o s
    applyOps e os (if r ≠ 0 then -1 else rc) s

/-! ## Waiting -/

/-- `sc_sock_poll_event_inner`, socket/sc_sock.c:1943-1987 -/
def eventInner (i : Nat) (p : P) : Res (Bits × P) := do
  let s ← getSlot p i
  if s.fd = INVALID then .ok (NONE, p)
  else
    match s.rev with
    | none => .ub
    | some r =>
      if r = Rev.zero then .ok (NONE, p)
      else do
        let p := { p with remaining := p.remaining - 1 }
        let evs := (if r.inp then READ else NONE) ||| (if r.out then WRITE else NONE)
        let c ← getCell p (dataInner i)
        let (evs, p) ← if c.edge &&& EDGE ≠ 0 then do
            let p ← setCell p (dataInner i) { c with edge := c.edge ||| evs }
            Res.ok (evs &&& ~~~c.edge, p)
          else Res.ok (evs, p)
        .ok (if r.bad then READ ||| WRITE else evs, p)

/-- The loop of `sc_sock_poll_fill_results`, socket/sc_sock.c:1993-2014; the results so far come last
first. -/
def fillLoop : Nat → Nat → List (Bits × Nat) → P → Res (List (Bits × Nat) × P)
  | 0, _, res, p => .ok (res.reverse, { p with remaining := 0 })
  | fuel + 1, i, res, p =>
    if i < p.cap ∧ p.remaining > 0 then do
      let (evs, p) ← eventInner i p
      if evs ≠ NONE then do
        let c ← getCell p (dataInner i)
        let res := (evs, c.data) :: res
        if res.length = 1024 then .ok (res.reverse, { p with offset := i + 1 })
        else fillLoop fuel (i + 1) res p
      else fillLoop fuel (i + 1) res p
    else .ok (res.reverse, { p with remaining := 0 })

/-- `sc_sock_poll_fill_results`, socket/sc_sock.c:1989-2015. The fuel is never used up. -/
def fill (p : P) : Res (List (Bits × Nat) × P) := fillLoop (p.cap + 1) p.offset [] p

/-- The end of `sc_sock_poll_wait` under the lock, socket/sc_sock.c:2089-2140, after `WSAPoll` succeeded or
its failure is overlooked: the return code, the results, the state -/
def finish (e : Env) (s : Sys) : Res (Int × List (Bits × Nat) × Sys) := do
  let (rc, s) ← applyOps e s.p.ops 0 { s with p := { s.p with polling := false } }
  let p := { s.p with ops := [], offset := 1 }
  if rc = 0 then do
    let (res, p) ← fill p
    .ok (res.length, res, { s with p := p })
  else .ok (-1, [], { s with p := p })

/-- A transfer that would block allows the event to be told again, socket/sc_sock.c:634-640 and 672-678 -/
def rearm (ev : Bits) (f : Fdt) (p : P) : Res P :=
  match f.pd with
  | none => .ok p
  | some a => do
    let c ← getCell p a
    if c.edge &&& ev ≠ 0 then setCell p a { c with edge := c.edge &&& ~~~ev } else .ok p

/-- What `WSAPoll` leaves in the array -/
def polled (revs : Nat → Rev) (p : P) : Res P :=
  match p.events with
  | none => .ub
  | some ev => .ok { p with events := some (ev.mapIdx fun i s => { s with rev := some (revs i) }) }

end Verif.Poll.Win
