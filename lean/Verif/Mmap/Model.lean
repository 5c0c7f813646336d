import Verif.Ini.Model
import Verif.Mmap.Spec

/-!
# Model of memory-map/sc_mmap.c

The system is the list of open descriptors, the list of mappings and the contents of the one file
that is named. Every call can fail with any error. `close` of a descriptor that is not open and
`munmap` of what is not mapped are treated as undefined: they would hit somebody else's.
-/

namespace Verif.Mmap

open Ini (strncpy)
open Spec (Mapping Event)

/-- `struct sc_mmap`, memory-map/sc_mmap.h:64-70: `err` has 128 bytes; a null pointer is 0. -/
structure Obj where
  fd : Int
  pageSize : Int
  ptr : Nat
  len : Nat
  err : List UInt8
  deriving DecidableEq

/-- What the system holds for the process, and the file. -/
structure Os where
  fds : List Int
  maps : List Mapping
  data : List UInt8
  errno : Int
  deriving DecidableEq

/-- Outcomes of the calls of `sc_mmap_init`; errors carry the error number. `falloc k` is the result
of the k-th call of `posix_fallocate`, and `part k` how much a failed one added to the file. -/
structure Out where
  page : Except Int Int
  opn : Except Int Int
  stat : Except Int Nat
  falloc : Nat → Int
  part : Nat → Nat
  map : Except Int Nat
  close : Int

/-- `(off_t) x` for a `size_t` -/
def toOff (x : Nat) : Int := if x < 2 ^ 63 then x else (x : Int) - 2 ^ 64

def EINTR : Int := 4
def EINVAL : Int := 22
def ENOMEM : Int := 12

/-- The bytes of the file when it is made to have at least `n`. -/
def grow (data : List UInt8) (n : Nat) : List UInt8 := data ++ List.replicate (n - data.length) 0

/-- `posix_fallocate`, for a descriptor of the file: a range that is empty or negative is refused,
success makes the file long enough, failure may have added zeros. -/
def fallocate (rc : Int) (part : Nat) (off len : Int) (data : List UInt8) : Int × List UInt8 :=
  if off < 0 ∨ len ≤ 0 then (EINVAL, data)
  else if rc = 0 then (0, grow data (off + len).toNat)
  else (rc, grow data part)

/-- The loop of memory-map/sc_mmap.c:262-264; `none` if it has not ended after `fuel` rounds. -/
def fallocLoop (o : Out) (off len : Int) : Nat → Nat → List UInt8 → Option (Int × List UInt8)
  | 0, _, _ => none
  | fuel + 1, k, data =>
    match fallocate (o.falloc k) (o.part k) off len data with
    | (rc, data) => if rc = EINTR then fallocLoop o off len fuel (k + 1) data else some (rc, data)

/-- `mmap` without `MAP_FIXED`: an empty range, an offset that is negative or not at a page, and
what does not fit in the lower half of the address space are refused. -/
def kmmap (r : Except Int Nat) (page : Int) (len : Nat) (off : Int) : Except Int Nat :=
  if len = 0 then .error EINVAL
  else if off < 0 ∨ off % page ≠ 0 then .error EINVAL
  else match r with
    | .error e => .error e
    | .ok p => if p + len ≤ 2 ^ 63 then .ok p else .error ENOMEM

/-- `close`: the descriptor is free afterwards, whatever the result. -/
def close (os : Os) (fd : Int) : Res Os :=
  if fd ∈ os.fds then .ok { os with fds := os.fds.erase fd } else .ub

/-- Label `error`, memory-map/sc_mmap.c:288-291 -/
def fail (strerror : Int → List UInt8) (os : Os) (m : Obj) : Res (Int × Os × Obj) := do
  let err ← strncpy m.err (strerror os.errno) 0 (128 - 1)
  .ok (-1, os, { m with err := err })

/-- Label `cleanup_fd`, memory-map/sc_mmap.c:284-287; `e` is what `close` leaves in `errno`. -/
def cleanup (strerror : Int → List UInt8) (e : Int) (fd : Int) (os : Os) (m : Obj) : Res (Int × Os × Obj) := do
  let saved := os.errno
  let os ← close os fd
  let os := { os with errno := e }
  let os := { os with errno := saved }
  fail strerror os m

/-- memory-map/sc_mmap.c:273-282 -/
def mapIt (strerror : Int → List UInt8) (o : Out) (fd : Int) (page : Int) (off len : Nat) (os : Os) (m : Obj) :
    Res (Int × Os × Obj) :=
  match kmmap o.map page len (toOff off) with
  | .error e => cleanup strerror o.close fd { os with errno := e } m
  | .ok p => .ok (0, { os with maps := ⟨p, len, off⟩ :: os.maps }, { m with fd := fd, ptr := p, len := len })

/-- `sc_mmap_init`, memory-map/sc_mmap.c:206-292, without the part for Apple, for which see
`appleExtend`. `wr` is whether `prot` has `PROT_WRITE`. `none` if `posix_fallocate` is interrupted
more than `fuel` times. -/
def init (strerror : Int → List UInt8) (fuel : Nat) (o : Out) (wr : Bool) (off len : Nat) (os : Os) :
    Res (Option (Int × Os × Obj)) :=
  let m : Obj := { fd := -1, pageSize := 0, ptr := 0, len := 0, err := List.replicate 128 0 }
  match o.page with
  | .error e => do
    let r ← fail strerror { os with errno := e } m
    .ok (some r)
  | .ok page =>
    let m := { m with pageSize := page }
    match o.opn with
    | .error e => do
      let r ← fail strerror { os with errno := e } m
      .ok (some r)
    | .ok fd =>
      let os := { os with fds := fd :: os.fds }
      match o.stat with
      | .error e => do
        let r ← cleanup strerror o.close fd { os with errno := e } m
        .ok (some r)
      | .ok size =>
        let len := if len = 0 then (size + (2 ^ 64 - off)) % 2 ^ 64 else len
        if wr then
          match fallocLoop o (toOff off) (toOff len) fuel 0 os.data with
          | none => .ok none
          | some (rc, data) =>
            let os := { os with data := data }
            if rc ≠ 0 then do
              let r ← cleanup strerror o.close fd { os with errno := rc } m
              .ok (some r)
            else do
              let r ← mapIt strerror o fd page off len os m
              .ok (some r)
        else do
          let r ← mapIt strerror o fd page off len os m
          .ok (some r)

/-- `munmap` of a whole mapping; an error leaves it. -/
def munmap (r : Except Int Unit) (os : Os) (ptr len : Nat) : Res (Int × Os) :=
  match os.maps.find? (fun x => x.ptr = ptr ∧ x.len = len) with
  | none => .ub
  | some x =>
    match r with
    | .error e => .ok (-1, { os with errno := e })
    | .ok _ => .ok (0, { os with maps := os.maps.erase x })

/-- memory-map/sc_mmap.c:305-307, and 322-324, 335-337, 348-350 -/
def note (strerror : Int → List UInt8) (rc : Int) (os : Os) (m : Obj) : Res Obj :=
  if rc ≠ 0 then do
    let err ← strncpy m.err (strerror os.errno) 0 (128 - 1)
    .ok { m with err := err }
  else .ok m

/-- `sc_mmap_term`, memory-map/sc_mmap.c:294-314 -/
def term (strerror : Int → List UInt8) (r : Except Int Unit) (os : Os) (m : Obj) : Res (Int × Os × Obj) :=
  if m.fd = -1 then .ok (0, os, m)
  else do
    let os ← close os m.fd
    let (rc, os) ← munmap r os m.ptr m.len
    let m ← note strerror rc os m
    .ok (rc, os, { m with fd := -1, ptr := 0, len := 0 })

/-- A call of the system for a range of addresses. -/
structure Range where
  addr : Nat
  len : Nat
  deriving DecidableEq

/-- Result of a call on a range -/
def rangeRes (r : Except Int Unit) (os : Os) : Int × Os :=
  match r with
  | .error e => (-1, { os with errno := e })
  | .ok _ => (0, os)

/-- The address `sc_mmap_msync` passes on, memory-map/sc_mmap.c:319: `m->page_size - 1` is a `long`,
its complement is converted to `size_t`. -/
def msyncAddr (m : Obj) (off : Nat) : Nat := m.ptr + (off &&& (2 ^ 64 - 1 - (m.pageSize - 1).toNat))

/-- `sc_mmap_msync`, memory-map/sc_mmap.c:316-327: also the range `msync` is called for. -/
def msync (strerror : Int → List UInt8) (r : Except Int Unit) (os : Os) (m : Obj) (off len : Nat) :
    Res (Int × Range × Os × Obj) := do
  let p := msyncAddr m off
  let (rc, os) := rangeRes r os
  let m ← note strerror rc os m
  .ok (rc, ⟨p, len⟩, os, m)

/-- `sc_mmap_mlock`, memory-map/sc_mmap.c:329-340, and `sc_mmap_munlock`, 342-353. -/
def mlock (strerror : Int → List UInt8) (r : Except Int Unit) (os : Os) (m : Obj) (off len : Nat) :
    Res (Int × Range × Os × Obj) := do
  let p := m.ptr + off
  let (rc, os) := rangeRes r os
  let m ← note strerror rc os m
  .ok (rc, ⟨p, len⟩, os, m)

/-- The system and one object. -/
structure State where
  os : Os
  m : Obj

/-- What the system gives out is new: a descriptor that is not open, an address where nothing is
mapped. Pages have a positive size. -/
structure Out.Fresh (o : Out) (os : Os) : Prop where
  fd : ∀ fd, o.opn = .ok fd → 0 ≤ fd ∧ fd ∉ os.fds
  map : ∀ p, o.map = .ok p → ∀ x ∈ os.maps, x.ptr ≠ p

/-- Uses of one object, which is initialised only when it stands for nothing. -/
inductive Step (strerror : Int → List UInt8) : State → Event → State → Prop
  | created {s fuel o wr off len os m} : s.m.fd = -1 → o.Fresh s.os →
      init strerror fuel o wr off len s.os = .ok (some (0, os, m)) →
      Step strerror s (.created m.fd ⟨m.ptr, m.len, off⟩) ⟨os, m⟩
  | failed {s fuel o wr off len os m} : s.m.fd = -1 → o.Fresh s.os →
      init strerror fuel o wr off len s.os = .ok (some (-1, os, m)) → Step strerror s .failed ⟨os, m⟩
  | destroyed {s r os m} : term strerror r s.os s.m = .ok (0, os, m) → Step strerror s .destroyed ⟨os, m⟩
  | stuck {s r os m} : term strerror r s.os s.m = .ok (-1, os, m) → Step strerror s .stuck ⟨os, m⟩
  | synced {s r off len rc rg os m} : msync strerror r s.os s.m off len = .ok (rc, rg, os, m) → Step strerror s .used ⟨os, m⟩
  | locked {s r off len rc rg os m} : mlock strerror r s.os s.m off len = .ok (rc, rg, os, m) → Step strerror s .used ⟨os, m⟩

inductive Run (strerror : Int → List UInt8) : State → List Event → State → Prop
  | refl {s} : Run strerror s [] s
  | step {s s' s'' e es} : Run strerror s es s' → Step strerror s' e s'' → Run strerror s (es ++ [e]) s''

/-! ## Apple -/

/-- `lseek` to `pos` and `write` of one zero byte -/
def put0 (data : List UInt8) (pos : Nat) : List UInt8 := (grow data (pos + 1)).set pos 0

/-- The loop of memory-map/sc_mmap.c:246-260, if no call fails; `none` if it has not ended after
`fuel` rounds. The type `size_t` is unbounded here. -/
def appleLoop (block len : Nat) : Nat → Nat → List UInt8 → Option (List UInt8)
  | 0, _, _ => none
  | fuel + 1, pos, data =>
    if pos < len + block - 1 then
      let pos := if pos ≥ len then len - 1 else pos
      appleLoop block len fuel (pos + block) (put0 data pos)
    else some data

/-- memory-map/sc_mmap.c:243-260 -/
def appleExtend (block len fuel : Nat) (data : List UInt8) : Option (List UInt8) :=
  appleLoop block len fuel (data.length / block * block + block - 1) data

/-! ## Windows -/

/-- Descriptors, mapping handles and views that are open. -/
structure WOs where
  fds : List Int
  handles : Nat
  views : List (Nat × Nat × Nat)

/-- Outcomes on Windows: `_open`, `_stat64`, `_get_osfhandle`, `CreateFileMapping`,
`MapViewOfFile`. -/
structure WOut where
  opn : Option Int
  stat : Option Nat
  os : Bool
  create : Bool
  view : Option Nat

/-- `_close` -/
def wclose (w : WOs) (fd : Int) : Res WOs :=
  if fd ∈ w.fds then .ok { w with fds := w.fds.erase fd } else .ub

/-- `sc_mmap_init`, memory-map/sc_mmap.c:65-134, without the text of the error: also the fields
`fd`, `ptr` and `len`. `anon` is whether `map_flags` has `MAP_ANONYMOUS`. The two halves of the offset
are put together by the system. -/
def winInit (o : WOut) (anon : Bool) (off len : Nat) (w : WOs) : Res (Int × WOs × Int × Nat × Nat) :=
  match o.opn with
  | none => .ok (-1, w, -1, 0, 0)
  | some fd =>
    let w := { w with fds := fd :: w.fds }
    match o.stat with
    | none => do
      let w ← wclose w fd
      .ok (-1, w, -1, 0, 0)
    | some size =>
      let len := if len = 0 then (size + (2 ^ 64 - off)) % 2 ^ 64 else len
      let lo := off &&& 0xFFFFFFFF
      let hi := (off >>> 32) &&& 0xFFFFFFFF
      if ¬ anon ∧ ¬ o.os then do
        let w ← wclose w fd
        .ok (-1, w, -1, 0, 0)
      else if ¬ o.create then do
        let w ← wclose w fd
        .ok (-1, w, -1, 0, 0)
      else
        let w := { w with handles := w.handles + 1 }
        match o.view with
        | none => do
          let w := { w with handles := w.handles - 1 }
          let w ← wclose w fd
          .ok (-1, w, -1, 0, 0)
        | some p =>
          let w := { w with views := (p, len, hi * 2 ^ 32 + lo) :: w.views }
          let w := { w with handles := w.handles - 1 }
          .ok (0, w, fd, p, len)

/-- `sc_mmap_term`, memory-map/sc_mmap.c:178-200 -/
def winTerm (ok : Bool) (w : WOs) (fd : Int) (ptr len : Nat) : Res (Int × WOs × Int × Nat × Nat) :=
  if fd = -1 then .ok (0, w, fd, ptr, len)
  else do
    let w ← wclose w fd
    match w.views.find? (fun x => x.1 = ptr) with
    | none => .ub
    | some x => if ok then .ok (0, { w with views := w.views.erase x }, -1, 0, 0) else .ok (-1, w, -1, 0, 0)

end Verif.Mmap
