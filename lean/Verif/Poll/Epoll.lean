import Verif.Poll.Text
import Verif.Poll.Mask

/-!
# Model and properties of socket/sc_sock.c: the poller for Linux

`epoll_ctl` follows epoll_ctl(2): adding what is registered, changing or deleting what is not, and naming
a descriptor that is not open are errors of the caller, which are noted in `wrong`; otherwise the call does
what it is asked to, or fails for a reason the environment decides and does nothing.
-/

namespace Verif.Poll.Epoll

open Spec (Ev Mask norm nothing Req)

/-- What the environment decides -/
structure Env where
  strerror : Int → List UInt8
  /-- whether and how the n-th call fails -/
  call : Nat → Option Int

/-- The system: what is registered, by descriptor, with its user data; `err` is the 128 bytes of
`sc_sock_poll_errstr`, socket/sc_sock.c:1094. -/
structure World where
  reg : Int → Option (BitVec 32 × Nat)
  /-- which descriptors are open -/
  isOpen : Int → Bool
  errno : Int
  n : Nat
  wrong : Bool
  err : List UInt8

inductive Ctl where
  | add
  | mod
  | del
  deriving DecidableEq

def EPOLLIN : BitVec 32 := 0x1#32
def EPOLLOUT : BitVec 32 := 0x4#32
def EPOLLERR : BitVec 32 := 0x8#32
def EPOLLHUP : BitVec 32 := 0x10#32
def EPOLLRDHUP : BitVec 32 := 0x2000#32
def EPOLLET : BitVec 32 := 0x80000000#32
def ENOENT : Int := 2
def EEXIST : Int := 17
def EINTR : Int := 4
def ENOMEM : Int := 12
def EBADF : Int := 9

/-- `epoll_ctl` -/
def ctl (e : Env) (op : Ctl) (fd : Int) (events : BitVec 32) (data : Nat) (w : World) : Bool × World :=
  let w' := { w with n := w.n + 1 }
  if !w.isOpen fd then (false, { w' with errno := EBADF, wrong := true })
  else match op, w.reg fd with
  | .add, some _ => (false, { w' with errno := EEXIST, wrong := true })
  | .mod, none => (false, { w' with errno := ENOENT, wrong := true })
  | .del, none => (false, { w' with errno := ENOENT, wrong := true })
  | op, _ =>
    match e.call w.n with
    | some er => (false, { w' with errno := er })
    | none => (true, { w' with reg := fun x => if x = fd then (if op = .del then none else some (events, data)) else w.reg x })

/-- `sc_sock_poll_set_err`, socket/sc_sock.c:1102-1112, see `pollErr` -/
def setErr (text : List UInt8) (w : World) : Res World := do
  let err ← pollErr text w.err
  .ok { w with err := err }

/-- `"epoll_ctl : %s "` -/
def ctlText (m : List UInt8) : List UInt8 := [101, 112, 111, 108, 108, 95, 99, 116, 108, 32, 58, 32] ++ m ++ [32]

/-- The parts of `struct sc_sock_fd`, socket/sc_sock.h:88-96, that matter here -/
structure Fdt where
  fd : Int
  op : Bits
  deriving DecidableEq

/-- The events passed to the system, socket/sc_sock.c:1182-1201 and 1225-1228, 1243-1253. -/
def events (m : Bits) : BitVec 32 :=
  let ev := EPOLLERR ||| EPOLLHUP ||| EPOLLRDHUP
  let ev := if m &&& READ ≠ 0 then ev ||| EPOLLIN else ev
  let ev := if m &&& WRITE ≠ 0 then ev ||| EPOLLOUT else ev
  if m &&& EDGE ≠ 0 then ev ||| EPOLLET else ev

/-- The end of `sc_sock_poll_add` and `sc_sock_poll_del`, socket/sc_sock.c:1207-1218 and 1258-1269. -/
def change (e : Env) (op : Ctl) (old new : Bits) (data : Nat) (f : Fdt) (w : World) : Res (Int × World × Fdt) :=
  let f := { f with op := new }
  match ctl e op f.fd (events new) data w with
  | (true, w) => .ok (0, w, f)
  | (false, w) => do
    let f := { f with op := old }
    let m ← cstr (e.strerror w.errno) 0
    let w ← setErr (ctlText m) w
    .ok (-1, w, f)

/-- `sc_sock_poll_add`, socket/sc_sock.c:1166-1219 -/
def add (e : Env) (evs : Bits) (data : Nat) (f : Fdt) (w : World) : Res (Int × World × Fdt) :=
  let old := f.op
  let new := dropEdge (old ||| evs)
  if old = new then .ok (0, w, f)
  else
    let op := if old = NONE then Ctl.add else Ctl.mod
    change e op old new data f w

/-- `sc_sock_poll_del`, socket/sc_sock.c:1221-1270 -/
def del (e : Env) (evs : Bits) (data : Nat) (f : Fdt) (w : World) : Res (Int × World × Fdt) :=
  let old := f.op
  let new := dropEdge (old &&& ~~~evs)
  if old = new then .ok (0, w, f)
  else
    let op := if new = NONE then Ctl.del else Ctl.mod
    change e op old new data f w

/-- `sc_sock_poll_event`, socket/sc_sock.c:1277-1296, of the events the system reported -/
def event (ev : BitVec 32) : Bits :=
  let r := if ev &&& EPOLLIN ≠ 0 then READ else NONE
  let r := if ev &&& EPOLLOUT ≠ 0 then r ||| WRITE else r
  if ev &&& (EPOLLHUP ||| EPOLLRDHUP ||| EPOLLERR) ≠ 0 then READ ||| WRITE else r

/-! ## Properties -/

/-- Error texts are strings. -/
structure Laws (e : Env) : Prop where
  texts : ∀ er, ∃ t, CStr (e.strerror er) 0 t

/-- What a registration makes the system wait for -/
def view (r : Option (BitVec 32 × Nat)) : Mask :=
  match r with
  | none => nothing
  | some (ev, _) => fun x => match x with
    | .read => ev &&& EPOLLIN != 0
    | .write => ev &&& EPOLLOUT != 0
    | .edge => ev &&& EPOLLET != 0

theorem view_events (m : Bits) (d : Nat) : view (some (events m, d)) = m.mask := by
  funext e
  cases e <;> simp only [view] <;> revert m <;> decide

/-- Errors and hangups are reported as well. -/
def Alert (r : Option (BitVec 32 × Nat)) : Prop :=
  ∀ ev d, r = some (ev, d) → ev &&& EPOLLERR ≠ 0 ∧ ev &&& EPOLLHUP ≠ 0 ∧ ev &&& EPOLLRDHUP ≠ 0

theorem alert_events (m : Bits) (d : Nat) : Alert (some (events m, d)) := by
  intro ev d' h
  cases h
  revert m
  decide

/-- An object whose mask is what the system waits for -/
structure Good (w : World) (f : Fdt) : Prop where
  live : w.isOpen f.fd = true
  normal : f.op.Normal
  none : f.op = NONE ↔ w.reg f.fd = none
  view : view (w.reg f.fd) = f.op.mask
  alert : Alert (w.reg f.fd)

/-- What a failed call does: nothing but an error text. -/
structure Failed (e : Env) (w w' : World) : Prop where
  reg : w'.reg = w.reg
  isOpen : w'.isOpen = w.isOpen
  wrong : w'.wrong = w.wrong
  len : w'.err.length = 128
  text : ∃ t, CStr (e.strerror w'.errno) 0 t ∧ CStr w'.err 0 ((ctlText t).take 127)
  cause : e.call w.n = some w'.errno

theorem setErr_ok {t : List UInt8} (ht : ∀ b ∈ t, b ≠ 0) {w : World} (hl : w.err.length = 128) :
    ∃ err, setErr t w = .ok { w with err := err } ∧ err.length = 128 ∧ CStr err 0 (t.take 127) := by
  obtain ⟨err, h1, h2, h3⟩ := pollErr_ok ht hl
  exact ⟨err, by unfold setErr; rw [h1]; rfl, h2, h3⟩

theorem ctlText_nonzero {t : List UInt8} (h : ∀ b ∈ t, b ≠ 0) : ∀ b ∈ ctlText t, b ≠ 0 := by
  intro b hb
  simp only [ctlText, List.mem_append] at hb
  rcases hb with (hb | hb) | hb
  · revert b; decide
  · exact h b hb
  · revert b; decide

theorem change_ok {e : Env} (he : Laws e) {op : Ctl} {new : Bits} {data : Nat} {f : Fdt} {w : World} (hl : w.err.length = 128)
    (hg : Good w f) (hn : new.Normal) (hop : (op = .add ∧ f.op = NONE ∧ new ≠ NONE) ∨ (op = .mod ∧ f.op ≠ NONE ∧ new ≠ NONE) ∨
      (op = .del ∧ f.op ≠ NONE ∧ new = NONE)) :
    ∃ rc w' f', change e op f.op new data f w = .ok (rc, w', f') ∧
      (rc = 0 ∧ f' = { f with op := new } ∧ Good w' f' ∧ w'.wrong = w.wrong ∧ w'.err = w.err ∧
        (∀ x, x ≠ f.fd → w'.reg x = w.reg x) ∧ (new ≠ NONE → ∃ ev, w'.reg f.fd = some (ev, data)) ∨
       rc = -1 ∧ f' = f ∧ Failed e w w') := by
  unfold change ctl
  have hctl : (match op, w.reg f.fd with
      | .add, some _ => (false, { { w with n := w.n + 1 } with errno := EEXIST, wrong := true })
      | .mod, none => (false, { { w with n := w.n + 1 } with errno := ENOENT, wrong := true })
      | .del, none => (false, { { w with n := w.n + 1 } with errno := ENOENT, wrong := true })
      | op, _ =>
        match e.call w.n with
        | some er => (false, { { w with n := w.n + 1 } with errno := er })
        | none => (true, { { w with n := w.n + 1 } with
            reg := fun x => if x = f.fd then (if op = Ctl.del then none else some (events new, data)) else w.reg x })) =
      (match e.call w.n with
        | some er => (false, { { w with n := w.n + 1 } with errno := er })
        | none => (true, { { w with n := w.n + 1 } with
            reg := fun x => if x = f.fd then (if op = Ctl.del then none else some (events new, data)) else w.reg x })) := by
    rcases hop with ⟨rfl, h, -⟩ | ⟨rfl, h, -⟩ | ⟨rfl, h, -⟩
    · rw [hg.none.1 h]
    · have : w.reg f.fd ≠ none := fun hc => h (hg.none.2 hc)
      cases hr : w.reg f.fd with
      | none => exact absurd hr this
      | some p => rfl
    · have : w.reg f.fd ≠ none := fun hc => h (hg.none.2 hc)
      cases hr : w.reg f.fd with
      | none => exact absurd hr this
      | some p => rfl
  have hlive : ¬ (!w.isOpen f.fd) = true := by rw [hg.live]; decide
  simp only at hctl ⊢
  rw [if_neg hlive, hctl]
  cases hc : e.call w.n with
  | some er =>
    simp only
    obtain ⟨t, ht⟩ := he.texts er
    rw [cstr_eq ht]
    simp only [Res.ok_bind]
    obtain ⟨err, h1, h2, h3⟩ := setErr_ok (ctlText_nonzero ht.nonzero) (w := { w with errno := er, n := w.n + 1 }) hl
    rw [h1]
    exact ⟨-1, _, _, rfl, .inr ⟨rfl, rfl, ⟨rfl, rfl, rfl, h2, ⟨t, ht, h3⟩, hc⟩⟩⟩
  | none =>
    simp only
    refine ⟨0, _, _, rfl, .inl ⟨rfl, rfl, ?_, rfl, rfl, ?_, ?_⟩⟩
    · rcases hop with ⟨rfl, -, h⟩ | ⟨rfl, -, h⟩ | ⟨rfl, -, h⟩
      · exact ⟨hg.live, hn, by simp [h], by simp only [if_true]; exact view_events new data, by simp only [if_true]; exact alert_events new data⟩
      · exact ⟨hg.live, hn, by simp [h], by simp only [if_true]; exact view_events new data, by simp only [if_true]; exact alert_events new data⟩
      · refine ⟨hg.live, hn, by simp [h], ?_, ?_⟩
        · simp only [if_true]; rw [h, mask_none]; rfl
        · simp only [if_true]; intro ev d hh; cases hh
    · intro x hx
      simp only
      rw [if_neg hx]
    · intro hne
      rcases hop with ⟨rfl, -, h⟩ | ⟨rfl, -, h⟩ | ⟨rfl, -, h⟩
      · exact ⟨events new, by simp⟩
      · exact ⟨events new, by simp⟩
      · exact absurd h hne

theorem change_isOpen {e : Env} {op : Ctl} {old new : Bits} {data : Nat} {f f' : Fdt} {w w' : World} {rc : Int}
    (h : change e op old new data f w = .ok (rc, w', f')) : w'.isOpen = w.isOpen := by
  have hc : ∀ fd ev, (ctl e op fd ev data w).2.isOpen = w.isOpen := by
    intro fd ev
    unfold ctl
    simp only
    split
    · rfl
    · split
      · rfl
      · rfl
      · rfl
      · split <;> rfl
  unfold change at h
  simp only at h
  have := hc f.fd (events new)
  generalize ctl e op f.fd (events new) data w = x at h this
  obtain ⟨b, w₁⟩ := x
  cases b with
  | true => cases h; exact this
  | false =>
    simp only at h this
    cases hm : cstr (e.strerror w₁.errno) 0 with
    | ub => rw [hm] at h; cases h
    | ok m =>
      rw [hm] at h
      simp only [Res.ok_bind, setErr] at h
      cases hp : pollErr (ctlText m) w₁.err with
      | ub => rw [hp] at h; cases h
      | ok er => rw [hp] at h; cases h; exact this

theorem add_isOpen {e : Env} {evs : Bits} {data : Nat} {f f' : Fdt} {w w' : World} {rc : Int}
    (h : add e evs data f w = .ok (rc, w', f')) : w'.isOpen = w.isOpen := by
  unfold add at h
  simp only at h
  split at h
  · cases h; rfl
  · exact change_isOpen h

theorem del_isOpen {e : Env} {evs : Bits} {data : Nat} {f f' : Fdt} {w w' : World} {rc : Int}
    (h : del e evs data f w = .ok (rc, w', f')) : w'.isOpen = w.isOpen := by
  unfold del at h
  simp only at h
  split at h
  · cases h; rfl
  · exact change_isOpen h

theorem or_none {a b : Bits} (h : dropEdge (a ||| b) = NONE) (hn : a ≠ EDGE) : a = NONE := by
  revert a b; decide

/-- One call of `sc_sock_poll_add`. -/
theorem add_ok {e : Env} (he : Laws e) {evs : Bits} {data : Nat} {f : Fdt} {w : World} (hl : w.err.length = 128) (hg : Good w f) :
    ∃ rc w' f', add e evs data f w = .ok (rc, w', f') ∧ w'.wrong = w.wrong ∧ w'.err.length = 128 ∧ f'.fd = f.fd ∧ Good w' f' ∧
      (∀ x, x ≠ f.fd → w'.reg x = w.reg x) ∧
      (rc = 0 ∧ f'.op.mask = norm (f.op.mask.union evs.mask) ∧
        (f'.op = f.op ∧ w' = w ∨ f'.op ≠ f.op ∧ ∃ ev, w'.reg f.fd = some (ev, data)) ∨
       rc = -1 ∧ f' = f ∧ Failed e w w') := by
  unfold add
  simp only
  by_cases h : f.op = dropEdge (f.op ||| evs)
  · rw [if_pos h]
    exact ⟨0, w, f, rfl, rfl, hl, rfl, hg, fun _ _ => rfl, .inl ⟨rfl, by rw [← mask_add, ← h], .inl ⟨rfl, rfl⟩⟩⟩
  · rw [if_neg h]
    have hne : dropEdge (f.op ||| evs) ≠ NONE := fun hc => h (by rw [hc]; exact or_none hc hg.normal)
    obtain ⟨rc, w', f', h1, h2⟩ := change_ok he (op := if f.op = NONE then Ctl.add else Ctl.mod)
      (new := dropEdge (f.op ||| evs)) (data := data) hl hg (dropEdge_normal _) (by
        by_cases h0 : f.op = NONE
        · rw [if_pos h0]; exact .inl ⟨rfl, h0, hne⟩
        · rw [if_neg h0]; exact .inr (.inl ⟨rfl, h0, hne⟩))
    refine ⟨rc, w', f', h1, ?_⟩
    rcases h2 with ⟨rfl, rfl, k1, k2, k3, k4, k5⟩ | ⟨rfl, rfl, k1⟩
    · exact ⟨k2, by rw [k3]; exact hl, rfl, k1, k4, .inl ⟨rfl, mask_add _ _, .inr ⟨fun hc => h hc.symm, k5 hne⟩⟩⟩
    · refine ⟨k1.wrong, k1.len, rfl, ?_, fun x _ => by rw [k1.reg], .inr ⟨rfl, rfl, k1⟩⟩
      exact ⟨by rw [k1.isOpen]; exact hg.live, hg.normal, by rw [k1.reg]; exact hg.none, by rw [k1.reg]; exact hg.view, by rw [k1.reg]; exact hg.alert⟩

theorem and_none {a b : Bits} (h : a = NONE) : dropEdge (a &&& ~~~b) = NONE := by
  revert a b; decide

/-- One call of `sc_sock_poll_del`. -/
theorem del_ok {e : Env} (he : Laws e) {evs : Bits} {data : Nat} {f : Fdt} {w : World} (hl : w.err.length = 128) (hg : Good w f) :
    ∃ rc w' f', del e evs data f w = .ok (rc, w', f') ∧ w'.wrong = w.wrong ∧ w'.err.length = 128 ∧ f'.fd = f.fd ∧ Good w' f' ∧
      (∀ x, x ≠ f.fd → w'.reg x = w.reg x) ∧
      (rc = 0 ∧ f'.op.mask = norm (f.op.mask.diff evs.mask) ∧
        (f'.op = f.op ∧ w' = w ∨ f'.op ≠ f.op ∧ (f'.op ≠ NONE → ∃ ev, w'.reg f.fd = some (ev, data))) ∨
       rc = -1 ∧ f' = f ∧ Failed e w w') := by
  unfold del
  simp only
  by_cases h : f.op = dropEdge (f.op &&& ~~~evs)
  · rw [if_pos h]
    exact ⟨0, w, f, rfl, rfl, hl, rfl, hg, fun _ _ => rfl, .inl ⟨rfl, by rw [← mask_del, ← h], .inl ⟨rfl, rfl⟩⟩⟩
  · rw [if_neg h]
    have hne : f.op ≠ NONE := fun hc => h (by rw [and_none hc, hc])
    obtain ⟨rc, w', f', h1, h2⟩ := change_ok he (op := if dropEdge (f.op &&& ~~~evs) = NONE then Ctl.del else Ctl.mod)
      (new := dropEdge (f.op &&& ~~~evs)) (data := data) hl hg (dropEdge_normal _) (by
        by_cases h0 : dropEdge (f.op &&& ~~~evs) = NONE
        · rw [if_pos h0]; exact .inr (.inr ⟨rfl, hne, h0⟩)
        · rw [if_neg h0]; exact .inr (.inl ⟨rfl, hne, h0⟩))
    refine ⟨rc, w', f', h1, ?_⟩
    rcases h2 with ⟨rfl, rfl, k1, k2, k3, k4, k5⟩ | ⟨rfl, rfl, k1⟩
    · exact ⟨k2, by rw [k3]; exact hl, rfl, k1, k4, .inl ⟨rfl, mask_del _ _, .inr ⟨fun hc => h hc.symm, k5⟩⟩⟩
    · refine ⟨k1.wrong, k1.len, rfl, ?_, fun x _ => by rw [k1.reg], .inr ⟨rfl, rfl, k1⟩⟩
      exact ⟨by rw [k1.isOpen]; exact hg.live, hg.normal, by rw [k1.reg]; exact hg.none, by rw [k1.reg]; exact hg.view, by rw [k1.reg]; exact hg.alert⟩

/-! ## Histories -/

/-- The system and all objects, by number -/
structure State where
  w : World
  obj : Nat → Fdt

def State.set (σ : State) (w : World) (i : Nat) (f : Fdt) : State := ⟨w, fun j => if j = i then f else σ.obj j⟩

/-- One call, and the request if it was granted; `d` is the data. -/
inductive Step (e : Env) : State → Option Req → Nat → Nat → State → Prop
  | add {σ i evs d rc w f} : add e evs d (σ.obj i) σ.w = .ok (rc, w, f) →
    Step e σ (if rc = 0 then some (.add i evs.mask) else none) i d (σ.set w i f)
  | del {σ i evs d rc w f} : del e evs d (σ.obj i) σ.w = .ok (rc, w, f) →
    Step e σ (if rc = 0 then some (.del i evs.mask) else none) i d (σ.set w i f)

/-- A history: the requests that were granted, and which object was used with which data. -/
inductive Runs (e : Env) (σ₀ : State) : List Req → List (Nat × Nat) → State → Prop
  | refl : Runs e σ₀ [] [] σ₀
  | step {l ds σ σ' r i d} : Runs e σ₀ l ds σ → Step e σ r i d σ' → Runs e σ₀ (l ++ r.toList) (ds ++ [(i, d)]) σ'

/-- A new poller: nothing is registered, and the objects have different descriptors, which are open. -/
structure Start (σ : State) : Prop where
  reg : ∀ fd, σ.w.reg fd = none
  op : ∀ i, (σ.obj i).op = NONE
  wrong : σ.w.wrong = false
  len : σ.w.err.length = 128
  live : ∀ i, σ.w.isOpen (σ.obj i).fd = true
  inj : ∀ i j, (σ.obj i).fd = (σ.obj j).fd → i = j

structure Inv (σ₀ σ : State) (l : List Req) : Prop where
  fd : ∀ i, (σ.obj i).fd = (σ₀.obj i).fd
  good : ∀ i, Good σ.w (σ.obj i)
  mask : ∀ i, (σ.obj i).op.mask = Spec.after l i
  wrong : σ.w.wrong = false
  len : σ.w.err.length = 128
  others : ∀ fd, (∀ i, fd ≠ (σ₀.obj i).fd) → σ.w.reg fd = none

/-- A call of one object leaves the others as they are. -/
theorem Inv.step {σ₀ σ : State} (h0 : Start σ₀) {l : List Req} (h : Inv σ₀ σ l) {i : Nat} {w : World} {f : Fdt}
    {r : Option Req} (hf : f.fd = (σ.obj i).fd) (hw : w.wrong = false) (hl : w.err.length = 128) (hg : Good w f)
    (ho : ∀ x, x ≠ (σ.obj i).fd → w.reg x = σ.w.reg x) (hp : w.isOpen = σ.w.isOpen)
    (hm : ∀ j, Spec.after (l ++ r.toList) j = if j = i then f.op.mask else Spec.after l j) :
    Inv σ₀ (σ.set w i f) (l ++ r.toList) := by
  have hne : ∀ j, j ≠ i → (σ.obj j).fd ≠ (σ.obj i).fd := fun j hj hc => hj (h0.inj _ _ (by rw [← h.fd, ← h.fd, hc]))
  refine ⟨?_, ?_, ?_, hw, hl, ?_⟩
  · intro j
    by_cases hj : j = i
    · simp only [State.set, hj, if_true]; rw [hf, h.fd]
    · simp only [State.set, hj, if_false]; exact h.fd j
  · intro j
    by_cases hj : j = i
    · simp only [State.set, hj, if_true]; exact hg
    · simp only [State.set, hj, if_false]
      have := h.good j
      have hr := ho _ (hne j hj)
      exact ⟨by rw [hp]; exact this.live, this.normal, by rw [hr]; exact this.none, by rw [hr]; exact this.view, by rw [hr]; exact this.alert⟩
  · intro j
    rw [hm]
    by_cases hj : j = i
    · simp [State.set, hj]
    · simp only [State.set, hj, if_false]; exact h.mask j
  · intro fd hfd
    show w.reg fd = none
    rw [ho fd (by rw [h.fd]; exact hfd i)]
    exact h.others fd hfd

theorem after_snoc (l : List Req) (r : Req) : Spec.after (l ++ [r]) = Spec.apply (Spec.after l) r := by
  simp [Spec.after]

theorem step_ok {e : Env} (he : Laws e) {σ₀ σ σ' : State} (h0 : Start σ₀) {l : List Req} (h : Inv σ₀ σ l) {r : Option Req} {i d : Nat}
    (hs : Step e σ r i d σ') : Inv σ₀ σ' (l ++ r.toList) := by
  cases hs with
  | @add _ evs _ rc w f hr =>
    obtain ⟨rc', w', f', h1, h2, h3, h4, h5, h6, h7⟩ := add_ok he (evs := evs) (data := d) h.len (h.good i)
    rw [h1] at hr
    cases hr
    apply h.step h0 h4 (by rw [h2]; exact h.wrong) h3 h5 h6 (add_isOpen h1)
    intro j
    rcases h7 with ⟨rfl, h7, -⟩ | ⟨rfl, h7, -⟩
    · rw [if_pos rfl]
      simp only [Option.toList]
      rw [after_snoc]
      simp only [Spec.apply]
      by_cases hj : j = i
      · rw [if_pos hj, if_pos hj, h7, h.mask]
      · rw [if_neg hj, if_neg hj]
    · rw [if_neg (by decide)]
      simp only [Option.toList, List.append_nil]
      by_cases hj : j = i
      · rw [if_pos hj, h7, h.mask, hj]
      · rw [if_neg hj]
  | @del _ evs _ rc w f hr =>
    obtain ⟨rc', w', f', h1, h2, h3, h4, h5, h6, h7⟩ := del_ok he (evs := evs) (data := d) h.len (h.good i)
    rw [h1] at hr
    cases hr
    apply h.step h0 h4 (by rw [h2]; exact h.wrong) h3 h5 h6 (del_isOpen h1)
    intro j
    rcases h7 with ⟨rfl, h7, -⟩ | ⟨rfl, h7, -⟩
    · rw [if_pos rfl]
      simp only [Option.toList]
      rw [after_snoc]
      simp only [Spec.apply]
      by_cases hj : j = i
      · rw [if_pos hj, if_pos hj, h7, h.mask]
      · rw [if_neg hj, if_neg hj]
    · rw [if_neg (by decide)]
      simp only [Option.toList, List.append_nil]
      by_cases hj : j = i
      · rw [if_pos hj, h7, h.mask, hj]
      · rw [if_neg hj]

theorem run_ok {e : Env} (he : Laws e) {σ₀ σ : State} (h0 : Start σ₀) {l : List Req} {ds : List (Nat × Nat)} (r : Runs e σ₀ l ds σ) :
    Inv σ₀ σ l := by
  induction r with
  | refl =>
    refine ⟨fun _ => rfl, ?_, ?_, h0.wrong, h0.len, fun fd _ => h0.reg fd⟩
    · intro i
      refine ⟨h0.live i, by rw [h0.op]; unfold Bits.Normal; decide, by simp [h0.op, h0.reg], ?_, ?_⟩
      · rw [h0.reg, h0.op, mask_none]; rfl
      · rw [h0.reg]; intro ev d hh; cases hh
    · intro i; rw [h0.op, mask_none]; rfl
  | step r hs ih => exact step_ok he h0 ih hs

/-- **C72** for Linux: after every history of calls for any number of objects, whatever fails, the
system waits for what was added and not deleted in calls that succeeded, for errors and hangups too,
and for nothing else; no call was wrong. -/
theorem interest {e : Env} (he : Laws e) {σ₀ σ : State} (h0 : Start σ₀) {l : List Req} {ds : List (Nat × Nat)} (r : Runs e σ₀ l ds σ) :
    σ.w.wrong = false ∧
    (∀ i, view (σ.w.reg (σ₀.obj i).fd) = Spec.after l i ∧ Alert (σ.w.reg (σ₀.obj i).fd) ∧
      (σ.w.reg (σ₀.obj i).fd = none ↔ Spec.after l i = nothing)) ∧
    (∀ fd, (∀ i, fd ≠ (σ₀.obj i).fd) → σ.w.reg fd = none) := by
  have h := run_ok he h0 r
  refine ⟨h.wrong, ?_, h.others⟩
  intro i
  rw [← h.fd]
  refine ⟨by rw [(h.good i).view, h.mask], (h.good i).alert, ?_⟩
  rw [← (h.good i).none, ← h.mask, ← mask_none]
  exact ⟨fun hc => by rw [hc], mask_inj⟩

/-- A call that fails changes nothing: not what is waited for, nor the object. -/
theorem failed_nothing {e : Env} (he : Laws e) {σ₀ σ σ' : State} (h0 : Start σ₀) {l : List Req} {ds : List (Nat × Nat)}
    (r : Runs e σ₀ l ds σ) {i d : Nat} (hs : Step e σ none i d σ') :
    σ'.w.reg = σ.w.reg ∧ σ'.obj = σ.obj ∧ ∃ er t, e.call σ.w.n = some er ∧ CStr (e.strerror er) 0 t ∧
      CStr σ'.w.err 0 ((ctlText t).take 127) := by
  have h := run_ok he h0 r
  generalize hr : (none : Option Req) = q at hs
  cases hs with
  | @add _ evs _ rc w f hr' =>
    obtain ⟨rc', w', f', h1, h2, h3, h4, h5, h6, h7⟩ := add_ok he (evs := evs) (data := d) h.len (h.good i)
    rw [h1] at hr'
    cases hr'
    rcases h7 with ⟨rfl, h7, -⟩ | ⟨rfl, h7, h8⟩
    · simp at hr
    · refine ⟨h8.reg, ?_, ?_⟩
      · funext j
        by_cases hj : j = i <;> simp [State.set, hj, h7]
      · obtain ⟨t, ht, ht'⟩ := h8.text
        exact ⟨_, t, h8.cause, ht, ht'⟩
  | @del _ evs _ rc w f hr' =>
    obtain ⟨rc', w', f', h1, h2, h3, h4, h5, h6, h7⟩ := del_ok he (evs := evs) (data := d) h.len (h.good i)
    rw [h1] at hr'
    cases hr'
    rcases h7 with ⟨rfl, h7, -⟩ | ⟨rfl, h7, h8⟩
    · simp at hr
    · refine ⟨h8.reg, ?_, ?_⟩
      · funext j
        by_cases hj : j = i <;> simp [State.set, hj, h7]
      · obtain ⟨t, ht, ht'⟩ := h8.text
        exact ⟨_, t, h8.cause, ht, ht'⟩

/-- No call is undefined. -/
theorem no_ub {e : Env} (he : Laws e) {σ₀ σ : State} (h0 : Start σ₀) {l : List Req} {ds : List (Nat × Nat)} (r : Runs e σ₀ l ds σ)
    (i : Nat) (evs : Bits) (d : Nat) : (add e evs d (σ.obj i) σ.w).Defined ∧ (del e evs d (σ.obj i) σ.w).Defined := by
  have h := run_ok he h0 r
  obtain ⟨_, _, _, h1, -⟩ := add_ok he (evs := evs) (data := d) h.len (h.good i)
  obtain ⟨_, _, _, h2, -⟩ := del_ok he (evs := evs) (data := d) h.len (h.good i)
  exact ⟨⟨_, h1⟩, ⟨_, h2⟩⟩

end Verif.Poll.Epoll
