import Verif.Poll.EpollWait

/-!
# Model and properties of socket/sc_sock.c: the poller for macOS and FreeBSD

`kevent` follows kqueue(2): the changes of a list are made in order, up to the first that fails;
adding a filter that exists modifies its parameters, deleting one that does not exist, or naming a
descriptor that is not open, is an error of the caller, noted in `wrong`. Whether adding again modifies the `EV_CLEAR` flag is not said there in
so many words: `keep` says it does not.
-/

namespace Verif.Poll.Kqueue

open Spec (Ev Mask norm nothing Req)
open Epoll (Fdt ENOENT EINTR Waits waitLoop waitLoop_eq Interrupted termText)

/-- `EVFILT_READ` and `EVFILT_WRITE` -/
inductive Filter where
  | read
  | write
  deriving DecidableEq

/-- What the environment decides: whether, at which change of its list, and how the n-th call fails. -/
structure Env where
  strerror : Int → List UInt8
  call : Nat → Option (Nat × Int)
  keep : Bool

/-- What is registered: by descriptor and filter, whether `EV_CLEAR` is set, and the user data -/
structure World where
  reg : Int → Filter → Option (Bool × Nat)
  /-- which descriptors are open -/
  isOpen : Int → Bool
  errno : Int
  n : Nat
  wrong : Bool
  err : List UInt8

/-- `EV_ADD`, with or without `EV_CLEAR`, and `EV_DELETE` -/
inductive Act where
  | add (clear : Bool) (data : Nat)
  | delete
  deriving DecidableEq

def upd (reg : Int → Filter → Option (Bool × Nat)) (fd : Int) (f : Filter) (v : Option (Bool × Nat)) :
    Int → Filter → Option (Bool × Nat) :=
  fun x g => if x = fd ∧ g = f then v else reg x g

/-- What `EV_ADD` leaves -/
def put (keep : Bool) (old : Option (Bool × Nat)) (clear : Bool) (data : Nat) : Option (Bool × Nat) :=
  match keep, old with
  | true, some (c, _) => some (c, data)
  | _, _ => some (clear, data)

/-- The error at change number `i` -/
def failsAt (fail : Option (Nat × Int)) (i : Nat) : Option Int :=
  match fail with
  | some (k, er) => if k = i then some er else none
  | none => none

/-- The changes of a call of `kevent`, from number `i`; `fail` is the number of the one that fails. -/
def changes (keep : Bool) (fail : Option (Nat × Int)) (fd : Int) : List (Filter × Act) → Nat → World → Bool × World
  | [], _, w => (true, w)
  | (f, a) :: cs, i, w =>
    match failsAt fail i with
    | some er => (false, { w with errno := er })
    | none =>
      match a, w.reg fd f with
      | .delete, none => (false, { w with errno := ENOENT, wrong := true })
      | .delete, some _ => changes keep fail fd cs (i + 1) { w with reg := upd w.reg fd f none }
      | .add c d, old => changes keep fail fd cs (i + 1) { w with reg := upd w.reg fd f (put keep old c d) }

/-- `kevent` with a list of changes -/
def kevent (e : Env) (fd : Int) (cs : List (Filter × Act)) (w : World) : Bool × World :=
  if !w.isOpen fd then (false, { w with n := w.n + 1, errno := Epoll.EBADF, wrong := true })
  else changes e.keep (e.call w.n) fd cs 0 { w with n := w.n + 1 }

def setErr (text : List UInt8) (w : World) : Res World := do
  let err ← pollErr text w.err
  .ok { w with err := err }

/-- `"kevent : %s "` -/
def ctlText (m : List UInt8) : List UInt8 := [107, 101, 118, 101, 110, 116, 32, 58, 32] ++ m ++ [32]

/-- The end of `sc_sock_poll_add` and `sc_sock_poll_del`, socket/sc_sock.c:1404-1415 and 1451-1462. -/
def change (e : Env) (cs : List (Filter × Act)) (old new : Bits) (f : Fdt) (w : World) : Res (Int × World × Fdt) :=
  let f := { f with op := new }
  match kevent e f.fd cs w with
  | (true, w) => .ok (0, w, f)
  | (false, w) => do
    let f := { f with op := old }
    let m ← cstr (e.strerror w.errno) 0
    let w ← setErr (ctlText m) w
    .ok (-1, w, f)

/-- The changes of `sc_sock_poll_add`, socket/sc_sock.c:1387-1399 -/
def addChanges (new : Bits) (data : Nat) : List (Filter × Act) :=
  let act := Act.add (new &&& EDGE != 0) data
  (if new &&& WRITE ≠ 0 then [(.write, act)] else []) ++ (if new &&& READ ≠ 0 then [(.read, act)] else [])

/-- `sc_sock_poll_add`, socket/sc_sock.c:1370-1416 -/
def add (e : Env) (evs : Bits) (data : Nat) (f : Fdt) (w : World) : Res (Int × World × Fdt) :=
  let old := f.op
  let new := dropEdge (old ||| evs)
  if old = new then .ok (0, w, f)
  else change e (addChanges new data) old new f w

/-- The changes of `sc_sock_poll_del`, socket/sc_sock.c:1436-1446 -/
def delChanges (old del : Bits) (data : Nat) : List (Filter × Act) :=
  (if del &&& READ ≠ 0 then [(.read, .delete)]
   else if del &&& EDGE ≠ 0 ∧ old &&& READ ≠ 0 then [(.read, .add false data)] else []) ++
  (if del &&& WRITE ≠ 0 then [(.write, .delete)]
   else if del &&& EDGE ≠ 0 ∧ old &&& WRITE ≠ 0 then [(.write, .add false data)] else [])

/-- `sc_sock_poll_del`, socket/sc_sock.c:1418-1463 -/
def del (e : Env) (evs : Bits) (data : Nat) (f : Fdt) (w : World) : Res (Int × World × Fdt) :=
  let old := f.op
  let del := old &&& evs
  let new := dropEdge (old &&& ~~~evs)
  if old = new then .ok (0, w, f)
  else change e (delChanges old del data) old new f w

/-- `sc_sock_poll_event`, socket/sc_sock.c:1470-1483, of a filter and whether `EV_EOF` is set -/
def event (f : Filter) (eof : Bool) : Bits :=
  if eof then READ ||| WRITE
  else match f with
    | .read => READ
    | .write => WRITE

/-! ## Properties -/

/-- Error texts are strings. -/
structure Laws (e : Env) : Prop where
  texts : ∀ er, ∃ t, CStr (e.strerror er) 0 t

/-- Calls that fail do so at their first change, and adding again modifies all parameters. -/
structure Tame (e : Env) : Prop where
  first : ∀ n k er, e.call n = some (k, er) → k = 0
  modify : e.keep = false

/-- What the registrations of a descriptor make the system wait for: a filter for input, one for
output, and the flag of each is whether changes are told once. -/
structure Waits' (rd wr : Option (Bool × Nat)) (m : Mask) : Prop where
  read : rd.isSome = m .read
  write : wr.isSome = m .write
  edgeR : ∀ c d, rd = some (c, d) → c = m .edge
  edgeW : ∀ c d, wr = some (c, d) → c = m .edge

structure Good (w : World) (f : Fdt) : Prop where
  live : w.isOpen f.fd = true
  normal : f.op.Normal
  waits : Waits' (w.reg f.fd .read) (w.reg f.fd .write) f.op.mask

/-- What a call that fails at its first change does -/
structure Failed (e : Env) (w w' : World) : Prop where
  reg : w'.reg = w.reg
  isOpen : w'.isOpen = w.isOpen
  wrong : w'.wrong = w.wrong
  len : w'.err.length = 128
  text : ∃ t, CStr (e.strerror w'.errno) 0 t ∧ CStr w'.err 0 ((ctlText t).take 127)
  cause : e.call w.n = some (0, w'.errno)

theorem ctlText_nonzero {t : List UInt8} (h : ∀ b ∈ t, b ≠ 0) : ∀ b ∈ ctlText t, b ≠ 0 := by
  intro b hb
  simp only [ctlText, List.mem_append] at hb
  rcases hb with (hb | hb) | hb
  · revert b; decide
  · exact h b hb
  · revert b; decide

theorem setErr_ok {t : List UInt8} (ht : ∀ b ∈ t, b ≠ 0) {w : World} (hl : w.err.length = 128) :
    ∃ err, setErr t w = .ok { w with err := err } ∧ err.length = 128 ∧ CStr err 0 (t.take 127) := by
  obtain ⟨err, h1, h2, h3⟩ := pollErr_ok ht hl
  exact ⟨err, by unfold setErr; rw [h1]; rfl, h2, h3⟩

/-- The effect of one change -/
def Act.on (a : Option Act) (old : Option (Bool × Nat)) : Option (Bool × Nat) :=
  match a with
  | none => old
  | some .delete => none
  | some (.add c d) => some (c, d)

/-- All changes of a list of at most one for each filter are made. -/
theorem changes_ok {fd : Int} {a b : Option Act} {f g : Filter} (hfg : f ≠ g) {w : World}
    (ha : a = some .delete → (w.reg fd f).isSome = true) (hb : b = some .delete → (w.reg fd g).isSome = true) :
    ∃ reg, changes false none fd ((a.map (fun x => (f, x))).toList ++ (b.map (fun x => (g, x))).toList) 0 w = (true, { w with reg := reg }) ∧
      reg fd f = Act.on a (w.reg fd f) ∧ reg fd g = Act.on b (w.reg fd g) ∧ (∀ x, x ≠ fd → reg x = w.reg x) := by
  have hgf : g ≠ f := fun h => hfg h.symm
  have hx : ∀ (reg : Int → Filter → Option (Bool × Nat)) v h x, x ≠ fd → upd reg fd h v x = reg x := by
    intro reg v h x hx
    funext y
    simp [upd, hx]
  have h2 : ∀ (i : Nat) (w : World), (b = some .delete → (w.reg fd g).isSome = true) →
      ∃ reg, changes false none fd (b.map (fun x => (g, x))).toList i w = (true, { w with reg := reg }) ∧
        reg fd f = w.reg fd f ∧ reg fd g = Act.on b (w.reg fd g) ∧ (∀ x, x ≠ fd → reg x = w.reg x) := by
    intro i w hb
    cases b with
    | none => exact ⟨w.reg, rfl, rfl, rfl, fun _ _ => rfl⟩
    | some b =>
      cases b with
      | delete =>
        cases hr : w.reg fd g with
        | none => rw [hr] at hb; simp at hb
        | some o =>
          refine ⟨upd w.reg fd g none, ?_, by simp [upd, hfg], by simp [upd, Act.on], hx _ _ _⟩
          simp [changes, failsAt, hr]
      | add c d =>
        refine ⟨upd w.reg fd g (some (c, d)), ?_, by simp [upd, hfg], by simp [upd, Act.on], hx _ _ _⟩
        simp [changes, failsAt, put]
  cases a with
  | none =>
    obtain ⟨reg, k1, k2, k3, k4⟩ := h2 0 w hb
    exact ⟨reg, by simpa using k1, k2, k3, k4⟩
  | some a =>
    cases a with
    | delete =>
      cases hr : w.reg fd f with
      | none => rw [hr] at ha; simp at ha
      | some o =>
        obtain ⟨reg, k1, k2, k3, k4⟩ := h2 1 { w with reg := upd w.reg fd f none } (by simpa [upd, hgf] using hb)
        refine ⟨reg, ?_, by rw [k2]; simp [upd, Act.on], by rw [k3]; simp [upd, hgf], fun x h => by rw [k4 x h]; exact hx _ _ _ _ h⟩
        simp only [Option.map_some, Option.toList_some, List.singleton_append]
        unfold changes
        simp only [hr, failsAt]
        exact k1
    | add c d =>
      obtain ⟨reg, k1, k2, k3, k4⟩ := h2 1 { w with reg := upd w.reg fd f (some (c, d)) } (by simpa [upd, hgf] using hb)
      refine ⟨reg, ?_, by rw [k2]; simp [upd, Act.on], by rw [k3]; simp [upd, hgf], fun x h => by rw [k4 x h]; exact hx _ _ _ _ h⟩
      simp only [Option.map_some, Option.toList_some, List.singleton_append]
      unfold changes
      simp only [put, failsAt]
      exact k1

theorem changes_fail {keep : Bool} {fd : Int} {er : Int} {cs : List (Filter × Act)} (h : cs ≠ []) {w : World} :
    changes keep (some (0, er)) fd cs 0 w = (false, { w with errno := er }) := by
  cases cs with
  | nil => exact absurd rfl h
  | cons c cs => obtain ⟨f, a⟩ := c; simp [changes, failsAt]

/-- A call with changes that fit -/
theorem change_ok {e : Env} (he : Laws e) (ht : Tame e) {cs : List (Filter × Act)} {a b : Option Act} {f g : Filter} (hfg : f ≠ g)
    (hcs : cs = (a.map (fun x => (f, x))).toList ++ (b.map (fun x => (g, x))).toList) (hne : cs ≠ []) {new : Bits} {o : Fdt} {w : World}
    (ha : a = some .delete → (w.reg o.fd f).isSome = true) (hb : b = some .delete → (w.reg o.fd g).isSome = true)
    (hl : w.err.length = 128) (hv : w.isOpen o.fd = true) :
    ∃ rc w' o', change e cs o.op new o w = .ok (rc, w', o') ∧
      (rc = 0 ∧ o' = { o with op := new } ∧ w'.isOpen = w.isOpen ∧ w'.wrong = w.wrong ∧ w'.err = w.err ∧ w'.reg o.fd f = Act.on a (w.reg o.fd f) ∧
        w'.reg o.fd g = Act.on b (w.reg o.fd g) ∧ (∀ x, x ≠ o.fd → w'.reg x = w.reg x) ∨
       rc = -1 ∧ o' = o ∧ Failed e w w') := by
  unfold change kevent
  have hlive : ¬ (!w.isOpen o.fd) = true := by rw [hv]; decide
  simp only
  rw [if_neg hlive]
  cases hc : e.call w.n with
  | none =>
    obtain ⟨reg, h1, h2, h3, h4⟩ := changes_ok hfg (fd := o.fd) (a := a) (b := b) (w := { w with n := w.n + 1 }) ha hb
    rw [← hcs] at h1
    simp only [ht.modify]
    rw [h1]
    exact ⟨0, _, _, rfl, .inl ⟨rfl, rfl, rfl, rfl, rfl, h2, h3, h4⟩⟩
  | some q =>
    obtain ⟨k, er⟩ := q
    have := ht.first _ _ _ hc
    subst this
    rw [changes_fail hne]
    simp only
    obtain ⟨t, htx⟩ := he.texts er
    rw [cstr_eq htx]
    simp only [Res.ok_bind]
    obtain ⟨err, h1, h2, h3⟩ := setErr_ok (ctlText_nonzero htx.nonzero) (w := { w with errno := er, n := w.n + 1 }) hl
    rw [h1]
    exact ⟨-1, _, _, rfl, .inr ⟨rfl, rfl, ⟨rfl, rfl, rfl, h2, ⟨t, htx, h3⟩, hc⟩⟩⟩

/-- The change of one filter by `sc_sock_poll_add` -/
def addAct (new : Bits) (bit : Bits) (data : Nat) : Option Act :=
  if new &&& bit ≠ 0 then some (.add (new &&& EDGE != 0) data) else none

theorem addChanges_eq (new : Bits) (data : Nat) :
    addChanges new data = ((addAct new WRITE data).map (fun x => (Filter.write, x))).toList ++
      ((addAct new READ data).map (fun x => (Filter.read, x))).toList := by
  unfold addChanges addAct
  simp only
  congr 1
  · by_cases h1 : new &&& WRITE ≠ 0
    · rw [if_pos h1, if_pos h1]; rfl
    · rw [if_neg h1, if_neg h1]; rfl
  · by_cases h1 : new &&& READ ≠ 0
    · rw [if_pos h1, if_pos h1]; rfl
    · rw [if_neg h1, if_neg h1]; rfl

/-- The change of one filter by `sc_sock_poll_del` -/
def delAct (old del bit : Bits) (data : Nat) : Option Act :=
  if del &&& bit ≠ 0 then some .delete else if del &&& EDGE ≠ 0 ∧ old &&& bit ≠ 0 then some (.add false data) else none

theorem delChanges_eq (old del : Bits) (data : Nat) :
    delChanges old del data = ((delAct old del READ data).map (fun x => (Filter.read, x))).toList ++
      ((delAct old del WRITE data).map (fun x => (Filter.write, x))).toList := by
  unfold delChanges delAct
  congr 1
  · by_cases h1 : del &&& READ ≠ 0
    · rw [if_pos h1, if_pos h1]; rfl
    · by_cases h2 : del &&& EDGE ≠ 0 ∧ old &&& READ ≠ 0
      · rw [if_neg h1, if_neg h1, if_pos h2, if_pos h2]; rfl
      · rw [if_neg h1, if_neg h1, if_neg h2, if_neg h2]; rfl
  · by_cases h1 : del &&& WRITE ≠ 0
    · rw [if_pos h1, if_pos h1]; rfl
    · by_cases h2 : del &&& EDGE ≠ 0 ∧ old &&& WRITE ≠ 0
      · rw [if_neg h1, if_neg h1, if_pos h2, if_pos h2]; rfl
      · rw [if_neg h1, if_neg h1, if_neg h2, if_neg h2]; rfl

theorem bne_t {x : Bits} (h : x ≠ 0) : (x != 0) = true := bne_iff_ne.2 h
theorem bne_f {x : Bits} (h : ¬ x ≠ 0) : (x != 0) = false := by
  have : x = 0 := Decidable.not_not.1 h
  rw [this]; rfl

theorem mask_read (b : Bits) : b.mask .read = (b &&& READ != 0) := rfl
theorem mask_write (b : Bits) : b.mask .write = (b &&& WRITE != 0) := rfl
theorem mask_edge (b : Bits) : b.mask .edge = (b &&& EDGE != 0) := rfl

theorem changes_isOpen (keep : Bool) (fail : Option (Nat × Int)) (fd : Int) : ∀ (cs : List (Filter × Act)) (i : Nat) (w : World),
    (changes keep fail fd cs i w).2.isOpen = w.isOpen := by
  intro cs
  induction cs with
  | nil => intro i w; rfl
  | cons c cs ih =>
    intro i w
    obtain ⟨f, a⟩ := c
    unfold changes
    split
    · rfl
    · split
      · rfl
      · rw [ih]
      · rw [ih]

theorem change_isOpen {e : Env} {cs : List (Filter × Act)} {old new : Bits} {f f' : Fdt} {w w' : World} {rc : Int}
    (h : change e cs old new f w = .ok (rc, w', f')) : w'.isOpen = w.isOpen := by
  unfold change at h
  simp only at h
  have : (kevent e f.fd cs w).2.isOpen = w.isOpen := by
    unfold kevent
    split
    · rfl
    · rw [changes_isOpen]
  generalize kevent e f.fd cs w = x at h this
  obtain ⟨b, w₁⟩ := x
  cases b with
  | true => cases h; exact this
  | false =>
    simp only at h this
    cases hm : cstr (e.strerror w₁.errno) 0 with
    | ub => rw [hm] at h; cases h
    | ok m =>
      rw [hm] at h
      simp only [Res.ok_bind, setErr] at h
      cases hp : pollErr (ctlText m) w₁.err with
      | ub => rw [hp] at h; cases h
      | ok er => rw [hp] at h; cases h; exact this

theorem add_isOpen {e : Env} {evs : Bits} {data : Nat} {f f' : Fdt} {w w' : World} {rc : Int}
    (h : add e evs data f w = .ok (rc, w', f')) : w'.isOpen = w.isOpen := by
  unfold add at h
  simp only at h
  split at h
  · cases h; rfl
  · exact change_isOpen h

theorem del_isOpen {e : Env} {evs : Bits} {data : Nat} {f f' : Fdt} {w w' : World} {rc : Int}
    (h : del e evs data f w = .ok (rc, w', f')) : w'.isOpen = w.isOpen := by
  unfold del at h
  simp only at h
  split at h
  · cases h; rfl
  · exact change_isOpen h

theorem add_facts {op evs : Bits} (hn : op ≠ EDGE) (h : op ≠ dropEdge (op ||| evs)) :
    (dropEdge (op ||| evs) &&& WRITE ≠ 0 ∨ dropEdge (op ||| evs) &&& READ ≠ 0) ∧
    (op &&& READ ≠ 0 → dropEdge (op ||| evs) &&& READ ≠ 0) ∧ (op &&& WRITE ≠ 0 → dropEdge (op ||| evs) &&& WRITE ≠ 0) := by
  revert op evs; decide

/-- One call of `sc_sock_poll_add`. -/
theorem add_ok {e : Env} (he : Laws e) (ht : Tame e) {evs : Bits} {data : Nat} {f : Fdt} {w : World} (hl : w.err.length = 128)
    (hg : Good w f) :
    ∃ rc w' f', add e evs data f w = .ok (rc, w', f') ∧ w'.wrong = w.wrong ∧ w'.err.length = 128 ∧ f'.fd = f.fd ∧ Good w' f' ∧
      (∀ x, x ≠ f.fd → w'.reg x = w.reg x) ∧
      (rc = 0 ∧ f'.op.mask = norm (f.op.mask.union evs.mask) ∧
        (f'.op = f.op ∧ w' = w ∨ f'.op ≠ f.op ∧ ∀ g c d, w'.reg f.fd g = some (c, d) → d = data) ∨
       rc = -1 ∧ f' = f ∧ Failed e w w') := by
  unfold add
  simp only
  by_cases h : f.op = dropEdge (f.op ||| evs)
  · rw [if_pos h]
    exact ⟨0, w, f, rfl, rfl, hl, rfl, hg, fun _ _ => rfl, .inl ⟨rfl, by rw [← mask_add, ← h], .inl ⟨rfl, rfl⟩⟩⟩
  · rw [if_neg h]
    obtain ⟨f1, f2, f3⟩ := add_facts hg.normal h
    have hadd : ∀ bit, addAct (dropEdge (f.op ||| evs)) bit data ≠ some .delete := by
      intro bit; unfold addAct; split <;> simp
    obtain ⟨rc, w', f', h1, h2⟩ := change_ok he ht (f := .write) (g := .read) (by decide) (addChanges_eq (dropEdge (f.op ||| evs)) data)
      (by
        rw [addChanges_eq]
        unfold addAct
        rcases f1 with f1 | f1
        · rw [if_pos f1]; simp
        · rw [if_pos f1]; simp)
      (new := dropEdge (f.op ||| evs)) (o := f) (w := w) (fun hc => absurd hc (hadd _)) (fun hc => absurd hc (hadd _)) hl hg.live
    refine ⟨rc, w', f', h1, ?_⟩
    rcases h2 with ⟨rfl, rfl, k0, k1, k2, k3, k4, k5⟩ | ⟨rfl, rfl, k1⟩
    · have hw := hg.waits
      have key : ∀ (bit : Bits) (old : Option (Bool × Nat)), (old.isSome = (f.op &&& bit != 0)) →
          (f.op &&& bit ≠ 0 → dropEdge (f.op ||| evs) &&& bit ≠ 0) →
          (Act.on (addAct (dropEdge (f.op ||| evs)) bit data) old).isSome = (dropEdge (f.op ||| evs) &&& bit != 0) ∧
          ∀ c d, Act.on (addAct (dropEdge (f.op ||| evs)) bit data) old = some (c, d) →
            c = (dropEdge (f.op ||| evs) &&& EDGE != 0) ∧ d = data := by
        intro bit old ho hi
        unfold addAct
        by_cases hb : dropEdge (f.op ||| evs) &&& bit ≠ 0
        · rw [if_pos hb]
          simp only [Act.on]
          exact ⟨by rw [bne_t hb]; rfl, fun c d hcd => by cases hcd; exact ⟨rfl, rfl⟩⟩
        · rw [if_neg hb]
          have h0 : ¬ f.op &&& bit ≠ 0 := fun hc => hb (hi hc)
          have : old = none := by
            cases old with
            | none => rfl
            | some _ => rw [bne_f h0] at ho; cases ho
          subst this
          simp only [Act.on]
          exact ⟨by rw [bne_f hb]; rfl, fun c d hcd => by cases hcd⟩
      obtain ⟨a1, a2⟩ := key READ _ (by rw [hw.read]; rfl) f2
      obtain ⟨b1, b2⟩ := key WRITE _ (by rw [hw.write]; rfl) f3
      rw [← k4] at a1 a2
      rw [← k3] at b1 b2
      refine ⟨k1, by rw [k2]; exact hl, rfl, ⟨by rw [k0]; exact hg.live, dropEdge_normal _, ⟨a1, b1, fun c d hc => (a2 c d hc).1, fun c d hc => (b2 c d hc).1⟩⟩, k5,
        .inl ⟨rfl, mask_add _ _, .inr ⟨fun hc => h hc.symm, ?_⟩⟩⟩
      intro g c d hd
      cases g with
      | read => exact (a2 c d hd).2
      | write => exact (b2 c d hd).2
    · refine ⟨k1.wrong, k1.len, rfl, ?_, fun x _ => by rw [k1.reg], .inr ⟨rfl, rfl, k1⟩⟩
      exact ⟨by rw [k1.isOpen]; exact hg.live, hg.normal, by rw [k1.reg]; exact hg.waits⟩

theorem del_facts {op evs : Bits} (hn : op ≠ EDGE) (h : op ≠ dropEdge (op &&& ~~~evs)) :
    ((op &&& evs) &&& WRITE ≠ 0 ∨ (op &&& evs) &&& READ ≠ 0 ∨
      ((op &&& evs) &&& EDGE ≠ 0 ∧ op &&& READ ≠ 0) ∨ ((op &&& evs) &&& EDGE ≠ 0 ∧ op &&& WRITE ≠ 0)) := by
  revert op evs; decide

theorem del_bit {op evs bit : Bits} (hb : bit = READ ∨ bit = WRITE) :
    ((op &&& evs) &&& bit ≠ 0 → op &&& bit ≠ 0 ∧ dropEdge (op &&& ~~~evs) &&& bit = 0) ∧
    ((op &&& evs) &&& bit = 0 → (dropEdge (op &&& ~~~evs) &&& bit != 0) = (op &&& bit != 0) ∧
      (op &&& bit ≠ 0 → (dropEdge (op &&& ~~~evs) &&& EDGE != 0) = (op &&& EDGE != 0 && !((op &&& evs) &&& EDGE != 0)))) := by
  revert op evs bit; decide

/-- One call of `sc_sock_poll_del`. -/
theorem del_ok {e : Env} (he : Laws e) (ht : Tame e) {evs : Bits} {data : Nat} {f : Fdt} {w : World} (hl : w.err.length = 128)
    (hg : Good w f) :
    ∃ rc w' f', del e evs data f w = .ok (rc, w', f') ∧ w'.wrong = w.wrong ∧ w'.err.length = 128 ∧ f'.fd = f.fd ∧ Good w' f' ∧
      (∀ x, x ≠ f.fd → w'.reg x = w.reg x) ∧
      (rc = 0 ∧ f'.op.mask = norm (f.op.mask.diff evs.mask) ∧
        (∀ g c d, w'.reg f.fd g = some (c, d) → d = data ∨ ∃ c', w.reg f.fd g = some (c', d)) ∨
       rc = -1 ∧ f' = f ∧ Failed e w w') := by
  unfold del
  simp only
  by_cases h : f.op = dropEdge (f.op &&& ~~~evs)
  · rw [if_pos h]
    exact ⟨0, w, f, rfl, rfl, hl, rfl, hg, fun _ _ => rfl, .inl ⟨rfl, by rw [← mask_del, ← h], fun g c d hd => .inr ⟨c, hd⟩⟩⟩
  · rw [if_neg h]
    have hw := hg.waits
    have hdel : ∀ bit, (bit = READ ∨ bit = WRITE) → ∀ old : Option (Bool × Nat), old.isSome = (f.op &&& bit != 0) →
        delAct f.op (f.op &&& evs) bit data = some .delete → old.isSome = true := by
      intro bit hbit old ho hd
      unfold delAct at hd
      split at hd
      · next hb => rw [ho]; exact bne_t ((del_bit hbit).1 hb).1
      · split at hd <;> simp at hd
    obtain ⟨rc, w', f', h1, h2⟩ := change_ok he ht (f := .read) (g := .write) (by decide)
      (delChanges_eq f.op (f.op &&& evs) data)
      (by
        rw [delChanges_eq]
        have : delAct f.op (f.op &&& evs) READ data ≠ none ∨ delAct f.op (f.op &&& evs) WRITE data ≠ none := by
          unfold delAct
          rcases del_facts hg.normal h with f1 | f1 | f1 | f1
          · right; rw [if_pos f1]; simp
          · left; rw [if_pos f1]; simp
          · left
            rw [if_pos f1]
            split <;> simp
          · right
            rw [if_pos f1]
            split <;> simp
        rcases this with h0 | h0
        · cases hh : delAct f.op (f.op &&& evs) READ data with
          | none => exact absurd hh h0
          | some a => simp
        · cases hh : delAct f.op (f.op &&& evs) WRITE data with
          | none => exact absurd hh h0
          | some a => simp)
      (new := dropEdge (f.op &&& ~~~evs)) (o := f) (w := w) (hdel READ (.inl rfl) _ (by rw [hw.read]; rfl))
      (hdel WRITE (.inr rfl) _ (by rw [hw.write]; rfl)) hl hg.live
    refine ⟨rc, w', f', h1, ?_⟩
    rcases h2 with ⟨rfl, rfl, k0, k1, k2, k3, k4, k5⟩ | ⟨rfl, rfl, k1⟩
    · have key : ∀ (bit : Bits), (bit = READ ∨ bit = WRITE) → ∀ (old : Option (Bool × Nat)), (old.isSome = (f.op &&& bit != 0)) →
          (∀ c d, old = some (c, d) → c = (f.op &&& EDGE != 0)) →
          (Act.on (delAct f.op (f.op &&& evs) bit data) old).isSome = (dropEdge (f.op &&& ~~~evs) &&& bit != 0) ∧
          ∀ c d, Act.on (delAct f.op (f.op &&& evs) bit data) old = some (c, d) →
            c = (dropEdge (f.op &&& ~~~evs) &&& EDGE != 0) ∧ (d = data ∨ ∃ c', old = some (c', d)) := by
        intro bit hbit old ho he'
        obtain ⟨d1, d2⟩ := del_bit (op := f.op) (evs := evs) hbit
        unfold delAct
        by_cases hb : (f.op &&& evs) &&& bit ≠ 0
        · rw [if_pos hb]
          simp only [Act.on]
          exact ⟨by rw [(d1 hb).2]; rfl, fun c d hcd => by cases hcd⟩
        · rw [if_neg hb]
          obtain ⟨d3, d4⟩ := d2 (Decidable.not_not.1 hb)
          by_cases hc : (f.op &&& evs) &&& EDGE ≠ 0 ∧ f.op &&& bit ≠ 0
          · rw [if_pos hc]
            simp only [Act.on]
            refine ⟨by rw [d3, bne_t hc.2]; rfl, fun c d hcd => ?_⟩
            cases hcd
            refine ⟨?_, .inl rfl⟩
            rw [d4 hc.2, bne_t hc.1]
            simp
          · rw [if_neg hc]
            simp only [Act.on]
            refine ⟨by rw [d3, ho], fun c d hcd => ⟨?_, .inr ⟨c, hcd⟩⟩⟩
            have hbit' : f.op &&& bit ≠ 0 := by rw [hcd] at ho; exact bne_iff_ne.1 ho.symm
            rw [he' c d hcd, d4 hbit']
            have : ¬ (f.op &&& evs) &&& EDGE ≠ 0 := fun hx => hc ⟨hx, hbit'⟩
            rw [bne_f this]
            simp
      obtain ⟨a1, a2⟩ := key READ (.inl rfl) _ (by rw [hw.read]; rfl) hw.edgeR
      obtain ⟨b1, b2⟩ := key WRITE (.inr rfl) _ (by rw [hw.write]; rfl) hw.edgeW
      rw [← k3] at a1 a2
      rw [← k4] at b1 b2
      refine ⟨k1, by rw [k2]; exact hl, rfl, ⟨by rw [k0]; exact hg.live, dropEdge_normal _, ⟨a1, b1, fun c d hc => (a2 c d hc).1, fun c d hc => (b2 c d hc).1⟩⟩, k5,
        .inl ⟨rfl, mask_del _ _, ?_⟩⟩
      intro g c d hd
      cases g with
      | read => exact (a2 c d hd).2
      | write => exact (b2 c d hd).2
    · refine ⟨k1.wrong, k1.len, rfl, ?_, fun x _ => by rw [k1.reg], .inr ⟨rfl, rfl, k1⟩⟩
      exact ⟨by rw [k1.isOpen]; exact hg.live, hg.normal, by rw [k1.reg]; exact hg.waits⟩

end Verif.Poll.Kqueue
