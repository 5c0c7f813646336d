import Verif.Poll.KqueueProps

/-!
# Sockets and pollers that come and go

Objects are opened, closed and opened again, by any of `sc_sock_connect`, `sc_sock_listen` and
`sc_sock_accept`, and the poller is destroyed and made again. This part is common to Linux, macOS and FreeBSD.
What the systems do follows epoll(7) and kqueue(2): a descriptor that is closed is no longer registered; an
open descriptor is not given out again. Descriptors are not duplicated, which the library never does.
-/

namespace Verif.Poll.Reuse

open Spec (Ev Mask norm nothing)
open Epoll (Fdt)

/-! ## What an application relies on -/

/-- What an application does -/
inductive Act where
  /-- `sc_sock_init` -/
  | init (i : Nat)
  /-- a descriptor was made for the object, in `sc_sock_connect` or `sc_sock_listen` -/
  | opened (i : Nat)
  /-- the object took a connection from `sc_sock_accept` -/
  | accepted (i : Nat)
  /-- `sc_sock_term` -/
  | closed (i : Nat)
  /-- `sc_sock_poll_term`, and then `sc_sock_poll_init` -/
  | renewed
  /-- `sc_sock_poll_add` -/
  | add (i : Nat) (evs : Mask)
  /-- `sc_sock_poll_del` -/
  | del (i : Nat) (evs : Mask)

/-- The object `i` now waits for `m`. -/
def put (σ : Spec.State) (i : Nat) (m : Mask) : Spec.State := fun j => if j = i then m else σ j

/-- What is to be waited for: closing an object and making a new poller forget what was asked for. -/
def dueStep (σ : Spec.State) : Act → Spec.State
  | .closed i => put σ i nothing
  | .renewed => Spec.start
  | .add i evs => put σ i (norm ((σ i).union evs))
  | .del i evs => put σ i (norm ((σ i).diff evs))
  | _ => σ

def due (l : List Act) : Spec.State := l.foldl dueStep Spec.start

/-- What was asked for and not taken back since the object was initialised or got a connection, whether it was closed or not -/
def keptStep (σ : Spec.State) : Act → Spec.State
  | .init i => put σ i nothing
  | .accepted i => put σ i nothing
  | .add i evs => put σ i (norm ((σ i).union evs))
  | .del i evs => put σ i (norm ((σ i).diff evs))
  | _ => σ

def kept (l : List Act) : Spec.State := l.foldl keptStep Spec.start

/-- Whether an object is open -/
def upStep (u : Nat → Bool) : Act → Nat → Bool
  | .opened i => fun j => if j = i then true else u j
  | .accepted i => fun j => if j = i then true else u j
  | .closed i => fun j => if j = i then false else u j
  | _ => u

def up (l : List Act) : Nat → Bool := l.foldl upStep (fun _ => false)

theorem due_snoc (l : List Act) (a : Act) : due (l ++ [a]) = dueStep (due l) a := by simp [due]
theorem kept_snoc (l : List Act) (a : Act) : kept (l ++ [a]) = keptStep (kept l) a := by simp [kept]
theorem up_snoc (l : List Act) (a : Act) : up (l ++ [a]) = upStep (up l) a := by simp [up]

/-- What an application has to see to: an object that is open is not opened again, registrations are for open objects,
and **an object that was closed, or whose poller was destroyed, while it was registered is initialised again**, or gets a
connection from `sc_sock_accept`, before it is registered or deregistered. -/
def Fit (l : List Act) : Act → Prop
  | .init i => up l i = false
  | .opened i => up l i = false
  | .accepted i => up l i = false
  | .closed _ => True
  | .renewed => True
  | .add i _ => up l i = true ∧ kept l i = due l i
  | .del i _ => kept l i = due l i

/-! ## What the library does -/

/-- The poller of a system: its registrations and which descriptors are open, the two calls, and what the system does when a
descriptor is made or closed and when the poller is destroyed and made again. -/
structure Backend where
  W : Type
  isOpen : W → Int → Bool
  /-- of this descriptor exactly this is waited for -/
  Waits : W → Int → Mask → Prop
  /-- no call was wrong, and there is room for texts -/
  Fine : W → Prop
  add : Bits → Nat → Fdt → W → Res (Int × W × Fdt)
  del : Bits → Nat → Fdt → W → Res (Int × W × Fdt)
  openFd : Int → W → W
  closeFd : Int → W → W
  renew : W → W

/-- A call does what `mask` says or fails and changes nothing. -/
structure Backend.Call (B : Backend) (call : Bits → Nat → Fdt → B.W → Res (Int × B.W × Fdt)) (mask : Mask → Mask → Mask) : Prop where
  ok : ∀ {w f} (evs data), B.Fine w → B.isOpen w f.fd = true → f.op.Normal → B.Waits w f.fd f.op.mask →
    ∃ rc w' f', call evs data f w = .ok (rc, w', f') ∧ B.Fine w' ∧ B.isOpen w' = B.isOpen w ∧ f'.fd = f.fd ∧ f'.op.Normal ∧
      B.Waits w' f.fd f'.op.mask ∧ (∀ x m, x ≠ f.fd → B.Waits w x m → B.Waits w' x m) ∧
      (rc = 0 ∧ f'.op.mask = mask f.op.mask evs.mask ∨ rc = -1 ∧ f' = f)

/-- What is assumed of the system, and proved of the calls -/
structure Backend.Laws (B : Backend) : Prop where
  add : B.Call B.add (fun m e => norm (m.union e))
  del : B.Call B.del (fun m e => norm (m.diff e))
  idle : ∀ {w f} (evs data), f.op = NONE → B.del evs data f w = .ok (0, w, f)
  openFine : ∀ {w fd}, B.Fine w → B.Fine (B.openFd fd w)
  openOpen : ∀ w fd x, B.isOpen (B.openFd fd w) x = if x = fd then true else B.isOpen w x
  openWaits : ∀ {w fd x m}, B.Waits w x m → B.Waits (B.openFd fd w) x m
  closeFine : ∀ {w fd}, B.Fine w → B.Fine (B.closeFd fd w)
  closeOpen : ∀ w fd x, B.isOpen (B.closeFd fd w) x = if x = fd then false else B.isOpen w x
  closeWaits : ∀ {w fd x m}, x ≠ fd → B.Waits w x m → B.Waits (B.closeFd fd w) x m
  closeNone : ∀ w fd, B.Waits (B.closeFd fd w) fd nothing
  renewFine : ∀ {w}, B.Fine w → B.Fine (B.renew w)
  renewOpen : ∀ w, B.isOpen (B.renew w) = B.isOpen w
  renewNone : ∀ w x, B.Waits (B.renew w) x nothing

/-- The system and all objects, by number -/
structure State (B : Backend) where
  w : B.W
  obj : Nat → Fdt

variable {B : Backend}

def State.set (σ : State B) (w : B.W) (i : Nat) (f : Fdt) : State B := ⟨w, fun j => if j = i then f else σ.obj j⟩

/-- `sc_sock_close`, socket/sc_sock.c:254-264, which is what `sc_sock_term`, 266-276, does. `op` stays as it is. -/
def close (f : Fdt) (w : B.W) : B.W × Fdt :=
  if f.fd ≠ -1 then (B.closeFd f.fd w, { f with fd := -1 }) else (w, f)

/-- One call; the flag tells whether it succeeded. -/
inductive Step : State B → Act → Bool → State B → Prop
  /-- `sc_sock_init`, socket/sc_sock.c:240-252 -/
  | init {σ i} : Step σ (.init i) true (σ.set σ.w i ⟨-1, NONE⟩)
  /-- `s->fdt.fd = fd`, socket/sc_sock.c:350, 382, 459, 558 -/
  | opened {σ i} (fd : Int) : 0 ≤ fd → B.isOpen σ.w fd = false →
    Step σ (.opened i) true (σ.set (B.openFd fd σ.w) i { σ.obj i with fd := fd })
  /-- socket/sc_sock.c:707-708 -/
  | accepted {σ i} (fd : Int) : 0 ≤ fd → B.isOpen σ.w fd = false →
    Step σ (.accepted i) true (σ.set (B.openFd fd σ.w) i ⟨fd, NONE⟩)
  | closed {σ i w f} : close (σ.obj i) σ.w = (w, f) → Step σ (.closed i) true (σ.set w i f)
  /-- `close(p->fds)`, socket/sc_sock.c:1155 and 1359, and `epoll_create1`, 1127, or `kqueue`, 1333: nothing is registered. -/
  | renewed {σ} : Step σ .renewed true ⟨B.renew σ.w, σ.obj⟩
  | add {σ i evs d rc w f} : B.add evs d (σ.obj i) σ.w = .ok (rc, w, f) → Step σ (.add i evs.mask) (rc == 0) (σ.set w i f)
  | del {σ i evs d rc w f} : B.del evs d (σ.obj i) σ.w = .ok (rc, w, f) → Step σ (.del i evs.mask) (rc == 0) (σ.set w i f)

/-- A history in which every call keeps the rules; the list has what succeeded. -/
inductive Runs (σ₀ : State B) : List Act → State B → Prop
  | refl : Runs σ₀ [] σ₀
  | step {l σ a b σ'} : Runs σ₀ l σ → Fit l a → Step σ a b σ' → Runs σ₀ (if b then l ++ [a] else l) σ'

/-- Nothing is registered, and the objects are initialised. -/
structure Start (σ : State B) : Prop where
  waits : ∀ fd, B.Waits σ.w fd nothing
  obj : ∀ i, σ.obj i = ⟨-1, NONE⟩
  minus : B.isOpen σ.w (-1) = false
  fine : B.Fine σ.w

/-! ## Proofs -/

structure Inv (σ : State B) (l : List Act) : Prop where
  live : ∀ i, up l i = true → B.isOpen σ.w (σ.obj i).fd = true
  dead : ∀ i, up l i = false → (σ.obj i).fd = -1
  normal : ∀ i, (σ.obj i).op.Normal
  op : ∀ i, (σ.obj i).op.mask = kept l i
  waits : ∀ i, up l i = true → B.Waits σ.w (σ.obj i).fd (due l i)
  gone : ∀ i, up l i = false → due l i = nothing
  inj : ∀ i j, up l i = true → up l j = true → (σ.obj i).fd = (σ.obj j).fd → i = j
  others : ∀ fd, (∀ i, up l i = true → (σ.obj i).fd ≠ fd) → B.Waits σ.w fd nothing
  minus : B.isOpen σ.w (-1) = false
  fine : B.Fine σ.w

theorem Inv.ne {σ : State B} {l : List Act} (h : Inv σ l) {i : Nat} (hu : up l i = true) : (σ.obj i).fd ≠ -1 := by
  intro hc
  have := h.live i hu
  rw [hc, h.minus] at this
  cases this

/-- A descriptor that is not open is not registered. -/
theorem Inv.unregistered {σ : State B} {l : List Act} (h : Inv σ l) {fd : Int} (hf : B.isOpen σ.w fd = false) : B.Waits σ.w fd nothing := by
  apply h.others
  intro i hu hc
  have := h.live i hu
  rw [hc, hf] at this
  cases this

theorem Inv.congr {σ : State B} {l l' : List Act} (h : Inv σ l) (hup : up l' = up l) (hdue : due l' = due l) (hkept : kept l' = kept l) :
    Inv σ l' :=
  ⟨by rw [hup]; exact h.live, by rw [hup]; exact h.dead, h.normal, by rw [hkept]; exact h.op, by rw [hup, hdue]; exact h.waits,
   by rw [hup, hdue]; exact h.gone, by rw [hup]; exact h.inj, by rw [hup]; exact h.others, h.minus, h.fine⟩

/-- A new descriptor for an object -/
theorem Inv.open (hB : B.Laws) {σ : State B} {l : List Act} (h : Inv σ l) {i : Nat} {a : Act} (ha : a = .opened i ∨ a = .accepted i)
    (hu : up l i = false) {fd : Int} (h0 : 0 ≤ fd) (hf : B.isOpen σ.w fd = false) {op : Bits} (hn : op.Normal)
    (ho : op.mask = kept (l ++ [a]) i) : Inv (σ.set (B.openFd fd σ.w) i ⟨fd, op⟩) (l ++ [a]) := by
  have hup : ∀ j, up (l ++ [a]) j = if j = i then true else up l j := by
    intro j; rw [up_snoc]; rcases ha with rfl | rfl <;> rfl
  have hdue : ∀ j, due (l ++ [a]) j = due l j := by
    intro j; rw [due_snoc]; rcases ha with rfl | rfl <;> rfl
  have hkept : ∀ j, j ≠ i → kept (l ++ [a]) j = kept l j := by
    intro j hj; rw [kept_snoc]; rcases ha with rfl | rfl <;> simp [keptStep, put, hj]
  have hreg := h.unregistered hf
  have hgone := h.gone i hu
  have hne : ∀ j, up l j = true → (σ.obj j).fd ≠ fd := by
    intro j hj hc
    have := h.live j hj
    rw [hc, hf] at this
    cases this
  have hnei : ∀ j, up l j = true → j ≠ i := by intro j hj hc; rw [hc, hu] at hj; cases hj
  refine ⟨?_, ?_, ?_, ?_, ?_, ?_, ?_, ?_, ?_, hB.openFine h.fine⟩
  · intro j hj
    rw [hup] at hj
    show B.isOpen (B.openFd fd σ.w) _ = true
    rw [hB.openOpen]
    by_cases hji : j = i
    · simp [State.set, hji]
    · rw [if_neg hji] at hj
      simp only [State.set, if_neg hji, if_neg (hne j hj)]
      exact h.live j hj
  · intro j hj
    rw [hup] at hj
    by_cases hji : j = i
    · rw [if_pos hji] at hj; cases hj
    · rw [if_neg hji] at hj
      simp only [State.set, if_neg hji]
      exact h.dead j hj
  · intro j
    by_cases hji : j = i
    · simp only [State.set, if_pos hji]; exact hn
    · simp only [State.set, if_neg hji]; exact h.normal j
  · intro j
    by_cases hji : j = i
    · subst hji; simp only [State.set, if_true]; exact ho
    · simp only [State.set, if_neg hji]; rw [hkept j hji]; exact h.op j
  · intro j hj
    rw [hdue]
    rw [hup] at hj
    by_cases hji : j = i
    · subst hji
      simp only [State.set, if_true, hgone]
      exact hB.openWaits hreg
    · rw [if_neg hji] at hj
      simp only [State.set, if_neg hji]
      exact hB.openWaits (h.waits j hj)
  · intro j hj
    rw [hdue]
    rw [hup] at hj
    by_cases hji : j = i
    · rw [if_pos hji] at hj; cases hj
    · rw [if_neg hji] at hj; exact h.gone j hj
  · intro j k hj hk
    rw [hup] at hj hk
    by_cases hji : j = i
    · by_cases hki : k = i
      · intro _; rw [hji, hki]
      · rw [if_neg hki] at hk
        simp only [State.set, if_pos hji, if_neg hki]
        intro hc
        exact absurd hc.symm (hne k hk)
    · rw [if_neg hji] at hj
      by_cases hki : k = i
      · simp only [State.set, if_pos hki, if_neg hji]
        intro hc
        exact absurd hc (hne j hj)
      · rw [if_neg hki] at hk
        simp only [State.set, if_neg hki, if_neg hji]
        exact h.inj j k hj hk
  · intro x hx
    apply hB.openWaits
    apply h.others
    intro j hj
    have := hx j (by rw [hup, if_neg (hnei j hj)]; exact hj)
    simpa only [State.set, if_neg (hnei j hj)] using this
  · show B.isOpen (B.openFd fd σ.w) (-1) = false
    rw [hB.openOpen, if_neg (by omega)]; exact h.minus

theorem set_self (σ : State B) (i : Nat) : σ.set σ.w i (σ.obj i) = σ := by
  unfold State.set
  congr 1
  funext j
  split <;> simp_all

/-- `sc_sock_close` -/
theorem Inv.close (hB : B.Laws) {σ : State B} {l : List Act} (h : Inv σ l) (i : Nat) {w : B.W} {f : Fdt}
    (hc : Reuse.close (σ.obj i) σ.w = (w, f)) : Inv (σ.set w i f) (l ++ [.closed i]) := by
  have hup : ∀ j, up (l ++ [.closed i]) j = if j = i then false else up l j := by
    intro j; rw [up_snoc]; rfl
  have hdue : ∀ j, due (l ++ [.closed i]) j = if j = i then nothing else due l j := by
    intro j; rw [due_snoc]; rfl
  have hkept : ∀ j, kept (l ++ [.closed i]) j = kept l j := by
    intro j; rw [kept_snoc]; rfl
  unfold Reuse.close at hc
  by_cases hu : up l i = true
  · rw [if_pos (h.ne hu)] at hc
    cases hc
    have hne : ∀ j, up l j = true → j ≠ i → (σ.obj j).fd ≠ (σ.obj i).fd := fun j hj hji hc => hji (h.inj j i hj hu hc)
    refine ⟨?_, ?_, ?_, ?_, ?_, ?_, ?_, ?_, ?_, hB.closeFine h.fine⟩
    · intro j hj
      rw [hup] at hj
      show B.isOpen (B.closeFd _ σ.w) _ = true
      rw [hB.closeOpen]
      by_cases hji : j = i
      · rw [if_pos hji] at hj; cases hj
      · rw [if_neg hji] at hj
        simp only [State.set, if_neg hji, if_neg (hne j hj hji)]
        exact h.live j hj
    · intro j hj
      rw [hup] at hj
      by_cases hji : j = i
      · simp only [State.set, if_pos hji]
      · rw [if_neg hji] at hj
        simp only [State.set, if_neg hji]
        exact h.dead j hj
    · intro j
      by_cases hji : j = i
      · simp only [State.set, if_pos hji]; exact h.normal i
      · simp only [State.set, if_neg hji]; exact h.normal j
    · intro j
      rw [hkept]
      by_cases hji : j = i
      · subst hji; simp only [State.set, if_true]; exact h.op j
      · simp only [State.set, if_neg hji]; exact h.op j
    · intro j hj
      rw [hup] at hj
      rw [hdue]
      by_cases hji : j = i
      · rw [if_pos hji] at hj; cases hj
      · rw [if_neg hji] at hj
        simp only [State.set, if_neg hji]
        exact hB.closeWaits (hne j hj hji) (h.waits j hj)
    · intro j hj
      rw [hup] at hj
      rw [hdue]
      by_cases hji : j = i
      · rw [if_pos hji]
      · rw [if_neg hji] at hj ⊢
        exact h.gone j hj
    · intro j k hj hk
      rw [hup] at hj hk
      by_cases hji : j = i
      · rw [if_pos hji] at hj; cases hj
      · by_cases hki : k = i
        · rw [if_pos hki] at hk; cases hk
        · rw [if_neg hji] at hj
          rw [if_neg hki] at hk
          simp only [State.set, if_neg hki, if_neg hji]
          exact h.inj j k hj hk
    · intro x hx
      show B.Waits (B.closeFd _ σ.w) x nothing
      by_cases hxe : x = (σ.obj i).fd
      · rw [hxe]; exact hB.closeNone _ _
      · apply hB.closeWaits hxe
        apply h.others
        intro j hj
        by_cases hji : j = i
        · rw [hji]; exact fun hc => hxe hc.symm
        · have := hx j (by rw [hup, if_neg hji]; exact hj)
          simpa only [State.set, if_neg hji] using this
    · show B.isOpen (B.closeFd _ σ.w) (-1) = false
      rw [hB.closeOpen]
      split
      · rfl
      · exact h.minus
  · have hu : up l i = false := by simpa using hu
    rw [if_neg (by rw [h.dead i hu]; simp)] at hc
    cases hc
    rw [set_self]
    have hup : up (l ++ [.closed i]) = up l := by
      funext j; rw [hup]; split
      · next hj => rw [hj, hu]
      · rfl
    have hdue : due (l ++ [.closed i]) = due l := by
      funext j; rw [hdue]; split
      · next hj => rw [hj, h.gone i hu]
      · rfl
    have hkept : kept (l ++ [.closed i]) = kept l := funext hkept
    exact h.congr hup hdue hkept

/-- `sc_sock_init` of an object that is closed -/
theorem Inv.init {σ : State B} {l : List Act} (h : Inv σ l) {i : Nat} (hu : up l i = false) :
    Inv (σ.set σ.w i ⟨-1, NONE⟩) (l ++ [.init i]) := by
  have hup : up (l ++ [.init i]) = up l := by rw [up_snoc]; rfl
  have hdue : due (l ++ [.init i]) = due l := by rw [due_snoc]; rfl
  have hkept : ∀ j, kept (l ++ [.init i]) j = if j = i then nothing else kept l j := by intro j; rw [kept_snoc]; rfl
  have hne : ∀ j, up l j = true → j ≠ i := by intro j hj hc; rw [hc, hu] at hj; cases hj
  have hobj : ∀ j, up l j = true → (σ.set σ.w i ⟨-1, NONE⟩).obj j = σ.obj j := by
    intro j hj; simp only [State.set, if_neg (hne j hj)]
  refine ⟨?_, ?_, ?_, ?_, ?_, ?_, ?_, ?_, h.minus, h.fine⟩
  · rw [hup]; intro j hj; rw [hobj j hj]; exact h.live j hj
  · rw [hup]; intro j hj
    simp only [State.set]
    split
    · rfl
    · exact h.dead j hj
  · intro j
    simp only [State.set]
    split
    · unfold Bits.Normal; decide
    · exact h.normal j
  · intro j
    rw [hkept]
    simp only [State.set]
    split
    · exact mask_none
    · exact h.op j
  · rw [hup, hdue]; intro j hj; rw [hobj j hj]; exact h.waits j hj
  · rw [hup, hdue]; exact h.gone
  · rw [hup]; intro j k hj hk; rw [hobj j hj, hobj k hk]; exact h.inj j k hj hk
  · rw [hup]; intro x hx
    apply h.others
    intro j hj
    have := hx j hj
    rwa [hobj j hj] at this

/-- A new poller -/
theorem Inv.renew (hB : B.Laws) {σ : State B} {l : List Act} (h : Inv σ l) : Inv ⟨B.renew σ.w, σ.obj⟩ (l ++ [.renewed]) := by
  have hup : up (l ++ [.renewed]) = up l := by rw [up_snoc]; rfl
  have hdue : due (l ++ [.renewed]) = Spec.start := by rw [due_snoc]; rfl
  have hkept : kept (l ++ [.renewed]) = kept l := by rw [kept_snoc]; rfl
  refine ⟨?_, by rw [hup]; exact h.dead, h.normal, by rw [hkept]; exact h.op, ?_, ?_, by rw [hup]; exact h.inj, ?_, ?_,
    hB.renewFine h.fine⟩
  · rw [hup]; intro j hj; show B.isOpen (B.renew σ.w) _ = true; rw [hB.renewOpen]; exact h.live j hj
  · rw [hdue]; intro j _; exact hB.renewNone _ _
  · rw [hdue]; intro j _; rfl
  · intro x hx; exact hB.renewNone _ _
  · show B.isOpen (B.renew σ.w) _ = false; rw [hB.renewOpen]; exact h.minus

/-- A call of one object leaves the others as they are. -/
theorem Inv.change {σ : State B} {l l' : List Act} (h : Inv σ l) {i : Nat} (hu : up l i = true) {w : B.W} {f : Fdt}
    (hf : f.fd = (σ.obj i).fd) (hw : B.Fine w) (hn : f.op.Normal) (hg : B.Waits w (σ.obj i).fd f.op.mask)
    (ho : ∀ x m, x ≠ (σ.obj i).fd → B.Waits σ.w x m → B.Waits w x m) (hp : B.isOpen w = B.isOpen σ.w) (hup : up l' = up l)
    (hdue : ∀ j, due l' j = if j = i then f.op.mask else due l j) (hkept : ∀ j, kept l' j = if j = i then f.op.mask else kept l j) :
    Inv (σ.set w i f) l' := by
  have hfd : ∀ j, ((σ.set w i f).obj j).fd = (σ.obj j).fd := by
    intro j
    simp only [State.set]
    split
    · next hj => rw [hj, hf]
    · rfl
  have hne : ∀ j, up l j = true → j ≠ i → (σ.obj j).fd ≠ (σ.obj i).fd := fun j hj hji hc => hji (h.inj j i hj hu hc)
  refine ⟨?_, ?_, ?_, ?_, ?_, ?_, ?_, ?_, ?_, hw⟩
  · rw [hup]; intro j hj; rw [hfd]; show B.isOpen w _ = true; rw [hp]; exact h.live j hj
  · rw [hup]; intro j hj; rw [hfd]; exact h.dead j hj
  · intro j
    simp only [State.set]
    split
    · exact hn
    · exact h.normal j
  · intro j
    rw [hkept]
    simp only [State.set]
    split
    · rfl
    · exact h.op j
  · rw [hup]
    intro j hj
    rw [hfd, hdue]
    show B.Waits w _ _
    split
    · next hji => rw [hji]; exact hg
    · next hji => exact ho _ _ (hne j hj hji) (h.waits j hj)
  · rw [hup]
    intro j hj
    rw [hdue, if_neg (by intro hc; rw [hc, hu] at hj; cases hj)]
    exact h.gone j hj
  · rw [hup]; intro j k; rw [hfd, hfd]; exact h.inj j k
  · rw [hup]
    intro x hx
    have hx : ∀ j, up l j = true → (σ.obj j).fd ≠ x := fun j hj => by have := hx j hj; rwa [hfd] at this
    exact ho _ _ (hx i hu).symm (h.others x hx)
  · show B.isOpen w (-1) = false
    rw [hp]; exact h.minus

/-- A call that the rules allow -/
theorem Inv.call {call : Bits → Nat → Fdt → B.W → Res (Int × B.W × Fdt)} {mask : Mask → Mask → Mask} (hC : B.Call call mask)
    {σ : State B} {l : List Act} (h : Inv σ l) {i : Nat} (hu : up l i = true) (hk : kept l i = due l i) {evs : Bits} {d : Nat} {rc : Int}
    {w : B.W} {f : Fdt} (hr : call evs d (σ.obj i) σ.w = .ok (rc, w, f)) {a : Act} (hup : up (l ++ [a]) = up l)
    (hdue : due (l ++ [a]) = put (due l) i (mask (due l i) evs.mask)) (hkept : kept (l ++ [a]) = put (kept l) i (mask (kept l i) evs.mask)) :
    Inv (σ.set w i f) (if rc == 0 then l ++ [a] else l) ∧ (rc = 0 ∨ rc = -1) := by
  obtain ⟨rc', w', f', h1, h2, h3, h4, h5, h6, h7, h8⟩ := hC.ok evs d h.fine (h.live i hu) (h.normal i)
    (by rw [h.op, hk]; exact h.waits i hu)
  rw [h1] at hr
  cases hr
  have key := fun l' => h.change (l' := l') hu h4 h2 h5 h6 h7 h3
  rcases h8 with ⟨rfl, h8⟩ | ⟨rfl, rfl⟩
  · refine ⟨?_, .inl rfl⟩
    apply key
    · exact hup
    · intro j
      show due (l ++ [a]) j = _
      rw [hdue, h8, h.op, hk]; rfl
    · intro j
      show kept (l ++ [a]) j = _
      rw [hkept, h8, h.op]; rfl
  · refine ⟨?_, .inr rfl⟩
    apply key
    · rfl
    · intro j
      show due l j = _
      rw [h.op, hk]; split
      · next hj => rw [hj]
      · rfl
    · intro j
      show kept l j = _
      rw [h.op]; split
      · next hj => rw [hj]
      · rfl

theorem step_ok (hB : B.Laws) {σ σ' : State B} {l : List Act} (h : Inv σ l) {a : Act} {b : Bool} (hp : Fit l a)
    (hs : Step σ a b σ') : Inv σ' (if b then l ++ [a] else l) := by
  cases hs with
  | init => exact h.init hp
  | @opened i fd h0 hf =>
    exact h.open hB (.inl rfl) hp h0 hf (h.normal _) (by rw [h.op, kept_snoc]; rfl)
  | @accepted i fd h0 hf =>
    refine h.open hB (.inr rfl) hp h0 hf (by unfold Bits.Normal; decide) ?_
    rw [kept_snoc]
    show _ = if i = i then nothing else _
    rw [if_pos rfl]
    exact mask_none
  | closed hc => exact h.close hB _ hc
  | renewed => exact h.renew hB
  | @add i evs d rc w f hr =>
    exact (h.call hB.add hp.1 hp.2 hr (by rw [up_snoc]; rfl) (by rw [due_snoc]; rfl) (by rw [kept_snoc]; rfl)).1
  | @del i evs d rc w f hr =>
    have hk : kept l i = due l i := hp
    by_cases hu : up l i = true
    · exact (h.call hB.del hu hk hr (by rw [up_snoc]; rfl) (by rw [due_snoc]; rfl) (by rw [kept_snoc]; rfl)).1
    · have hu : up l i = false := by simpa using hu
      have h0 : (σ.obj i).op = NONE := mask_inj (by rw [h.op, hk, h.gone i hu, mask_none])
      rw [hB.idle evs d h0] at hr
      cases hr
      rw [set_self]
      have hd : norm ((due l i).diff evs.mask) = due l i := by
        rw [h.gone i hu]; rfl
      refine h.congr ?_ ?_ ?_
      · show up (l ++ [_]) = _
        rw [up_snoc]; rfl
      · show due (l ++ [_]) = _
        rw [due_snoc]
        funext j
        show (if j = i then norm ((due l i).diff evs.mask) else due l j) = _
        rw [hd]; split
        · next hj => rw [hj]
        · rfl
      · show kept (l ++ [_]) = _
        rw [kept_snoc]
        funext j
        show (if j = i then norm ((kept l i).diff evs.mask) else kept l j) = _
        rw [hk, hd, ← hk]; split
        · next hj => rw [hj]
        · rfl

theorem run_ok (hB : B.Laws) {σ₀ σ : State B} (h0 : Start σ₀) {l : List Act} (r : Runs σ₀ l σ) : Inv σ l := by
  induction r with
  | refl =>
    refine ⟨(fun i hi => by cases hi), (fun i _ => by rw [h0.obj]), ?_, ?_, (fun i hi => by cases hi),
      fun i _ => rfl, (fun i j hi => by cases hi), fun fd _ => h0.waits fd, h0.minus, h0.fine⟩
    · intro i; rw [h0.obj]; unfold Bits.Normal; decide
    · intro i; rw [h0.obj]; exact mask_none
  | step r hp hs ih => exact step_ok hB ih hp hs

/-- What every history in which the rules are kept leads to -/
theorem reuse (hB : B.Laws) {σ₀ σ : State B} (h0 : Start σ₀) {l : List Act} (r : Runs σ₀ l σ) :
    B.Fine σ.w ∧ (∀ i, up l i = true → B.Waits σ.w (σ.obj i).fd (due l i)) ∧
    (∀ fd, (∀ i, up l i = true → (σ.obj i).fd ≠ fd) → B.Waits σ.w fd nothing) := by
  have h := run_ok hB h0 r
  exact ⟨h.fine, h.waits, h.others⟩

/-- An object that is closed and opened again while registered -/
theorem reopened (hB : B.Laws) {σ₀ σ σ₁ σ₂ : State B} (h0 : Start σ₀) {l : List Act} (r : Runs σ₀ l σ) {i : Nat}
    (s1 : Step σ (.closed i) true σ₁) (s2 : Step σ₁ (.opened i) true σ₂) :
    B.Fine σ₂.w ∧ B.isOpen σ₂.w (σ₂.obj i).fd = true ∧ (σ₂.obj i).op.Normal ∧ (σ₂.obj i).op.mask = kept l i ∧
      B.Waits σ₂.w (σ₂.obj i).fd nothing := by
  have h := run_ok hB h0 r
  cases s1 with
  | @closed _ w f hc =>
    have h1 := h.close hB i hc
    cases s2 with
    | @opened _ fd hf hfd =>
      have h2 := h1.open hB (i := i) (.inl rfl) (by rw [up_snoc]; simp [upStep]) hf hfd (op := ((σ.set w i f).obj i).op) (h1.normal i)
        (by rw [h1.op, kept_snoc _ (.opened i)]; rfl)
      have hu : up (l ++ [.closed i] ++ [.opened i]) i = true := by rw [up_snoc]; simp [upStep]
      have hd : due (l ++ [.closed i] ++ [.opened i]) i = nothing := by
        rw [due_snoc, due_snoc]
        show (if i = i then nothing else _) = _
        rw [if_pos rfl]
      have hk : kept (l ++ [.closed i] ++ [.opened i]) i = kept l i := by rw [kept_snoc, kept_snoc]; rfl
      exact ⟨h2.fine, h2.live i hu, h2.normal i, by rw [← hk]; exact h2.op i, by rw [← hd]; exact h2.waits i hu⟩

/-- An object that is registered when its poller is destroyed -/
theorem renewed (hB : B.Laws) {σ₀ σ σ₁ : State B} (h0 : Start σ₀) {l : List Act} (r : Runs σ₀ l σ) {i : Nat}
    (hu : up l i = true) (s1 : Step σ .renewed true σ₁) :
    B.Fine σ₁.w ∧ B.isOpen σ₁.w (σ₁.obj i).fd = true ∧ (σ₁.obj i).op.Normal ∧ (σ₁.obj i).op.mask = kept l i ∧
      B.Waits σ₁.w (σ₁.obj i).fd nothing := by
  have h := run_ok hB h0 r
  cases s1 with
  | renewed =>
    have h1 := h.renew hB
    have hk : kept (l ++ [.renewed]) i = kept l i := by rw [kept_snoc]; rfl
    exact ⟨h1.fine, h1.live i (by rw [up_snoc]; exact hu), h1.normal i, by rw [← hk]; exact h1.op i, hB.renewNone _ _⟩

theorem sub_add {a b : Bits} (hn : a.Normal) (h : ∀ x, b.mask x = true → a.mask x = true) : a = dropEdge (a ||| b) := by
  have h1 := h .read
  have h2 := h .write
  have h3 := h .edge
  clear h
  unfold Bits.Normal at hn
  revert hn h1 h2 h3
  revert a b
  decide

theorem Runs.ok {σ₀ σ σ' : State B} {l : List Act} (r : Runs σ₀ l σ) (a : Act) (hp : Fit l a) (hs : Step σ a true σ') :
    Runs σ₀ (l ++ [a]) σ' := .step r hp hs

end Verif.Poll.Reuse
