import Verif.Poll.Reuse

/-!
# Sockets and pollers that come and go: Linux, and macOS and FreeBSD
-/

namespace Verif.Poll.Reuse.Linux

open Spec (Ev Mask norm nothing)
open Epoll (Env World Laws Alert Good Fdt Ctl ENOENT view ctl change add_ok del_ok add_isOpen del_isOpen and_none setErr_ok ctlText_nonzero calm calm_laws)

/-- The system waits for this of a descriptor, and reports errors and hangups if it waits for anything. -/
structure Waits (r : Option (BitVec 32 × Nat)) (m : Mask) : Prop where
  view : view r = m
  alert : Alert r
  none : r = none ↔ m = nothing

/-- The poller for Linux. A descriptor that is closed is no longer registered, epoll(7); nothing is registered with a new epoll
descriptor, socket/sc_sock.c:1127 and 1155. -/
def linux (e : Env) : Backend where
  W := World
  isOpen := World.isOpen
  Waits w fd m := Waits (w.reg fd) m
  Fine w := w.wrong = false ∧ w.err.length = 128
  add := Epoll.add e
  del := Epoll.del e
  openFd fd w := { w with isOpen := fun x => if x = fd then true else w.isOpen x }
  closeFd fd w := { w with isOpen := fun x => if x = fd then false else w.isOpen x, reg := fun x => if x = fd then none else w.reg x }
  renew w := { w with reg := fun _ => none }

theorem waits_none : Waits none nothing := ⟨rfl, (fun _ _ h => by cases h), by simp⟩

theorem op_none {f : Fdt} : f.op = NONE ↔ f.op.mask = nothing :=
  ⟨fun h => by rw [h, mask_none], fun h => mask_inj (by rw [h, mask_none])⟩

theorem good {w : World} {f : Fdt} (h1 : w.isOpen f.fd = true) (h2 : f.op.Normal) (h3 : Waits (w.reg f.fd) f.op.mask) : Good w f :=
  ⟨h1, h2, op_none.trans h3.none.symm, h3.view, h3.alert⟩

theorem linux_laws {e : Env} (he : Laws e) : (linux e).Laws where
  add := ⟨by
    intro w f evs data hf ho hn hw
    obtain ⟨rc, w', f', h1, h2, h3, h4, h5, h6, h7⟩ := add_ok he (evs := evs) (data := data) hf.2 (good ho hn hw)
    refine ⟨rc, w', f', h1, ⟨h2.trans hf.1, h3⟩, add_isOpen h1, h4, h5.normal, ?_, ?_, ?_⟩
    · show Waits (w'.reg f.fd) _
      rw [← h4]
      exact ⟨h5.view, h5.alert, h5.none.symm.trans op_none⟩
    · intro x m hx hw'
      show Waits (w'.reg x) _
      rw [h6 x hx]; exact hw'
    · rcases h7 with ⟨rfl, h7, -⟩ | ⟨rfl, h7, -⟩
      · exact .inl ⟨rfl, h7⟩
      · exact .inr ⟨rfl, h7⟩⟩
  del := ⟨by
    intro w f evs data hf ho hn hw
    obtain ⟨rc, w', f', h1, h2, h3, h4, h5, h6, h7⟩ := del_ok he (evs := evs) (data := data) hf.2 (good ho hn hw)
    refine ⟨rc, w', f', h1, ⟨h2.trans hf.1, h3⟩, del_isOpen h1, h4, h5.normal, ?_, ?_, ?_⟩
    · show Waits (w'.reg f.fd) _
      rw [← h4]
      exact ⟨h5.view, h5.alert, h5.none.symm.trans op_none⟩
    · intro x m hx hw'
      show Waits (w'.reg x) _
      rw [h6 x hx]; exact hw'
    · rcases h7 with ⟨rfl, h7, -⟩ | ⟨rfl, h7, -⟩
      · exact .inl ⟨rfl, h7⟩
      · exact .inr ⟨rfl, h7⟩⟩
  idle := by
    intro w f evs data h
    show Epoll.del e evs data f w = _
    unfold Epoll.del
    simp only
    rw [if_pos (by rw [and_none h]; exact h)]
    rfl
  openFine := id
  openOpen := fun _ _ _ => rfl
  openWaits := id
  closeFine := id
  closeOpen := fun _ _ _ => rfl
  closeWaits := by
    intro w fd x m hx h
    show Waits (if x = fd then none else w.reg x) m
    rw [if_neg hx]; exact h
  closeNone := by
    intro w fd
    show Waits (if fd = fd then none else w.reg fd) nothing
    rw [if_pos rfl]; exact waits_none
  renewFine := id
  renewOpen := fun _ => rfl
  renewNone := fun _ _ => waits_none

/-- **C108**, in part, on Linux: however objects are opened, closed and opened again, and the poller is destroyed and made again, as long as
objects that were closed, or whose poller was destroyed, while registered are initialised before they are registered again, the system waits for
exactly what was asked for since, with errors and hangups, no call is wrong and nothing else is registered.
Missing: objects that are not initialised again, see `reopened_violated` and `renewed_violated`. -/
theorem reuse_partial {e : Env} (he : Laws e) {σ₀ σ : State (linux e)} (h0 : Start σ₀) {l : List Act} (r : Runs σ₀ l σ) :
    σ.w.wrong = false ∧
    (∀ i, up l i = true → view (σ.w.reg (σ.obj i).fd) = due l i ∧ Alert (σ.w.reg (σ.obj i).fd) ∧
      (σ.w.reg (σ.obj i).fd = none ↔ due l i = nothing)) ∧
    (∀ fd, (∀ i, up l i = true → (σ.obj i).fd ≠ fd) → σ.w.reg fd = none) := by
  obtain ⟨h1, h2, h3⟩ := Reuse.reuse (linux_laws he) h0 r
  refine ⟨h1.1, fun i hi => ?_, fun fd hf => (Waits.none (h3 fd hf)).2 rfl⟩
  have := h2 i hi
  exact ⟨Waits.view this, Waits.alert this, Waits.none this⟩

/-- An object that has not forgotten what it was registered for, with a descriptor that is not registered -/
structure Stale (w : World) (f : Fdt) : Prop where
  op : f.op ≠ NONE
  normal : f.op.Normal
  live : w.isOpen f.fd = true
  reg : w.reg f.fd = none

theorem change_stale {e : Env} (he : Laws e) {op : Ctl} (hop : op ≠ .add) {new : Bits} {data : Nat} {f : Fdt} {w : World}
    (hl : w.err.length = 128) (hs : Stale w f) :
    ∃ w', change e op f.op new data f w = .ok (-1, w', f) ∧ w'.reg = w.reg ∧ w'.isOpen = w.isOpen ∧ w'.err.length = 128 := by
  obtain ⟨t, ht⟩ := he.texts ENOENT
  obtain ⟨err, h1, h2, h3⟩ := setErr_ok (ctlText_nonzero ht.nonzero) (w := { w with errno := ENOENT, n := w.n + 1, wrong := true }) hl
  unfold change ctl
  have hlive : ¬ (!w.isOpen f.fd) = true := by rw [hs.live]; decide
  simp only
  rw [if_neg hlive, hs.reg]
  cases op with
  | add => exact absurd rfl hop
  | mod =>
    simp only
    rw [cstr_eq ht]
    simp only [Res.ok_bind]
    rw [h1]
    exact ⟨_, rfl, rfl, rfl, h2⟩
  | del =>
    simp only
    rw [cstr_eq ht]
    simp only [Res.ok_bind]
    rw [h1]
    exact ⟨_, rfl, rfl, rfl, h2⟩

/-- It can never be registered... -/
theorem stale_add {e : Env} (he : Laws e) {f : Fdt} {w : World} (hl : w.err.length = 128) (hs : Stale w f) (evs : Bits) (data : Nat) :
    ∃ rc w', Epoll.add e evs data f w = .ok (rc, w', f) ∧ w'.reg f.fd = none ∧
      (rc = 0 ↔ norm (f.op.mask.union evs.mask) = f.op.mask) ∧ Stale w' f ∧ w'.err.length = 128 := by
  unfold Epoll.add
  simp only
  by_cases h : f.op = dropEdge (f.op ||| evs)
  · rw [if_pos h]
    exact ⟨0, w, rfl, hs.reg, by rw [← mask_add, ← h]; simp, hs, hl⟩
  · rw [if_neg h, if_neg hs.op]
    obtain ⟨w', h1, h2, h3, h4⟩ := change_stale he (op := .mod) (by decide) (new := dropEdge (f.op ||| evs)) (data := data) hl hs
    refine ⟨-1, w', h1, by rw [h2]; exact hs.reg, ?_, ⟨hs.op, hs.normal, by rw [h3]; exact hs.live, by rw [h2]; exact hs.reg⟩, h4⟩
    constructor
    · intro hc; cases hc
    · intro hc; rw [← mask_add] at hc; exact absurd (mask_inj hc).symm h

/-- ... and cannot be deregistered. -/
theorem stale_del {e : Env} (he : Laws e) {f : Fdt} {w : World} (hl : w.err.length = 128) (hs : Stale w f) (evs : Bits) (data : Nat) :
    ∃ rc w', Epoll.del e evs data f w = .ok (rc, w', f) ∧ w'.reg f.fd = none ∧
      (rc = 0 ↔ norm (f.op.mask.diff evs.mask) = f.op.mask) ∧ Stale w' f ∧ w'.err.length = 128 := by
  unfold Epoll.del
  simp only
  by_cases h : f.op = dropEdge (f.op &&& ~~~evs)
  · rw [if_pos h]
    exact ⟨0, w, rfl, hs.reg, by rw [← mask_del, ← h]; simp, hs, hl⟩
  · rw [if_neg h]
    obtain ⟨w', h1, h2, h3, h4⟩ := change_stale he (op := if dropEdge (f.op &&& ~~~evs) = NONE then .del else .mod) (by split <;> decide)
      (new := dropEdge (f.op &&& ~~~evs)) (data := data) hl hs
    refine ⟨-1, w', h1, by rw [h2]; exact hs.reg, ?_, ⟨hs.op, hs.normal, by rw [h3]; exact hs.live, by rw [h2]; exact hs.reg⟩, h4⟩
    constructor
    · intro hc; cases hc
    · intro hc; rw [← mask_del] at hc; exact absurd (mask_inj hc).symm h

/-- Requests for one object, one after the other -/
inductive Asks (e : Env) (f₀ : Fdt) (w₀ : World) : Fdt → World → Prop
  | refl : Asks e f₀ w₀ f₀ w₀
  | add {f w evs d rc w' f'} : Asks e f₀ w₀ f w → Epoll.add e evs d f w = .ok (rc, w', f') → Asks e f₀ w₀ f' w'
  | del {f w evs d rc w' f'} : Asks e f₀ w₀ f w → Epoll.del e evs d f w = .ok (rc, w', f') → Asks e f₀ w₀ f' w'

theorem stale_asks {e : Env} (he : Laws e) {f₀ f : Fdt} {w₀ w : World} (hl : w₀.err.length = 128) (hs : Stale w₀ f₀) (r : Asks e f₀ w₀ f w) :
    f = f₀ ∧ Stale w f ∧ w.err.length = 128 := by
  induction r with
  | refl => exact ⟨rfl, hs, hl⟩
  | add r h ih =>
    obtain ⟨rfl, h1, h2⟩ := ih
    obtain ⟨_, _, h3, -, -, h4, h5⟩ := stale_add he h2 h1 _ _
    rw [h3] at h
    cases h
    exact ⟨rfl, h4, h5⟩
  | del r h ih =>
    obtain ⟨rfl, h1, h2⟩ := ih
    obtain ⟨_, _, h3, -, -, h4, h5⟩ := stale_del he h2 h1 _ _
    rw [h3] at h
    cases h
    exact ⟨rfl, h4, h5⟩

/-- **C108 is violated** on Linux by every object that is closed while it is registered and opened again: whatever is asked for from then on,
nothing is waited for, and to ask again for what was registered before succeeds. -/
theorem reopened_violated {e : Env} (he : Laws e) {σ₀ σ σ₁ σ₂ : State (linux e)} (h0 : Start σ₀) {l : List Act} (r : Runs σ₀ l σ)
    {i : Nat} (hk : kept l i ≠ nothing) (s1 : Step σ (.closed i) true σ₁) (s2 : Step σ₁ (.opened i) true σ₂) :
    (∀ f w, Asks e (σ₂.obj i) σ₂.w f w → w.reg (σ₂.obj i).fd = none) ∧
    ∀ evs d, (∀ x, Bits.mask evs x = true → kept l i x = true) → Epoll.add e evs d (σ₂.obj i) σ₂.w = .ok (0, σ₂.w, σ₂.obj i) := by
  obtain ⟨h1, h2, h3, h4, h5⟩ := Reuse.reopened (linux_laws he) h0 r s1 s2
  have hs : Stale σ₂.w (σ₂.obj i) := ⟨fun hc => hk (by rw [← h4]; exact op_none.1 hc), h3, h2, (Waits.none h5).2 rfl⟩
  refine ⟨?_, ?_⟩
  · intro f w ra
    obtain ⟨rfl, h6, -⟩ := stale_asks he h1.2 hs ra
    exact h6.reg
  · intro evs d hsub
    unfold Epoll.add
    simp only
    rw [if_pos (Reuse.sub_add h3 (by rw [h4]; exact hsub))]

/-- **C108 is violated** on Linux by every object that is registered when its poller is destroyed: a new poller never waits for it, though
asking for the same again succeeds. -/
theorem renewed_violated {e : Env} (he : Laws e) {σ₀ σ σ₁ : State (linux e)} (h0 : Start σ₀) {l : List Act} (r : Runs σ₀ l σ)
    {i : Nat} (hu : up l i = true) (hk : kept l i ≠ nothing) (s1 : Step σ .renewed true σ₁) :
    (∀ f w, Asks e (σ₁.obj i) σ₁.w f w → w.reg (σ₁.obj i).fd = none) ∧
    ∀ evs d, (∀ x, Bits.mask evs x = true → kept l i x = true) → Epoll.add e evs d (σ₁.obj i) σ₁.w = .ok (0, σ₁.w, σ₁.obj i) := by
  obtain ⟨h1, h2, h3, h4, h5⟩ := Reuse.renewed (linux_laws he) h0 r hu s1
  have hs : Stale σ₁.w (σ₁.obj i) := ⟨fun hc => hk (by rw [← h4]; exact op_none.1 hc), h3, h2, (Waits.none h5).2 rfl⟩
  refine ⟨?_, ?_⟩
  · intro f w ra
    obtain ⟨rfl, h6, -⟩ := stale_asks he h1.2 hs ra
    exact h6.reg
  · intro evs d hsub
    unfold Epoll.add
    simp only
    rw [if_pos (Reuse.sub_add h3 (by rw [h4]; exact hsub))]

/-! ## A run -/

/-- An object that is opened, registered and closed, and then initialised, opened and registered again -/
def example_acts : List Act := [.opened 0, .add 0 READ.mask, .closed 0, .init 0, .opened 0, .add 0 WRITE.mask]

def zero : State (linux calm) :=
  ⟨⟨fun _ => none, fun fd => decide (fd = 0), 0, 0, false, List.replicate 128 0⟩, fun _ => ⟨-1, NONE⟩⟩

theorem zero_start : Start zero := ⟨fun _ => waits_none, fun _ => rfl, rfl, ⟨rfl, rfl⟩⟩

/-- A call that the system does not refuse -/
theorem grant {l : List Act} {σ : State (linux calm)} (h : Inv σ l) {i : Nat} {evs : Bits} (hp : Fit l (.add i evs.mask)) :
    ∃ σ', Step σ (.add i evs.mask) true σ' ∧ σ'.w.isOpen = σ.w.isOpen := by
  obtain ⟨rc, w, f, h1, -, -, h2, -, -, h3⟩ := add_ok calm_laws (evs := evs) (data := 1) h.fine.2
    (good (h.live i hp.1) (h.normal i) (by rw [h.op, hp.2]; exact h.waits i hp.1))
  rcases h3 with ⟨rfl, -⟩ | ⟨-, -, h3⟩
  · exact ⟨σ.set w i f, Step.add (B := linux calm) (rc := 0) (d := 1) (evs := evs) h1, add_isOpen h1⟩
  · exact absurd h3.cause (by simp [calm])

/-- The rules can be kept, and what is waited for in the end is output only. -/
theorem example_run : ∃ σ, Runs zero example_acts σ ∧ view (σ.w.reg (σ.obj 0).fd) = WRITE.mask := by
  have r1 := (Runs.refl (σ₀ := zero)).ok (.opened 0) rfl (.opened 5 (by decide) rfl)
  obtain ⟨σ₂, s2, o2⟩ := grant (Reuse.run_ok (linux_laws calm_laws) zero_start r1) (i := 0) (evs := READ) ⟨rfl, rfl⟩
  have r2 := r1.ok (.add 0 READ.mask) ⟨rfl, rfl⟩ s2
  cases hc : Reuse.close (σ₂.obj 0) σ₂.w with
  | mk w f =>
    have r3 := r2.ok (.closed 0) trivial (.closed hc)
    have r4 := r3.ok (.init 0) rfl .init
    have hw : w.isOpen 6 = false := by
      have : w.isOpen 6 = σ₂.w.isOpen 6 ∨ w.isOpen 6 = false := by
        unfold Reuse.close at hc
        split at hc
        · cases hc
          simp only [linux]
          split
          · exact .inr rfl
          · exact .inl rfl
        · cases hc; exact .inl rfl
      rcases this with h | h
      · rw [h, o2]; rfl
      · exact h
    have r5 := r4.ok (.opened 0) rfl (.opened 6 (by decide) hw)
    obtain ⟨σ₆, s6, -⟩ := grant (Reuse.run_ok (linux_laws calm_laws) zero_start r5) (i := 0) (evs := WRITE)
      ⟨rfl, by funext x; cases x <;> decide⟩
    have r6 := r5.ok (.add 0 WRITE.mask) ⟨rfl, by funext x; cases x <;> decide⟩ s6
    refine ⟨σ₆, r6, ?_⟩
    rw [((reuse_partial calm_laws zero_start r6).2.1 0 rfl).1]
    funext x; cases x <;> decide

end Verif.Poll.Reuse.Linux

namespace Verif.Poll.Reuse.Bsd

open Spec (Ev Mask norm nothing)
open Epoll (Fdt ENOENT)
open Kqueue (Env World Laws Tame Waits' Filter delChanges changes kevent change add_ok del_ok add_isOpen del_isOpen setErr_ok ctlText_nonzero calm calm_laws calm_tame)

/-- The poller for macOS and FreeBSD. The filters of a descriptor that is closed are removed, kqueue(2); nothing is registered with a new
queue, socket/sc_sock.c:1333 and 1359. -/
def bsd (e : Env) : Backend where
  W := World
  isOpen := World.isOpen
  Waits w fd m := Waits' (w.reg fd .read) (w.reg fd .write) m
  Fine w := w.wrong = false ∧ w.err.length = 128
  add := Kqueue.add e
  del := Kqueue.del e
  openFd fd w := { w with isOpen := fun x => if x = fd then true else w.isOpen x }
  closeFd fd w := { w with isOpen := fun x => if x = fd then false else w.isOpen x, reg := fun x => if x = fd then fun _ => none else w.reg x }
  renew w := { w with reg := fun _ _ => none }

theorem waits_none : Waits' none none nothing := ⟨rfl, rfl, (fun _ _ h => by cases h), (fun _ _ h => by cases h)⟩

theorem bsd_laws {e : Env} (he : Laws e) (ht : Tame e) : (bsd e).Laws where
  add := ⟨by
    intro w f evs data hf ho hn hw
    obtain ⟨rc, w', f', h1, h2, h3, h4, h5, h6, h7⟩ := add_ok he ht (evs := evs) (data := data) hf.2 ⟨ho, hn, hw⟩
    refine ⟨rc, w', f', h1, ⟨h2.trans hf.1, h3⟩, add_isOpen h1, h4, h5.normal, ?_, ?_, ?_⟩
    · show Waits' (w'.reg f.fd .read) (w'.reg f.fd .write) _
      rw [← h4]
      exact h5.waits
    · intro x m hx hw'
      show Waits' (w'.reg x .read) (w'.reg x .write) _
      rw [h6 x hx]; exact hw'
    · rcases h7 with ⟨rfl, h7, -⟩ | ⟨rfl, h7, -⟩
      · exact .inl ⟨rfl, h7⟩
      · exact .inr ⟨rfl, h7⟩⟩
  del := ⟨by
    intro w f evs data hf ho hn hw
    obtain ⟨rc, w', f', h1, h2, h3, h4, h5, h6, h7⟩ := del_ok he ht (evs := evs) (data := data) hf.2 ⟨ho, hn, hw⟩
    refine ⟨rc, w', f', h1, ⟨h2.trans hf.1, h3⟩, del_isOpen h1, h4, h5.normal, ?_, ?_, ?_⟩
    · show Waits' (w'.reg f.fd .read) (w'.reg f.fd .write) _
      rw [← h4]
      exact h5.waits
    · intro x m hx hw'
      show Waits' (w'.reg x .read) (w'.reg x .write) _
      rw [h6 x hx]; exact hw'
    · rcases h7 with ⟨rfl, h7, -⟩ | ⟨rfl, h7, -⟩
      · exact .inl ⟨rfl, h7⟩
      · exact .inr ⟨rfl, h7⟩⟩
  idle := by
    intro w f evs data h
    show Kqueue.del e evs data f w = _
    unfold Kqueue.del
    simp only
    rw [if_pos (by rw [Epoll.and_none h]; exact h)]
    rfl
  openFine := id
  openOpen := fun _ _ _ => rfl
  openWaits := id
  closeFine := id
  closeOpen := fun _ _ _ => rfl
  closeWaits := by
    intro w fd x m hx h
    show Waits' ((if x = fd then fun _ => none else w.reg x) .read) ((if x = fd then fun _ => none else w.reg x) .write) m
    rw [if_neg hx]; exact h
  closeNone := by
    intro w fd
    show Waits' ((if fd = fd then fun _ => none else w.reg fd) .read) ((if fd = fd then fun _ => none else w.reg fd) .write) nothing
    rw [if_pos rfl]; exact waits_none
  renewFine := id
  renewOpen := fun _ => rfl
  renewNone := fun _ _ => waits_none

/-- **C108**, in part, on macOS and FreeBSD: the same. Missing: objects that are not initialised again, see `reopened_violated` and
`renewed_violated`, and calls of the system that fail midway, see `atomic_violated`. -/
theorem reuse_partial {e : Env} (he : Laws e) (ht : Tame e) {σ₀ σ : State (bsd e)} (h0 : Start σ₀) {l : List Act} (r : Runs σ₀ l σ) :
    σ.w.wrong = false ∧
    (∀ i, up l i = true → Waits' (σ.w.reg (σ.obj i).fd .read) (σ.w.reg (σ.obj i).fd .write) (due l i)) ∧
    (∀ fd, (∀ i, up l i = true → (σ.obj i).fd ≠ fd) → ∀ f, σ.w.reg fd f = none) := by
  obtain ⟨h1, h2, h3⟩ := Reuse.reuse (bsd_laws he ht) h0 r
  refine ⟨h1.1, h2, fun fd hf f => ?_⟩
  have h4 : Waits' (σ.w.reg fd .read) (σ.w.reg fd .write) nothing := h3 fd hf
  cases f with
  | read => simpa [nothing] using h4.read
  | write => simpa [nothing] using h4.write

/-- An object that has not forgotten what it was registered for, with a descriptor that is not registered -/
structure Stale (w : World) (f : Fdt) : Prop where
  op : f.op ≠ NONE
  normal : f.op.Normal
  live : w.isOpen f.fd = true
  reg : ∀ g, w.reg f.fd g = none

theorem changes_stale (keep : Bool) (fail : Option (Nat × Int)) {fd : Int} {f : Filter} {cs : List (Filter × Kqueue.Act)} {w : World}
    (hr : w.reg fd f = none) : ∃ er b, changes keep fail fd ((f, .delete) :: cs) 0 w = (false, { w with errno := er, wrong := b }) := by
  unfold changes
  split
  · next er _ => exact ⟨er, w.wrong, rfl⟩
  · rw [hr]
    exact ⟨ENOENT, true, rfl⟩

theorem all_del {op evs : Bits} (hn : op.Normal) (h0 : op ≠ NONE) (h : op &&& evs = op) (data : Nat) :
    op ≠ dropEdge (op &&& ~~~evs) ∧ ∃ f cs, delChanges op (op &&& evs) data = (f, .delete) :: cs := by
  rw [h]
  have h1 : op ≠ dropEdge (op &&& ~~~evs) := by
    unfold Bits.Normal at hn
    revert op evs
    decide
  refine ⟨h1, ?_⟩
  unfold delChanges
  have h2 : op &&& READ ≠ 0 ∨ op &&& WRITE ≠ 0 := by
    unfold Bits.Normal at hn
    clear h h1
    revert op
    decide
  by_cases h3 : op &&& READ ≠ 0
  · rw [if_pos h3]; exact ⟨_, _, rfl⟩
  · rw [if_neg h3, if_neg (fun hc => h3 hc.2)]
    have h4 : op &&& WRITE ≠ 0 := h2.resolve_left h3
    rw [if_pos h4]; exact ⟨_, _, rfl⟩

/-- Taking back all that was asked for fails, and leaves everything as it was... -/
theorem stale_del {e : Env} (he : Laws e) {f : Fdt} {w : World} (hl : w.err.length = 128) (hs : Stale w f) {evs : Bits}
    (ha : f.op &&& evs = f.op) (data : Nat) :
    ∃ w', Kqueue.del e evs data f w = .ok (-1, w', f) ∧ w'.err.length = 128 ∧ Stale w' f := by
  obtain ⟨h1, g, cs, h2⟩ := all_del hs.normal hs.op ha data
  unfold Kqueue.del
  simp only
  rw [if_neg h1, h2]
  obtain ⟨er, b, h3⟩ := changes_stale e.keep (e.call w.n) (cs := cs) (w := { w with n := w.n + 1 }) (hs.reg g)
  obtain ⟨t, ht⟩ := he.texts er
  obtain ⟨err, h4, h5, -⟩ := setErr_ok (ctlText_nonzero ht.nonzero) (w := { w with n := w.n + 1, errno := er, wrong := b }) hl
  unfold change kevent
  have hlive : ¬ (!w.isOpen f.fd) = true := by rw [hs.live]; decide
  simp only
  rw [if_neg hlive, h3]
  simp only
  rw [cstr_eq ht]
  simp only [Res.ok_bind]
  rw [h4]
  exact ⟨_, rfl, h5, ⟨hs.op, hs.normal, hs.live, hs.reg⟩⟩

/-- ... while asking for any of it again succeeds, and registers nothing. -/
theorem stale_add (e : Env) {f : Fdt} {w : World} (hs : Stale w f) {evs : Bits} (ha : ∀ x, evs.mask x = true → f.op.mask x = true)
    (data : Nat) : Kqueue.add e evs data f w = .ok (0, w, f) := by
  unfold Kqueue.add
  simp only
  rw [if_pos (Reuse.sub_add hs.normal ha)]

/-- Asking for some of what was registered before, and taking back all of it, any number of times -/
inductive Asks (e : Env) (f₀ : Fdt) (w₀ : World) : Fdt → World → Prop
  | refl : Asks e f₀ w₀ f₀ w₀
  | add {f w evs d rc w' f'} : Asks e f₀ w₀ f w → (∀ x, Bits.mask evs x = true → f₀.op.mask x = true) →
    Kqueue.add e evs d f w = .ok (rc, w', f') → Asks e f₀ w₀ f' w'
  | del {f w evs d rc w' f'} : Asks e f₀ w₀ f w → f₀.op &&& evs = f₀.op → Kqueue.del e evs d f w = .ok (rc, w', f') → Asks e f₀ w₀ f' w'

theorem stale_asks {e : Env} (he : Laws e) {f₀ f : Fdt} {w₀ w : World} (hl : w₀.err.length = 128) (hs : Stale w₀ f₀) (r : Asks e f₀ w₀ f w) :
    f = f₀ ∧ Stale w f ∧ w.err.length = 128 := by
  induction r with
  | refl => exact ⟨rfl, hs, hl⟩
  | add r ha h ih =>
    obtain ⟨rfl, h1, h2⟩ := ih
    rw [stale_add e h1 ha] at h
    cases h
    exact ⟨rfl, h1, h2⟩
  | del r ha h ih =>
    obtain ⟨rfl, h1, h2⟩ := ih
    obtain ⟨_, h3, h4, h5⟩ := stale_del he h2 h1 ha _
    rw [h3] at h
    cases h
    exact ⟨rfl, h5, h4⟩

theorem stale {w : World} {f : Fdt} {m : Mask} (hm : m ≠ nothing) (h2 : w.isOpen f.fd = true) (h3 : f.op.Normal) (h4 : f.op.mask = m)
    (h5 : Waits' (w.reg f.fd .read) (w.reg f.fd .write) nothing) : Stale w f := by
  refine ⟨fun hc => hm (by rw [← h4]; exact Linux.op_none.1 hc), h3, h2, fun g => ?_⟩
  cases g with
  | read => simpa [nothing] using h5.read
  | write => simpa [nothing] using h5.write

/-- **C108 is violated** on macOS and FreeBSD by every object that is closed while it is registered and opened again: asking for what it was
registered for succeeds and nothing is waited for; deregistering it fails, for ever. -/
theorem reopened_violated {e : Env} (he : Laws e) (ht : Tame e) {σ₀ σ σ₁ σ₂ : State (bsd e)} (h0 : Start σ₀) {l : List Act}
    (r : Runs σ₀ l σ) {i : Nat} (hk : kept l i ≠ nothing) (s1 : Step σ (.closed i) true σ₁) (s2 : Step σ₁ (.opened i) true σ₂) {f : Fdt} {w : World}
    (ra : Asks e (σ₂.obj i) σ₂.w f w) :
    (∀ g, w.reg (σ₂.obj i).fd g = none) ∧ (∀ d, ∃ w', Kqueue.del e (READ ||| WRITE ||| EDGE) d f w = .ok (-1, w', f)) ∧
    ∀ evs d, (∀ x, Bits.mask evs x = true → kept l i x = true) → Kqueue.add e evs d f w = .ok (0, w, f) := by
  obtain ⟨h1, h2, h3, h4, h5⟩ := Reuse.reopened (bsd_laws he ht) h0 r s1 s2
  obtain ⟨rfl, h6, h7⟩ := stale_asks he h1.2 (stale hk h2 h3 h4 h5) ra
  refine ⟨h6.reg, ?_, fun evs d hsub => stale_add e h6 (by rw [h4]; exact hsub) d⟩
  intro d
  obtain ⟨w', h8, -⟩ := stale_del he h7 h6 (evs := READ ||| WRITE ||| EDGE) (by generalize (σ₂.obj i).op = b; revert b; decide) d
  exact ⟨w', h8⟩

/-- **C108 is violated** on macOS and FreeBSD by every object that is registered when its poller is destroyed. -/
theorem renewed_violated {e : Env} (he : Laws e) (ht : Tame e) {σ₀ σ σ₁ : State (bsd e)} (h0 : Start σ₀) {l : List Act}
    (r : Runs σ₀ l σ) {i : Nat} (hu : up l i = true) (hk : kept l i ≠ nothing) (s1 : Step σ .renewed true σ₁) {f : Fdt} {w : World}
    (ra : Asks e (σ₁.obj i) σ₁.w f w) :
    (∀ g, w.reg (σ₁.obj i).fd g = none) ∧ (∀ d, ∃ w', Kqueue.del e (READ ||| WRITE ||| EDGE) d f w = .ok (-1, w', f)) ∧
    ∀ evs d, (∀ x, Bits.mask evs x = true → kept l i x = true) → Kqueue.add e evs d f w = .ok (0, w, f) := by
  obtain ⟨h1, h2, h3, h4, h5⟩ := Reuse.renewed (bsd_laws he ht) h0 r hu s1
  obtain ⟨rfl, h6, h7⟩ := stale_asks he h1.2 (stale hk h2 h3 h4 h5) ra
  refine ⟨h6.reg, ?_, fun evs d hsub => stale_add e h6 (by rw [h4]; exact hsub) d⟩
  intro d
  obtain ⟨w', h8, -⟩ := stale_del he h7 h6 (evs := READ ||| WRITE ||| EDGE) (by generalize (σ₁.obj i).op = b; revert b; decide) d
  exact ⟨w', h8⟩

/-! ## A run -/

def zero : State (bsd calm) :=
  ⟨⟨fun _ _ => none, fun fd => decide (fd = 0), 0, 0, false, List.replicate 128 0⟩, fun _ => ⟨-1, NONE⟩⟩

theorem zero_start : Start zero := ⟨fun _ => waits_none, fun _ => rfl, rfl, ⟨rfl, rfl⟩⟩

/-- A call that the system does not refuse -/
theorem grant {l : List Act} {σ : State (bsd calm)} (h : Inv σ l) {i : Nat} {evs : Bits} (hp : Fit l (.add i evs.mask)) :
    ∃ σ', Step σ (.add i evs.mask) true σ' ∧ σ'.w.isOpen = σ.w.isOpen := by
  obtain ⟨rc, w, f, h1, -, -, h2, -, -, h3⟩ := add_ok calm_laws calm_tame (evs := evs) (data := 1) h.fine.2
    ⟨h.live i hp.1, h.normal i, by rw [h.op, hp.2]; exact h.waits i hp.1⟩
  rcases h3 with ⟨rfl, -⟩ | ⟨-, -, h3⟩
  · exact ⟨σ.set w i f, Step.add (B := bsd calm) (rc := 0) (d := 1) (evs := evs) h1, add_isOpen h1⟩
  · exact absurd h3.cause (by simp [calm])

/-- An object that is registered when the poller is destroyed, closed, and made again by `sc_sock_accept` -/
theorem example_run : ∃ σ, Runs zero [.opened 0, .add 0 READ.mask, .renewed, .closed 0, .accepted 0, .add 0 WRITE.mask] σ ∧
    Waits' (σ.w.reg (σ.obj 0).fd .read) (σ.w.reg (σ.obj 0).fd .write) WRITE.mask := by
  have r1 := (Runs.refl (σ₀ := zero)).ok (.opened 0) rfl (.opened 5 (by decide) rfl)
  obtain ⟨σ₂, s2, o2⟩ := grant (Reuse.run_ok (bsd_laws calm_laws calm_tame) zero_start r1) (i := 0) (evs := READ) ⟨rfl, rfl⟩
  have r2 := (r1.ok (.add 0 READ.mask) ⟨rfl, rfl⟩ s2).ok .renewed trivial .renewed
  cases hc : Reuse.close (σ₂.obj 0) ((bsd calm).renew σ₂.w) with
  | mk w f =>
    have r3 := r2.ok (.closed 0) trivial (.closed hc)
    have hw : w.isOpen 6 = false := by
      have : w.isOpen 6 = σ₂.w.isOpen 6 ∨ w.isOpen 6 = false := by
        unfold Reuse.close at hc
        split at hc
        · cases hc
          simp only [bsd]
          split
          · exact .inr rfl
          · exact .inl rfl
        · cases hc; exact .inl rfl
      rcases this with h | h
      · rw [h, o2]; rfl
      · exact h
    have r5 := r3.ok (.accepted 0) rfl (.accepted 6 (by decide) hw)
    obtain ⟨σ₆, s6, -⟩ := grant (Reuse.run_ok (bsd_laws calm_laws calm_tame) zero_start r5) (i := 0) (evs := WRITE)
      ⟨rfl, by funext x; cases x <;> decide⟩
    have r6 := r5.ok (.add 0 WRITE.mask) ⟨rfl, by funext x; cases x <;> decide⟩ s6
    refine ⟨σ₆, r6, ?_⟩
    have := (reuse_partial calm_laws calm_tame zero_start r6).2.1 0 rfl
    have hm : due [.opened 0, .add 0 READ.mask, .renewed, .closed 0, .accepted 0, .add 0 WRITE.mask] 0 = WRITE.mask := by
      funext x; cases x <;> decide
    rw [← hm]
    exact this

end Verif.Poll.Reuse.Bsd
