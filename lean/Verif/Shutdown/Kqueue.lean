import Verif.Shutdown.Props
import Verif.Poll.KqueueProps

/-!
# The same loop on macOS and FreeBSD

As Verif/Shutdown/Model.lean, with the poller of Verif/Poll/Kqueue.lean. Nothing is assumed about the
calls of `kevent` for other descriptors: they may fail at any change, and adding a filter again may or may
not modify its `EV_CLEAR` flag.
-/

namespace Verif.Shutdown.Kqueue

open Poll.Kqueue (Env World Filter Act changes kevent change put upd)
open Poll.Epoll (EINTR)
open Poll (READ WRITE EDGE NONE)

/-- What does not change: the environment of the poller, the reading end of the pipe, `fds[0]`, the data
given for it, and its writing end, `fds[1]`. -/
structure Setup where
  e : Env
  fd0 : Int
  data : Nat
  fd1 : Int

/-- The process: the signal handlers, the poller, the bytes in the pipe, whether the loop is inside of
`sc_sock_poll_wait`, and whether it has been told about the pipe. -/
structure State where
  sig : Signal.State
  poll : Poll.Kqueue.State
  bytes : Nat
  waiting : Bool
  told : Bool

/-- What can be observed. An event is a filter, whether `EV_EOF` is set, and the data. -/
inductive Event where
  | sig (e : Signal.Event)
  | events (l : List (Filter × Bool × Nat))
  | failed (er : Int)

/-- What the system keeps in the pipe: `write` returns 1 if it has stored the byte, signal/sc_signal.c:409. -/
def store (fd1 : Int) (e : Option Signal.Event) (n : Nat) : Nat :=
  match e with
  | some (.command fd rc) => if fd = fd1 ∧ rc = 1 then n + 1 else n
  | _ => n

/-- What is the case for each descriptor and filter, and at which the stream has ended. For the reading
end of the pipe, kqueue(2): `EVFILT_READ` "returns when there is data to read", and `EV_EOF` is set "when
the last writer disconnects". Anything for the others. -/
structure Now (c : Setup) (bytes : Nat) (now eof : Int → Filter → Bool) : Prop where
  input : now c.fd0 .read = true ↔ 0 < bytes
  whole : eof c.fd0 .read = false

/-- There is something to report for a descriptor, as long as it lasts: `kevent` does not block. -/
def Ready (w : World) (now : Int → Filter → Bool) (fd : Int) : Prop :=
  ∃ g d, w.reg fd g = some (false, d) ∧ now fd g = true

/-- kqueue(2): what is reported is registered and is the case; a filter without `EV_CLEAR` is left out
only if there is no room in the array, which has 1024 places, socket/sc_sock.c:50. -/
structure Answer (w : World) (now eof : Int → Filter → Bool) (l : List (Filter × Bool × Nat)) : Prop where
  room : l.length ≤ 1024
  true_ : ∀ g x d, (g, x, d) ∈ l → ∃ fd b, w.reg fd g = some (b, d) ∧ now fd g = true ∧ x = eof fd g
  all : ∀ fd g d, w.reg fd g = some (false, d) → now fd g = true → (g, eof fd g, d) ∈ l ∨ l.length = 1024

/-- An application that asks of an event with `sc_sock_poll_event`, socket/sc_sock.c:1470-1483, and
`sc_sock_poll_data`, socket/sc_sock.c:1465-1468, whether it is input of the pipe. -/
def isPipe (c : Setup) (x : Filter × Bool × Nat) : Bool :=
  (Poll.Kqueue.event x.1 x.2.1).mask .read && x.2.2 == c.data

/-- The loop runs only if no handler does. -/
def State.Main (s : State) : Prop := s.sig.exit = none ∧ s.sig.frames = [] ∧ s.told = false

/-- One step of the process. -/
inductive Step (c : Setup) : State → Option Event → State → Prop
  /-- A signal arrives, a handler makes a step, or the application does something else; it leaves
  `sc_signal_shutdown_fd` alone. -/
  | sig {s e sig'} : Signal.Step s.sig e sig' → sig'.shutFd = s.sig.shutFd →
      Step c s (e.map .sig) { s with sig := sig', bytes := store c.fd1 e s.bytes }
  /-- The loop calls `sc_sock_poll_add` or `sc_sock_poll_del` for another descriptor, with other data. -/
  | request {s r i d poll'} : s.Main → s.waiting = false → (s.poll.obj i).fd ≠ c.fd0 → d ≠ c.data →
      Poll.Kqueue.Step c.e s.poll r i d poll' → Step c s none { s with poll := poll' }
  /-- The loop calls `sc_sock_poll_wait`. -/
  | enter {s} : s.Main → s.waiting = false → Step c s none { s with waiting := true }
  /-- `kevent` is interrupted or fails; the loop of `sc_sock_poll_wait`, socket/sc_sock.c:1496-1502, is that of
  `Poll.Epoll.waitLoop`, see `waitLoop_again`. -/
  | error {s er} : s.Main → s.waiting = true →
      Step c s (if again (.error er) then none else some (.failed er)) { s with waiting := again (.error er) }
  /-- `kevent` tells events. -/
  | events {s now eof l} : s.Main → s.waiting = true → Now c s.bytes now eof → Answer s.poll.w now eof l →
      Step c s (some (.events l)) { s with waiting := false, told := l.any (isPipe c) }

/-- Executions and what can be observed of them. -/
inductive Run (c : Setup) : State → List Event → State → Prop
  | refl {s} : Run c s [] s
  | step {s s' s'' e es} : Run c s es s' → Step c s' e s'' → Run c s (es ++ e.toList) s''

/-- The state when the loop begins: no signal has arrived, the writing end of the pipe is the shutdown
descriptor, and the application has just called `sc_sock_poll_add` for input of the pipe, which nothing was
waited for on, without `SC_SOCK_EDGE` and with data that it has not used otherwise, and the call has
returned 0. Whatever it had asked of the poller before. -/
structure Begin (c : Setup) (s : State) : Prop where
  made : ∃ (σ : Poll.Kqueue.State) (i : Nat) (w : World) (f : Poll.Epoll.Fdt),
    (σ.obj i).fd = c.fd0 ∧ (σ.obj i).op = NONE ∧ (∀ g, σ.w.reg c.fd0 g = none) ∧
    (∀ fd g b, σ.w.reg fd g ≠ some (b, c.data)) ∧
    Poll.Kqueue.add c.e READ c.data (σ.obj i) σ.w = .ok (0, w, f) ∧ s.poll = σ.set w i f
  fd1 : c.fd1 ≠ -1
  shut : s.sig.shutFd = c.fd1
  quiet : s.sig.frames = []
  will : s.sig.will = false
  alive : s.sig.exit = none
  empty : s.bytes = 0
  told : s.told = false
  waiting : s.waiting = false

/-! ## What handlers leave -/

/-- What holds of the handlers and the pipe; `A` says that a shutdown signal has arrived. -/
structure SigInv (fd1 : Int) (A : Prop) (sig : Signal.State) (bytes : Nat) : Prop where
  shut : sig.shutFd = fd1
  frames : ∀ f ∈ sig.frames, FrameOk bytes f
  sent : A → sig.exit = none → sig.frames ≠ [] ∨ 0 < bytes
  why : sig.frames ≠ [] ∨ 0 < bytes → A

theorem SigInv.top {fd1 : Int} {A : Prop} {sig sig' : Signal.State} {bytes n : Nat} (h : SigInv fd1 A sig bytes)
    {f f' : Signal.Frame} {fs : List Signal.Frame} (hf : sig.frames = f :: fs) (hn : bytes ≤ n)
    (h1 : sig'.shutFd = sig.shutFd) (h2 : sig'.frames = f' :: fs) (hok : FrameOk n f') : SigInv fd1 A sig' n := by
  refine ⟨h1.trans h.shut, ?_, ?_, fun _ => h.why (.inl (by rw [hf]; simp))⟩
  · intro g hg
    rw [h2] at hg
    rcases List.mem_cons.1 hg with rfl | hg
    · exact hok
    · exact (h.frames g (by rw [hf]; exact List.mem_cons_of_mem _ hg)).mono hn
  · intro _ _
    left
    rw [h2]
    simp

theorem SigInv.step {fd1 : Int} (hc : fd1 ≠ -1) {A : Prop} {sig sig' : Signal.State} {bytes : Nat}
    (h : SigInv fd1 A sig bytes) {e : Option Signal.Event} (hs : Signal.Step sig e sig') (hd : sig'.shutFd = sig.shutFd) :
    SigInv fd1 (A ∨ ∃ g, e = some (.arrive g)) sig' (store fd1 e bytes) := by
  have hne : sig.shutFd ≠ -1 := by rw [h.shut]; exact hc
  have same : ∀ {e : Option Signal.Event} {n : Nat}, (∀ g, e ≠ some (.arrive g)) → SigInv fd1 A sig' n →
      SigInv fd1 (A ∨ ∃ g, e = some (.arrive g)) sig' n := by
    intro e n hg h
    refine ⟨h.shut, h.frames, ?_, fun hw => .inl (h.why hw)⟩
    rintro (ha | ⟨g, ha⟩)
    · exact h.sent ha
    · exact absurd ha (hg g)
  cases hs with
  | app e' l d hx hf => exact same (by intro g hg; cases hg) ⟨hd.trans h.shut, h.frames, h.sent, h.why⟩
  | arrive g hx hg hb =>
    refine ⟨h.shut, ?_, fun _ _ => .inl (by simp), fun _ => .inr ⟨g, rfl⟩⟩
    intro f hf
    rcases List.mem_cons.1 hf with rfl | hf
    · trivial
    · exact h.frames f hf
  | save hx hf hp => exact same (by intro g hg; cases hg) (h.top hf (Nat.le_refl _) rfl rfl trivial)
  | log e' hx hf hl _ =>
    refine same (by intro g hg; cases hg) (h.top hf (Nat.le_refl _) rfl rfl ?_)
    have hok := h.frames _ (by rw [hf]; exact List.mem_cons_self)
    unfold Signal.logOf at hl
    unfold FrameOk at hok
    split at hl <;> cases hl <;> simp_all [FrameOk]
  | check hx hf hp =>
    refine same (by intro g hg; cases hg) (h.top hf (Nat.le_refl _) rfl rfl ?_)
    unfold FrameOk
    split <;> simp_all
    · split at * <;> simp_all
    · split at * <;> simp_all
    · split at * <;> simp_all
  | exit1 hx hf hp => exact same (by intro g hg; cases hg) ⟨h.shut, h.frames, fun _ hx => (by cases hx), h.why⟩
  | exit0 hx hf hp => exact same (by intro g hg; cases hg) ⟨h.shut, h.frames, fun _ hx => (by cases hx), h.why⟩
  | set hx hf hp => exact same (by intro g hg; cases hg) (h.top hf (Nat.le_refl _) rfl rfl trivial)
  | choose hx hf hp =>
    refine same (by intro g hg; cases hg) (h.top hf (Nat.le_refl _) rfl rfl ?_)
    rw [if_pos hne]
    trivial
  | send rc e' hx hf hp =>
    have hb : store fd1 (some (.command sig.shutFd rc)) bytes = if rc = 1 then bytes + 1 else bytes := by
      simp [store, h.shut]
    refine same (by intro g hg; cases hg) (h.top hf ?_ rfl rfl ?_)
    · rw [hb]; split <;> omega
    · by_cases hr : rc = 1
      · rw [hb, if_pos hr, if_neg (by simp [hr])]
        exact Nat.succ_pos _
      · rw [if_pos hr]
        trivial
  | @restore f fs hx hf hp =>
    have hok : 0 < bytes := by
      have := h.frames f (by rw [hf]; exact List.mem_cons_self)
      unfold FrameOk at this
      rw [hp] at this
      exact this
    refine same (by intro g hg; cases hg) ⟨h.shut, ?_, fun _ _ => .inr hok, fun _ => h.why (.inr hok)⟩
    intro g hg
    exact h.frames g (by rw [hf]; exact List.mem_cons_of_mem _ hg)

/-! ## What the poller keeps -/

/-- The changes of a list concern one descriptor and give one piece of data. -/
theorem changes_reg (keep : Bool) (fail : Option (Nat × Int)) (fd : Int) (d : Nat) : ∀ (cs : List (Filter × Act)) (i : Nat) (w : World),
    (∀ g b d', (g, Act.add b d') ∈ cs → d' = d) →
    (∀ x, x ≠ fd → (changes keep fail fd cs i w).2.reg x = w.reg x) ∧
    (∀ x g b d', (changes keep fail fd cs i w).2.reg x g = some (b, d') → d' = d ∨ w.reg x g = some (b, d')) := by
  intro cs
  induction cs with
  | nil => intro i w _; exact ⟨fun _ _ => rfl, fun _ _ _ _ h => .inr h⟩
  | cons a cs ih =>
    intro i w hd
    obtain ⟨g0, a⟩ := a
    have hd' : ∀ g b d', (g, Act.add b d') ∈ cs → d' = d := fun g b d' h => hd g b d' (List.mem_cons_of_mem _ h)
    unfold changes
    split
    · exact ⟨fun _ _ => rfl, fun _ _ _ _ h => .inr h⟩
    · split
      · exact ⟨fun _ _ => rfl, fun _ _ _ _ h => .inr h⟩
      · obtain ⟨h1, h2⟩ := ih (i + 1) { w with reg := upd w.reg fd g0 none } hd'
        refine ⟨fun x hx => ?_, fun x g b d' h => ?_⟩
        · rw [h1 x hx]
          funext g
          simp [upd, hx]
        · rcases h2 x g b d' h with h | h
          · exact .inl h
          · right
            simp only [upd] at h
            split at h
            · cases h
            · exact h
      · rename_i _ _ c d0
        obtain ⟨h1, h2⟩ := ih (i + 1) { w with reg := upd w.reg fd g0 (put keep (w.reg fd g0) c d0) } hd'
        have h0 : d0 = d := hd g0 c d0 List.mem_cons_self
        refine ⟨fun x hx => ?_, fun x g b d' h => ?_⟩
        · rw [h1 x hx]
          funext g
          simp [upd, hx]
        · rcases h2 x g b d' h with h | h
          · exact .inl h
          · simp only [upd] at h
            split at h
            · left
              unfold put at h
              split at h <;> cases h <;> exact h0
            · exact .inr h

theorem change_reg {e : Env} {cs : List (Filter × Act)} {old new : Poll.Bits} {f f' : Poll.Epoll.Fdt} {w w' : World} {rc : Int} {d : Nat}
    (hd : ∀ g b d', (g, Act.add b d') ∈ cs → d' = d) (h : change e cs old new f w = .ok (rc, w', f')) :
    (∀ x, x ≠ f.fd → w'.reg x = w.reg x) ∧ (∀ x g b d', w'.reg x g = some (b, d') → d' = d ∨ w.reg x g = some (b, d')) := by
  have hk : (∀ x, x ≠ f.fd → (kevent e f.fd cs w).2.reg x = w.reg x) ∧
      (∀ x g b d', (kevent e f.fd cs w).2.reg x g = some (b, d') → d' = d ∨ w.reg x g = some (b, d')) := by
    unfold kevent
    split
    · exact ⟨fun _ _ => rfl, fun _ _ _ _ h => .inr h⟩
    · exact changes_reg e.keep (e.call w.n) f.fd d cs 0 { w with n := w.n + 1 } hd
  have hw : w'.reg = (kevent e f.fd cs w).2.reg := by
    unfold change at h
    simp only at h
    split at h
    · rename_i h1
      cases h
      rw [h1]
    · rename_i w1 h1
      rw [h1]
      obtain ⟨m, -, h⟩ := Res.bind_eq_ok.1 h
      obtain ⟨w2, h2, h⟩ := Res.bind_eq_ok.1 h
      cases h
      unfold Poll.Kqueue.setErr at h2
      obtain ⟨err, -, h2⟩ := Res.bind_eq_ok.1 h2
      cases h2
      rfl
  rw [hw]
  exact hk

theorem addChanges_data {new : Poll.Bits} {d : Nat} : ∀ g b d', (g, Act.add b d') ∈ Poll.Kqueue.addChanges new d → d' = d := by
  intro g b d' h
  unfold Poll.Kqueue.addChanges at h
  rcases List.mem_append.1 h with h | h <;> split at h <;> simp at h <;> exact h.2.2

theorem delChanges_data {old del : Poll.Bits} {d : Nat} : ∀ g b d', (g, Act.add b d') ∈ Poll.Kqueue.delChanges old del d → d' = d := by
  intro g b d' h
  unfold Poll.Kqueue.delChanges at h
  rcases List.mem_append.1 h with h | h <;> split at h
  · simp at h
  · split at h <;> simp at h
    exact h.2.2
  · simp at h
  · split at h <;> simp at h
    exact h.2.2

/-- A call, whatever its result, leaves what is registered for other descriptors, and gives no other data. -/
theorem step_reg {e : Env} {σ σ' : Poll.Kqueue.State} {r : Option Poll.Spec.Req} {i d : Nat} (hs : Poll.Kqueue.Step e σ r i d σ') :
    (∀ x, x ≠ (σ.obj i).fd → σ'.w.reg x = σ.w.reg x) ∧
    (∀ x g b d', σ'.w.reg x g = some (b, d') → d' = d ∨ σ.w.reg x g = some (b, d')) := by
  cases hs with
  | add h =>
    unfold Poll.Kqueue.add at h
    simp only at h
    split at h
    · cases h; exact ⟨fun _ _ => rfl, fun _ _ _ _ h => .inr h⟩
    · exact change_reg addChanges_data h
  | del h =>
    unfold Poll.Kqueue.del at h
    simp only at h
    split at h
    · cases h; exact ⟨fun _ _ => rfl, fun _ _ _ _ h => .inr h⟩
    · exact change_reg delChanges_data h

/-- The pipe is registered for input, not only for changes, and its data means the pipe. -/
structure Known (c : Setup) (w : World) : Prop where
  pipe : w.reg c.fd0 .read = some (false, c.data)
  only : ∀ fd g b, w.reg fd g = some (b, c.data) → fd = c.fd0 ∧ g = .read

/-- A call for input that returns 0 registers it. -/
theorem known_made {c : Setup} {s : State} (hb : Begin c s) : Known c s.poll.w := by
  obtain ⟨σ, i, w, f, h1, h2, h3, h4, h5, h6⟩ := hb.made
  rw [h6]
  show Known c w
  unfold Poll.Kqueue.add at h5
  simp only [h2] at h5
  rw [if_neg (by decide)] at h5
  rw [show Poll.dropEdge (NONE ||| READ) = READ by decide,
    show Poll.Kqueue.addChanges READ c.data = [(.read, .add false c.data)] from rfl] at h5
  unfold change kevent at h5
  simp only [h1] at h5
  split at h5
  · rename_i hk
    cases h5
    split at hk
    · cases hk
    · unfold changes at hk
      split at hk
      · cases hk
      · simp only [changes, h3] at hk
        have hp : put c.e.keep none false c.data = some (false, c.data) := by
          unfold put
          split
          · rename_i h; cases h
          · rfl
        rw [hp] at hk
        cases hk
        refine ⟨by simp [upd], fun fd g b h => ?_⟩
        simp only [upd] at h
        split at h
        · assumption
        · exact absurd h (h4 fd g b)
  · obtain ⟨m, -, h⟩ := Res.bind_eq_ok.1 h5
    obtain ⟨w2, h2, h⟩ := Res.bind_eq_ok.1 h
    cases h

/-! ## Invariants -/

/-- A shutdown signal has arrived. -/
def Arrived (es : List Event) : Prop := ∃ g, Event.sig (.arrive g) ∈ es

theorem arrived_mono {es es' : List Event} (h : Arrived es) : Arrived (es ++ es') := by
  obtain ⟨g, h⟩ := h
  exact ⟨g, List.mem_append_left _ h⟩

theorem arrived_snoc {es : List Event} {e : Option Event} :
    Arrived (es ++ e.toList) ↔ Arrived es ∨ ∃ g, e = some (.sig (.arrive g)) := by
  constructor
  · rintro ⟨g, hg⟩
    rcases List.mem_append.1 hg with hg | hg
    · exact .inl ⟨g, hg⟩
    · cases e with
      | none => simp at hg
      | some e => simp at hg; subst hg; exact .inr ⟨g, rfl⟩
  · rintro (h | ⟨g, rfl⟩)
    · exact arrived_mono h
    · exact ⟨g, by simp⟩

structure Inv (c : Setup) (es : List Event) (s : State) : Prop where
  sig : SigInv c.fd1 (Arrived es) s.sig s.bytes
  poll : Known c s.poll.w

theorem Inv.step {c : Setup} (hc : c.fd1 ≠ -1) {es : List Event} {s s' : State} (h : Inv c es s)
    {e : Option Event} (hs : Step c s e s') : Inv c (es ++ e.toList) s' := by
  have same : ∀ {e : Option Event}, (∀ g, e ≠ some (.sig (.arrive g))) →
      SigInv c.fd1 (Arrived (es ++ e.toList)) s.sig s.bytes := by
    intro e he
    have : Arrived (es ++ e.toList) ↔ Arrived es := by
      rw [arrived_snoc]
      exact ⟨fun h => h.elim id (fun ⟨g, hg⟩ => absurd hg (he g)), .inl⟩
    rw [this]
    exact h.sig
  cases hs with
  | @sig e sig' hs hd =>
    refine ⟨?_, h.poll⟩
    have : Arrived (es ++ (e.map Event.sig).toList) ↔ Arrived es ∨ ∃ g, e = some (.arrive g) := by
      rw [arrived_snoc]
      cases e <;> simp
    rw [this]
    exact h.sig.step hc hs hd
  | @request r i d poll' hm hw hi hd hs =>
    refine ⟨same (by intro g hg; cases hg), ?_⟩
    obtain ⟨h1, h2⟩ := step_reg hs
    refine ⟨?_, fun fd g b hr => ?_⟩
    · show poll'.w.reg c.fd0 .read = _
      rw [h1 _ (fun hx => hi hx.symm)]
      exact h.poll.pipe
    · rcases h2 fd g b _ hr with hx | hx
      · exact absurd hx.symm hd
      · exact h.poll.only fd g b hx
  | enter hm hw => exact ⟨same (by intro g hg; cases hg), h.poll⟩
  | error hm hw => exact ⟨same (by intro g hg; split at hg <;> cases hg), h.poll⟩
  | events hm hw hn hl => exact ⟨same (by intro g hg; cases hg), h.poll⟩

theorem run_inv {c : Setup} {s₀ s : State} (hb : Begin c s₀) {es : List Event} (hr : Run c s₀ es s) : Inv c es s := by
  induction hr with
  | refl =>
    refine ⟨⟨hb.shut, ?_, ?_, ?_⟩, known_made hb⟩
    · rw [hb.quiet]; intro f hf; cases hf
    · rintro ⟨g, hg⟩; cases hg
    · rw [hb.quiet, hb.empty]; rintro (h | h) <;> simp at h
  | step _ hs ih => exact ih.step hb.fd1 hs

/-! ## The properties -/

theorem handled {c : Setup} {s₀ s : State} (hb : Begin c s₀) {es : List Event} (hr : Run c s₀ es s) (ha : Arrived es)
    (hm : s.sig.exit = none) (hf : s.sig.frames = []) : 0 < s.bytes := by
  rcases (run_inv hb hr).sig.sent ha hm with h | h
  · exact absurd hf h
  · exact h

/-- **C162**, the loop is told, on macOS and FreeBSD: whatever else happens, if a shutdown signal has
arrived, at any time before `sc_sock_poll_wait` returns events, then the pipe is among them, with input,
unless there are as many other events as there is room for. -/
theorem told {c : Setup} {s₀ s s' : State} (hb : Begin c s₀) {es : List Event} (hr : Run c s₀ es s)
    {l : List (Filter × Bool × Nat)} (hs : Step c s (some (.events l)) s') (ha : Arrived es) :
    (∃ g x, (g, x, c.data) ∈ l ∧ (Poll.Kqueue.event g x).mask .read = true) ∧ s'.told = true ∨ l.length = 1024 := by
  generalize he : some (Event.events l) = e at hs
  cases hs with
  | @sig e _ hs hd => cases e <;> cases he
  | request => cases he
  | enter => cases he
  | error => split at he <;> cases he
  | @events now eof l' hm hw hn hl =>
    cases he
    have hp := handled hb hr ha hm.1 hm.2.1
    rcases hl.all _ _ _ (run_inv hb hr).poll.pipe (hn.input.2 hp) with h | h
    · left
      have h5 : (Poll.Kqueue.event .read (eof c.fd0 .read)).mask .read = true := by
        rw [Poll.Kqueue.event_spec]
        simp
      exact ⟨⟨_, _, h, h5⟩, List.any_eq_true.2 ⟨_, h, by simp [isPipe, h5]⟩⟩
    · exact .inr h

/-- **C162**, waiting does not block, on macOS and FreeBSD: once a shutdown signal has been handled there
is always something to report, for the pipe. -/
theorem never_blocks {c : Setup} {s₀ s : State} (hb : Begin c s₀) {es : List Event} (hr : Run c s₀ es s) (ha : Arrived es)
    (hm : s.sig.exit = none) (hf : s.sig.frames = []) {now eof : Int → Filter → Bool} (hn : Now c s.bytes now eof) :
    Ready s.poll.w now c.fd0 ∧ ¬ Answer s.poll.w now eof [] := by
  have hp := handled hb hr ha hm hf
  have hk := (run_inv hb hr).poll.pipe
  refine ⟨⟨_, _, hk, hn.input.2 hp⟩, fun hl => ?_⟩
  rcases hl.all _ _ _ hk (hn.input.2 hp) with h | h <;> simp at h

/-- **C162**, signals do not make waiting fail, on macOS and FreeBSD. -/
theorem not_interrupted {c : Setup} {s s' : State} {er : Int} (hs : Step c s (some (.failed er)) s') : er ≠ EINTR := by
  generalize he : some (Event.failed er) = e at hs
  cases hs with
  | @sig e _ hs hd => cases e <;> cases he
  | request => cases he
  | enter => cases he
  | events => cases he
  | error hm hw =>
    split at he
    · cases he
    · rename_i h
      cases he
      rintro rfl
      exact h (by decide)

/-- **C162**, only then, on macOS and FreeBSD: the loop is told about the pipe only if a shutdown signal
has arrived. -/
theorem only_then {c : Setup} {s₀ s : State} (hb : Begin c s₀) {es : List Event} (hr : Run c s₀ es s)
    (ht : s.told = true) : Arrived es := by
  induction hr with
  | refl => rw [hb.told] at ht; cases ht
  | @step s s' e es hr hs ih =>
    by_cases hp : s.told = true
    · exact arrived_mono (ih hp)
    cases hs with
    | sig => exact absurd ht hp
    | request => exact absurd ht hp
    | enter => exact absurd ht hp
    | error => exact absurd ht hp
    | @events now eof l hm hw hn hl =>
      apply arrived_mono
      obtain ⟨⟨g, x, d⟩, hx, hxp⟩ := List.any_eq_true.1 ht
      simp only [isPipe, Bool.and_eq_true, beq_iff_eq] at hxp
      obtain ⟨hread, rfl⟩ := hxp
      obtain ⟨fd, b, hreg, hnow, -⟩ := hl.true_ _ _ _ hx
      obtain ⟨rfl, rfl⟩ := (run_inv hb hr).poll.only fd g b hreg
      exact (run_inv hb hr).sig.why (.inr (hn.input.1 hnow))

end Verif.Shutdown.Kqueue
