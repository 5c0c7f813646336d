import Verif.Shutdown.Kqueue
import Verif.Signal.Props

/-!
# A loop that is interrupted by SIGINT while it waits, on macOS and FreeBSD
-/

namespace Verif.Shutdown.Kqueue

open Poll.Kqueue (calm fresh)
open Signal (message logOf shutdown_message)

/-- The pipe has the descriptors 3 and 5; 7 is the data given for it. -/
def setup : Setup := ⟨calm, 3, 7, 5⟩

/-- The poller after `sc_sock_poll_add` for the pipe. -/
def poll1 : Poll.Kqueue.State :=
  fresh.set ⟨Poll.Kqueue.upd (fun _ _ => none) 3 .read (some (false, 7)), fun _ => true, 0, 1, false, List.replicate 128 0⟩ 0
    ⟨3, Poll.READ⟩

/-- The loop begins. -/
def begin : State := ⟨⟨false, -1, 5, 0, [], none⟩, poll1, 0, false, false⟩

theorem begin_ok : Begin setup begin :=
  ⟨⟨fresh, 0, _, _, rfl, rfl, fun _ => rfl, (fun _ _ _ h => by cases h), rfl, rfl⟩, by decide, rfl, rfl, rfl, rfl, rfl, rfl, rfl⟩

/-- The states of the loop, which is inside of `sc_sock_poll_wait`, by those of the handlers. -/
def mid (s : Signal.State) (n : Nat) : State := ⟨s, poll1, n, true, false⟩

/-- SIGINT arrives while the loop waits; its handler returns, `kevent` is interrupted and called again,
and the loop is told. -/
example : ∃ es s s', Run setup begin es s ∧ Step setup s (some (.events [(.read, false, 7)])) s' ∧ Arrived es ∧ s'.told = true := by
  have log : ∀ {s : Signal.State} {f : Signal.Frame} {fs : List Signal.Frame} {fmt : List UInt8}
      {args : List Signal.Spec.Arg} {pc : Signal.Pc}
      {m : List UInt8}, s.exit = none → s.frames = f :: fs → (f.sig = Signal.SIGINT ∨ f.sig = Signal.SIGTERM) →
      message f.sig f.pc = some m → logOf f.sig f.pc = some (fmt, args, pc) →
      Signal.Step s (some (.text f.fd m)) { s with errno := 0, frames := { f with pc := pc } :: fs } :=
    fun hx hf hs hm hl => .log 0 hx hf hl ((shutdown_message hs hl).2 hm)
  have r0 : Run setup begin [] begin := .refl
  have r1 : Run setup begin _ (mid ⟨false, -1, 5, 0, [], none⟩ 0) := r0.step (.enter ⟨rfl, rfl, rfl⟩ rfl)
  have r2 : Run setup begin _ (mid ⟨false, -1, 5, 0, [⟨2, .save, 0, 0, 0⟩], none⟩ 0) :=
    r1.step (.sig (.arrive Signal.SIGINT rfl (.inl rfl) (by simp [mid])) rfl)
  have r3 : Run setup begin _ (mid ⟨false, -1, 5, 0, [⟨2, .recv, 0, 1, 0⟩], none⟩ 0) :=
    r2.step (.sig (.save (f := ⟨2, .save, 0, 0, 0⟩) (fs := []) rfl rfl rfl) rfl)
  have r4 : Run setup begin _ (mid ⟨false, -1, 5, 0, [⟨2, .check, 0, 1, 0⟩], none⟩ 0) :=
    r3.step (.sig (log (f := ⟨2, .recv, 0, 1, 0⟩) (fs := []) rfl rfl (.inl rfl) rfl rfl) rfl)
  have r5 : Run setup begin _ (mid ⟨false, -1, 5, 0, [⟨2, .set, 0, 1, 0⟩], none⟩ 0) :=
    r4.step (.sig (.check (f := ⟨2, .check, 0, 1, 0⟩) (fs := []) rfl rfl rfl) rfl)
  have r6 : Run setup begin _ (mid ⟨true, -1, 5, 0, [⟨2, .choose, 0, 1, 0⟩], none⟩ 0) :=
    r5.step (.sig (.set (f := ⟨2, .set, 0, 1, 0⟩) (fs := []) rfl rfl rfl) rfl)
  have r7 : Run setup begin _ (mid ⟨true, -1, 5, 0, [⟨2, .sendLog, 0, 1, 0⟩], none⟩ 0) :=
    r6.step (.sig (.choose (f := ⟨2, .choose, 0, 1, 0⟩) (fs := []) rfl rfl rfl) rfl)
  have r8 : Run setup begin _ (mid ⟨true, -1, 5, 0, [⟨2, .send, 0, 1, 0⟩], none⟩ 0) :=
    r7.step (.sig (log (f := ⟨2, .sendLog, 0, 1, 0⟩) (fs := []) rfl rfl (.inl rfl) rfl rfl) rfl)
  have r9 : Run setup begin _ (mid ⟨true, -1, 5, 0, [⟨2, .restore, 0, 1, 0⟩], none⟩ 1) :=
    r8.step (.sig (.send (f := ⟨2, .send, 0, 1, 0⟩) (fs := []) 1 0 rfl rfl rfl) rfl)
  have r10 : Run setup begin _ (mid ⟨true, -1, 5, 0, [], none⟩ 1) :=
    r9.step (.sig (.restore (f := ⟨2, .restore, 0, 1, 0⟩) (fs := []) rfl rfl rfl) rfl)
  have r11 : Run setup begin _ (mid ⟨true, -1, 5, 0, [], none⟩ 1) :=
    r10.step (.error (er := 4) ⟨rfl, rfl, rfl⟩ rfl)
  refine ⟨_, _, _, r11, .events (now := fun fd g => decide (fd = 3 ∧ g = .read)) (eof := fun _ _ => false) ⟨rfl, rfl, rfl⟩ rfl
    ⟨?_, rfl⟩ ⟨?_, ?_, ?_⟩, ⟨2, ?_⟩, ?_⟩
  · decide
  · decide
  · intro g x d h
    simp only [List.mem_singleton, Prod.mk.injEq] at h
    obtain ⟨rfl, rfl, rfl⟩ := h
    exact ⟨3, false, rfl, by decide, rfl⟩
  · intro fd g d h hn
    left
    simp only [decide_eq_true_eq] at hn
    obtain ⟨rfl, rfl⟩ := hn
    cases h
    decide
  · simp [Signal.SIGINT]
  · decide +kernel

end Verif.Shutdown.Kqueue
