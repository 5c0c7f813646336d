import Verif.Shutdown.Props
import Verif.Signal.Props

/-!
# A loop that is interrupted by SIGINT while it waits
-/

namespace Verif.Shutdown

open Poll.Epoll (calm)
open Signal (message logOf shutdown_message)

/-- The pipe is object 0 with descriptors 3 and 5; 7 is the data given for it. -/
def setup : Setup := ⟨calm, Poll.Epoll.fresh, 0, 7, 5⟩

/-- The poller after `sc_sock_poll_add` for the pipe. -/
def poll1 : Poll.Epoll.State :=
  ⟨⟨fun x => if x = 3 then some (0x2019#32, 7) else none, fun _ => true, 0, 1, false, List.replicate 128 0⟩,
    fun i => if i = 0 then ⟨3, Poll.READ⟩ else ⟨(i : Int) + 3, Poll.NONE⟩⟩

theorem poll1_made : Poll.Epoll.Runs calm Poll.Epoll.fresh [.add 0 Poll.READ.mask] [(0, 7)] poll1 := by
  have h : Poll.Epoll.add calm Poll.READ 7 (Poll.Epoll.fresh.obj 0) Poll.Epoll.fresh.w = .ok (0, poll1.w, ⟨3, Poll.READ⟩) := rfl
  have hs : Poll.Epoll.Step calm Poll.Epoll.fresh _ 0 7 _ := .add h
  exact Poll.Epoll.Runs.step .refl hs

/-- The loop begins. -/
def begin : State := ⟨⟨false, -1, 5, 0, [], none⟩, poll1, 0, false, false⟩

theorem begin_ok : Begin setup begin := by
  refine ⟨Poll.Epoll.calm_laws, Poll.Epoll.fresh_start, ⟨_, _, poll1_made, ?_, ?_, ?_⟩, by decide, rfl, rfl, rfl, rfl, rfl, rfl, rfl⟩
  · decide +kernel
  · decide +kernel
  · intro i d h
    simp only [List.mem_singleton, Prod.mk.injEq] at h
    obtain ⟨rfl, rfl⟩ := h
    simp [setup]

/-- The states of the loop, which is inside of `sc_sock_poll_wait`, by those of the handlers. -/
def mid (s : Signal.State) (n : Nat) : State := ⟨s, poll1, n, true, false⟩

/-- SIGINT arrives while the loop waits; its handler returns, `epoll_wait` is interrupted and called again,
and the loop is told. -/
example : ∃ es s s', Run setup begin es s ∧ Step setup s (some (.events [(0x1#32, 7)])) s' ∧ Arrived es ∧ s'.told = true := by
  have log : ∀ {s : Signal.State} {f : Signal.Frame} {fs : List Signal.Frame} {fmt : List UInt8}
      {args : List Signal.Spec.Arg} {pc : Signal.Pc}
      {m : List UInt8}, s.exit = none → s.frames = f :: fs → (f.sig = Signal.SIGINT ∨ f.sig = Signal.SIGTERM) →
      message f.sig f.pc = some m → logOf f.sig f.pc = some (fmt, args, pc) →
      Signal.Step s (some (.text f.fd m)) { s with errno := 0, frames := { f with pc := pc } :: fs } :=
    fun hx hf hs hm hl => .log 0 hx hf hl ((shutdown_message hs hl).2 hm)
  have r0 : Run setup begin [] begin := .refl
  have r1 : Run setup begin _ (mid ⟨false, -1, 5, 0, [], none⟩ 0) := r0.step (.enter ⟨rfl, rfl, rfl⟩ rfl)
  have r2 : Run setup begin _ (mid ⟨false, -1, 5, 0, [⟨2, .save, 0, 0, 0⟩], none⟩ 0) :=
    r1.step (.sig (.arrive Signal.SIGINT rfl (.inl rfl) (by simp [mid])) rfl)
  have r3 : Run setup begin _ (mid ⟨false, -1, 5, 0, [⟨2, .recv, 0, 1, 0⟩], none⟩ 0) :=
    r2.step (.sig (.save (f := ⟨2, .save, 0, 0, 0⟩) (fs := []) rfl rfl rfl) rfl)
  have r4 : Run setup begin _ (mid ⟨false, -1, 5, 0, [⟨2, .check, 0, 1, 0⟩], none⟩ 0) :=
    r3.step (.sig (log (f := ⟨2, .recv, 0, 1, 0⟩) (fs := []) rfl rfl (.inl rfl) rfl rfl) rfl)
  have r5 : Run setup begin _ (mid ⟨false, -1, 5, 0, [⟨2, .set, 0, 1, 0⟩], none⟩ 0) :=
    r4.step (.sig (.check (f := ⟨2, .check, 0, 1, 0⟩) (fs := []) rfl rfl rfl) rfl)
  have r6 : Run setup begin _ (mid ⟨true, -1, 5, 0, [⟨2, .choose, 0, 1, 0⟩], none⟩ 0) :=
    r5.step (.sig (.set (f := ⟨2, .set, 0, 1, 0⟩) (fs := []) rfl rfl rfl) rfl)
  have r7 : Run setup begin _ (mid ⟨true, -1, 5, 0, [⟨2, .sendLog, 0, 1, 0⟩], none⟩ 0) :=
    r6.step (.sig (.choose (f := ⟨2, .choose, 0, 1, 0⟩) (fs := []) rfl rfl rfl) rfl)
  have r8 : Run setup begin _ (mid ⟨true, -1, 5, 0, [⟨2, .send, 0, 1, 0⟩], none⟩ 0) :=
    r7.step (.sig (log (f := ⟨2, .sendLog, 0, 1, 0⟩) (fs := []) rfl rfl (.inl rfl) rfl rfl) rfl)
  have r9 : Run setup begin _ (mid ⟨true, -1, 5, 0, [⟨2, .restore, 0, 1, 0⟩], none⟩ 1) :=
    r8.step (.sig (.send (f := ⟨2, .send, 0, 1, 0⟩) (fs := []) 1 0 rfl rfl rfl) rfl)
  have r10 : Run setup begin _ (mid ⟨true, -1, 5, 0, [], none⟩ 1) :=
    r9.step (.sig (.restore (f := ⟨2, .restore, 0, 1, 0⟩) (fs := []) rfl rfl rfl) rfl)
  have r11 : Run setup begin _ (mid ⟨true, -1, 5, 0, [], none⟩ 1) :=
    r10.step (.error (er := 4) ⟨rfl, rfl, rfl⟩ rfl)
  refine ⟨_, _, _, r11, .events (now := fun fd => if fd = 3 then 1#32 else 0#32) ⟨rfl, rfl, rfl⟩ rfl ⟨?_, ?_⟩ ⟨?_, ?_, ?_⟩, ⟨2, ?_⟩, ?_⟩
  · decide
  · show ¬ Poll.Epoll.Broken 1#32
    unfold Poll.Epoll.Broken
    decide
  · decide
  · intro ev d h
    simp only [List.mem_singleton, Prod.mk.injEq] at h
    obtain ⟨rfl, rfl⟩ := h
    exact ⟨3, 0x2019#32, rfl, by decide, by decide⟩
  · intro fd reg d h _ hn
    left
    by_cases hfd : fd = 3
    · subst hfd
      cases h
      decide
    · simp [hfd] at hn
  · simp [Signal.SIGINT]
  · decide +kernel

end Verif.Shutdown
