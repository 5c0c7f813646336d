import Verif.Shutdown.Win
import Verif.Poll.WinDefects

/-!
# A loop on Windows that waits while Ctrl-C arrives

Meanwhile another thread registers another object.
-/

namespace Verif.Shutdown.Win

open Poll (READ EDGE)
open Poll.Win (plenty fds s₁ s₂ revs sys₀ start₀ polled finish eventInner P Sys blank entry)
open Signal.Win (CTRL_C_EVENT)

/-- 5 is the data given for the pipe, which is object 1, and 6 is that of object 2. -/
def given (i d : Nat) : Prop := (i = 0 ∧ d = 0) ∨ (i = 1 ∧ d = 5) ∨ (i = 2 ∧ d = 6)

/-- The writing end of the pipe is 9. -/
def setup : Setup := ⟨plenty, fds, given, 1, 5, 9⟩

def sig₀ : Signal.Win.State := ⟨false, -1, 9, fun _ => .idle, none⟩

/-- The requests made before the loop begins -/
def made : List Poll.Spec.Req := start₀ ++ [.add 1 READ.mask]

/-- The loop begins. -/
def begin : State := ⟨sig₀, made, ⟨s₁, .idle, 0, 0⟩, 0, false⟩

theorem begin_ok : Begin setup begin := by
  refine ⟨⟨fun _ => rfl, fun j => by show (3 + (j : Int)) ≠ -1; omega, .inl ⟨rfl, rfl⟩, ⟨sys₀, .idle, 0, 0⟩, by with_unfolding_all rfl, ?_⟩,
    rfl, by with_unfolding_all rfl, ?_, ?_, by decide, ?_, by decide, rfl, fun _ => rfl, rfl, rfl, rfl⟩
  · have r0 : Poll.Win.Runs plenty given ⟨sys₀, .idle, 0, 0⟩ start₀ start₀ ⟨sys₀, .idle, 0, 0⟩ := .refl
    exact r0.step (.add (w := ⟨sys₀, .idle, 0, 0⟩) (i := 1) (evs := READ) (d := 5) (rc := 0) (wake := false) (s := s₁)
      ⟨by decide, (fun hc => by cases hc), fun _ _ _ => by decide⟩ (.inr (.inl ⟨rfl, rfl⟩)) (by with_unfolding_all rfl))
  · with_unfolding_all rfl
  · with_unfolding_all rfl
  · intro i d h
    show i = 1 ↔ d = 5
    rcases h with ⟨rfl, rfl⟩ | ⟨rfl, rfl⟩ | ⟨rfl, rfl⟩ <;> decide

/-- A handler runs, from its start to its end. -/
theorem handler {s : State} (hs : s.sig = sig₀) : ∃ sig', Run setup s { s with sig := sig', bytes := s.bytes + 1 } ∧
    sig'.exit = none ∧ sig'.th 0 = .done := by
  obtain ⟨sig, l, w, bytes, seen⟩ := s
  simp only at hs
  subst hs
  have one : ∀ {s₀ : State} {sig e sig' n n'}, Run setup s₀ ⟨sig, l, w, n, seen⟩ → Signal.Win.Step sig e sig' →
      sig'.shutFd = sig.shutFd → n' = store 9 e n → Run setup s₀ ⟨sig', l, w, n', seen⟩ := by
    intro s₀ sig e sig' n n' hr hs hd hn
    subst hn
    exact hr.step (.sig hs hd)
  have r1 := one (n := bytes) (n' := bytes) .refl (.arrive (s := sig₀) 0 CTRL_C_EVENT rfl rfl (by decide)) rfl rfl
  have r2 := one (n' := bytes) r1 (.start (i := 0) (type := CTRL_C_EVENT) (fd := 0) rfl rfl) rfl rfl
  have r3 := one (n' := bytes) r2 (Signal.Win.Step.say (i := 0) (type := CTRL_C_EVENT) (pc := .recv) (fd := 1) rfl rfl (fun _ => Or.inl rfl) rfl rfl) rfl rfl
  have r4 := one (n' := bytes) r3 (.check (i := 0) (type := CTRL_C_EVENT) (fd := 1) rfl rfl) rfl rfl
  have r5 := one (n' := bytes) r4 (.set (i := 0) (type := CTRL_C_EVENT) (fd := 1) rfl rfl) rfl rfl
  have r6 := one (n' := bytes) r5 (.choose (i := 0) (type := CTRL_C_EVENT) (fd := 1) rfl rfl) rfl rfl
  have r7 := one (n' := bytes) r6 (Signal.Win.Step.say (i := 0) (type := CTRL_C_EVENT) (pc := .sendLog) (fd := 1) rfl rfl (fun h => by cases h) rfl rfl) rfl rfl
  have r8 := one (n' := bytes + 1) r7 (.send (i := 0) (type := CTRL_C_EVENT) (fd := 1) 1 rfl rfl) rfl rfl
  have r9 := one (n' := bytes + 1) r8 (.ret (i := 0) (type := CTRL_C_EVENT) (fd := 1) rfl rfl) rfl rfl
  exact ⟨_, r9, rfl, rfl⟩

/-- The poller after `WSAPoll` found input of the wakeup pipe and of the pipe, and after the wakeup pipe was read -/
def q₄ : P := match polled revs s₂.p with
  | .ok p => p
  | .ub => blank

def q₅ : P := match eventInner 0 { q₄ with remaining := 2 } with
  | .ok (_, p) => p
  | .ub => blank

def s₇ : Sys := match finish plenty ⟨q₅, s₂.obj⟩ with
  | .ok (_, _, s) => s
  | .ub => sys₀

/-- What is found for the pipe -/
theorem looks : Looks setup s₂.p 1 revs := by
  have key : ∀ i < 16, (entry s₂.p i).all (fun x => decide (x.1.fd = 4 → i = 1 ∧ x.1.ev = some READ)) = true := by
    with_unfolding_all decide +kernel
  intro i s q he hf
  have hlt : i < 16 := by
    refine Decidable.by_contra fun hc => ?_
    have hn : entry s₂.p i = none := by
      obtain ⟨ev, hev, hl⟩ : ∃ ev, s₂.p.events = some ev ∧ ev.length = 16 := ⟨_, by with_unfolding_all rfl, rfl⟩
      unfold entry
      rw [hev]
      simp only
      rw [List.getElem?_eq_none (by omega)]
    rw [hn] at he
    cases he
  have := key i hlt
  rw [he] at this
  simp only [Option.all_some, decide_eq_true_eq] at this
  obtain ⟨rfl, h2⟩ := this hf
  exact ⟨⟨fun _ => ⟨⟨READ, h2, by decide⟩, by decide⟩, fun _ => rfl⟩, rfl⟩

/-- The loop is told although a handler ran, and a request was made, while it waited. -/
example : ∃ s, Run setup begin s ∧ Handled s ∧ s.w.ph = .back true ∧ s.seen = true ∧
    s.w.s.p.count + s.w.s.p.ops.length ≤ 524288 ∧ finish plenty s.w.s = .ok (1, [(READ, 5)], s₇) := by
  have r1 : Run setup begin _ := .step .refl (.poll (o := none) (r := none) rfl (.enter (w := begin.w) rfl (by show (0 : Int) ≤ 0; decide)) (by simp)
    (fun hc => by cases hc))
  have r2 := r1.step (.poll (c := setup) (o := some 2) (r := some (.add 2 (READ ||| EDGE).mask)) rfl
    (.add (w := ⟨Poll.Win.enter s₁, .inPoll, 0, 0⟩) (i := 2) (evs := READ ||| EDGE) (d := 6) (rc := 0) (wake := true) (s := s₂)
      ⟨by decide, fun _ _ hc => absurd (congrFun hc .read) (by with_unfolding_all decide), (fun hc => by cases hc)⟩ (.inr (.inr ⟨rfl, rfl⟩))
      (by with_unfolding_all rfl)) (by decide) (fun _ n hc => by cases hc))
  have r3 := r2.step (.poll (c := setup) (o := none) (r := none) rfl (.write (w := ⟨s₂, .inPoll, 0, 1⟩) (k := 0) rfl) (by simp) (fun _ n hc => by cases hc))
  obtain ⟨sig', h1, hx, hd⟩ := handler (s := ⟨sig₀, made ++ [] ++ [.add 2 (READ ||| EDGE).mask] ++ [], ⟨s₂, .inPoll, 1, 0⟩, 0, false⟩) rfl
  have trans : ∀ {a b d : State}, Run setup a b → Run setup b d → Run setup a d := by
    intro a b d h h'
    induction h' with
    | refl => exact h
    | step _ hs ih => exact ih.step hs
  have r4 := trans r3 h1
  have r5 := r4.step (.asked (c := setup) (revs := revs) (n := 2) (p := q₄) hx rfl (by with_unfolding_all rfl) (by with_unfolding_all rfl)
    ⟨fun _ => Nat.one_pos, fun _ => rfl⟩ looks)
  have r6 := r5.step (.poll (c := setup) (o := none) (r := none) hx
    (.drain (w := ⟨⟨q₄, s₂.obj⟩, .got 2, 1, 0⟩) (n := 1) (evs := READ) (p := q₅) rfl (by with_unfolding_all rfl)) (by simp) (fun hc => by cases hc))
  exact ⟨_, r6, ⟨0, hd⟩, rfl, rfl,
    (by show q₅.count + q₅.ops.length ≤ 524288; with_unfolding_all decide), by with_unfolding_all rfl⟩

end Verif.Shutdown.Win
