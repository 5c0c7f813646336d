import Verif.Log.Progress

/-! # How the logger is set up before the program changes it -/

namespace Verif.Log

open Spec (Level)

/-- The logger as `sc_log_init` promises: messages from INFO on go to the standard streams and nowhere else. -/
structure Plain (s : State) : Prop where
  level : s.level = .info
  stdout : s.sh.toStdout = true
  file : s.sh.fp = false
  callback : s.sh.cb = none

/-- The program has only logged messages. -/
def OnlyLogs (es : List Event) : Prop :=
  (∀ t op, Event.call t op ∈ es → ∃ l msg, op = .log l msg) ∧ ∀ l rc, Event.level l rc ∉ es

/-- The operation a thread is at, if any -/
def at_ : Status → Option Op
  | .idle => none
  | .check l msg => some (.log l msg)
  | .waiting op => some op
  | .inside op _ _ => some op

theorem stepLog_plain {name : List UInt8} {l : Level} {msg : List UInt8} {loc loc' : Loc} {o : Out} {s s' : Shared}
    (h : stepLog name l msg loc o s = .ok (loc', s')) (h1 : s.toStdout = true) (h2 : s.fp = false) (h3 : s.cb = none)
    (hp : loc.pc = .out1 ∨ loc.pc = .out2 ∨ loc.pc = .file1 ∨ loc.pc = .callback) :
    (s'.toStdout = true ∧ s'.fp = false ∧ s'.cb = none) ∧
    (loc'.pc = .out1 ∨ loc'.pc = .out2 ∨ loc'.pc = .file1 ∨ loc'.pc = .callback ∨ loc'.pc = .unlock) := by
  have he : ∀ b, (s.emit l b).toStdout = true ∧ (s.emit l b).fp = false ∧ (s.emit l b).cb = none := by
    intro b
    unfold Shared.emit
    split <;> exact ⟨h1, h2, h3⟩
  rcases hp with hp | hp | hp | hp
  · simp only [stepLog, hp] at h
    rw [if_pos h1] at h
    cases ht : o.tm with
    | none =>
      rw [ht] at h
      cases h
      exact ⟨⟨h1, h2, h3⟩, Or.inr (Or.inr (Or.inl rfl))⟩
    | some tm =>
      rw [ht] at h
      obtain ⟨nm, -, h⟩ := Res.bind_eq_ok.1 h
      cases h
      refine ⟨he _, ?_⟩
      split
      · exact Or.inr (Or.inl rfl)
      · exact Or.inr (Or.inr (Or.inl rfl))
  · simp only [stepLog, hp] at h
    cases h
    refine ⟨he _, ?_⟩
    split <;> exact Or.inr (Or.inr (Or.inl rfl))
  · simp only [stepLog, hp] at h
    rw [if_neg (by rw [h2]; decide)] at h
    cases h
    exact ⟨⟨h1, h2, h3⟩, Or.inr (Or.inr (Or.inr (Or.inl rfl)))⟩
  · simp only [stepLog, hp, h3] at h
    cases h
    exact ⟨⟨h1, h2, h3⟩, Or.inr (Or.inr (Or.inr (Or.inr rfl)))⟩

/-- What is known while the program only logs: nobody is inside anything else -/
structure Inv (s : State) : Prop where
  plain : Plain s
  ops : ∀ t op, at_ (s.th t).st = some op → ∃ l msg, op = .log l msg
  pcs : ∀ t op loc outs, (s.th t).st = .inside op loc outs →
    loc.pc = .out1 ∨ loc.pc = .out2 ∨ loc.pc = .file1 ∨ loc.pc = .callback ∨ loc.pc = .unlock

theorem Inv.set {s : State} (h : Inv s) (t : Nat) (x : Status) (ho : ∀ op, at_ x = some op → ∃ l msg, op = .log l msg)
    (hp : ∀ op loc outs, x = .inside op loc outs → loc.pc = .out1 ∨ loc.pc = .out2 ∨ loc.pc = .file1 ∨ loc.pc = .callback ∨ loc.pc = .unlock)
    {lock : Option Nat} {sh : Shared} (hs : sh.toStdout = true ∧ sh.fp = false ∧ sh.cb = none) :
    Inv { s.set t x with lock := lock, sh := sh } := by
  refine ⟨⟨h.plain.level, hs.1, hs.2.1, hs.2.2⟩, ?_, ?_⟩
  · intro i op hi
    simp only [State.set] at hi
    split at hi
    · exact ho op hi
    · exact h.ops i op hi
  · intro i op loc outs hi
    simp only [State.set] at hi
    split at hi
    · exact hp op loc outs hi
    · exact h.pcs i op loc outs hi

theorem step_inv {s s' : State} {e : Option Event} (h : Step s e s') (hi : Inv s)
    (hc : ∀ t op, e = some (.call t op) → ∃ l msg, op = .log l msg) (hl : ∀ l rc, e ≠ some (.level l rc)) : Inv s' := by
  have hp : s.sh.toStdout = true ∧ s.sh.fp = false ∧ s.sh.cb = none := ⟨hi.plain.stdout, hi.plain.file, hi.plain.callback⟩
  cases h with
  | call t op h0 =>
    obtain ⟨l, msg, rfl⟩ := hc t op rfl
    exact hi.set t _ (fun op h => by cases h; exact ⟨_, _, rfl⟩) (fun _ _ _ h => by cases h) hp
  | setLevel t str h0 h1 => exact absurd rfl (hl _ _)
  | setName t str h0 h1 =>
    refine ⟨⟨hi.plain.level, hi.plain.stdout, hi.plain.file, hi.plain.callback⟩, ?_, ?_⟩
    · intro i op h
      simp only at h
      split at h
      · exact hi.ops i op h
      · exact hi.ops i op h
    · intro i op loc outs h
      simp only at h
      split at h
      · exact hi.pcs i op loc outs h
      · exact hi.pcs i op loc outs h
  | @skip t l msg h0 h1 => exact hi.set t _ (fun op h => by cases h) (fun _ _ _ h => by cases h) hp
  | @pass t l msg h0 h1 =>
    exact hi.set t _ (fun op h => by cases h; exact ⟨_, _, rfl⟩) (fun _ _ _ h => by cases h) hp
  | @lock t op h0 h1 =>
    obtain ⟨l, msg, rfl⟩ := hi.ops t op (by rw [h0]; rfl)
    exact hi.set t _ (fun op h => by cases h; exact ⟨_, _, rfl⟩) (fun _ _ _ h => by cases h; exact Or.inl rfl) hp
  | @step t op loc outs loc' sh' o h0 h1 h2 =>
    obtain ⟨l, msg, rfl⟩ := hi.ops t op (by rw [h0]; rfl)
    have hpc := hi.pcs t _ _ _ h0
    obtain ⟨a, b⟩ := stepLog_plain h2 hp.1 hp.2.1 hp.2.2 (by rcases hpc with h | h | h | h | h <;> simp_all)
    exact hi.set t _ (fun op h => by cases h; exact ⟨_, _, rfl⟩) (fun _ _ _ h => by cases h; exact b) a
  | @unlock t op loc outs h0 h1 => exact hi.set t _ (fun op h => by cases h) (fun _ _ _ h => by cases h) hp

/-- **C61.** After `sc_log_init`, and as long as the program only logs messages, from any number of threads, the level is INFO, the standard
streams are enabled, and there is neither a file nor a callback. -/
theorem defaults_kept {fs : List UInt8 → Option (List UInt8)} {out err : List UInt8} {es : List Event} {s : State}
    (h : Run (begun fs out err) es s) (ho : OnlyLogs es) : Plain s := by
  have main : ∀ {s₀ es s}, Run s₀ es s → s₀ = begun fs out err → OnlyLogs es → Inv s := by
    intro s₀ es s h h0
    induction h with
    | refl =>
      intro _
      subst h0
      exact ⟨⟨rfl, rfl, rfl, rfl⟩, (fun t op h => by cases h), (fun t op loc outs h => by cases h)⟩
    | @step s' s'' e es _ hst ih =>
      intro ho
      refine step_inv hst (ih ⟨fun t op hm => ho.1 t op (List.mem_append_left _ hm), fun l rc hm => ho.2 l rc (List.mem_append_left _ hm)⟩) ?_ ?_
      · intro t op he
        subst he
        exact ho.1 t op (List.mem_append_right _ (List.mem_singleton.2 rfl))
      · intro l rc he
        subst he
        exact ho.2 l rc (List.mem_append_right _ (List.mem_singleton.2 rfl))
  exact (main h rfl ho).plain

/-- Two threads start to log. -/
example : ∃ s, Run (begun (fun _ => none) [] []) [.call 1 (.log .error [69]), .call 2 (.log .debug [70]), .skip 2 .debug [70] .info] s := by
  have r0 : Run (begun (fun _ => none) [] []) [] (begun (fun _ => none) [] []) := .refl
  have r1 := r0.step (.call 1 (.log .error [69]) rfl)
  have r2 := r1.step (.call 2 (.log .debug [70]) rfl)
  have r3 := r2.step (.skip (t := 2) (l := .debug) (msg := [70]) rfl (by decide))
  exact ⟨_, r3⟩

end Verif.Log
