import Verif.Signal.Win

/-!
# The handlers for Windows: proofs

C53 and C80 on Windows.
-/

namespace Verif.Signal.Win

open Verif.Signal.Spec (Arg Numeral Signed NoMin Renders)
open Verif.Signal (lit text log cstr_lit noMin_of renders_plain log_text num num_spec num_length signed_of Renders.prepend)

@[simp] theorem at_th (s : State) (i j : Nat) (t : Thread) :
    (s.at i t).th j = if j = i then t else s.th j := rfl
@[simp] theorem at_will (s : State) (i : Nat) (t : Thread) : (s.at i t).will = s.will := rfl
@[simp] theorem at_exit (s : State) (i : Nat) (t : Thread) : (s.at i t).exit = s.exit := rfl
@[simp] theorem at_shutFd (s : State) (i : Nat) (t : Thread) : (s.at i t).shutFd = s.shutFd := rfl
@[simp] theorem at_logFd (s : State) (i : Nat) (t : Thread) : (s.at i t).logFd = s.logFd := rfl

theorem Step.running {s s' : State} {e : Option Event} (h : Step s e s') : s.exit = none := by
  cases h <;> assumption

/-! ## The end of a handler that finds the flag set -/

/-- The positions of a handler that can only end the process with status 1. -/
def Pc.forced : Pc → Bool
  | .start | .otherLog | .otherExit | .recv | .check | .forceLog | .forceExit => true
  | _ => false

/-- The positions of a handler for an event without a name. -/
def Pc.other : Pc → Bool
  | .start | .otherLog | .otherExit => true
  | _ => false

/-- Thread `i` is in a handler that can only end the process with status 1. -/
def Doomed (s : State) (i : Nat) : Prop :=
  ∃ type pc fd, s.th i = .run type pc fd ∧
    (s.will = true ∧ pc.forced = true ∨ eventName type = none ∧ pc.other = true)

theorem Doomed.step {s s' : State} {i : Nat} {e : Option Event} (h : Doomed s i) (hs : Step s e s') :
    Doomed s' i ∧ (∀ fd rc, e ≠ some (.command i fd rc)) ∧ e ≠ some (.ret i) ∧
    ∀ c, e = some (.exit i c) → c = 1 := by
  obtain ⟨type, pc, fd, ht, hp⟩ := h
  -- a step of another thread
  have other : ∀ {j : Nat} {t : Thread}, i ≠ j → Doomed (s.at j t) i := by
    intro j t hj
    exact ⟨type, pc, fd, by simp [hj, ht], hp⟩
  -- a step of this one
  have own : ∀ {pc' : Pc} {fd' : Int}, (s.will = true ∧ pc'.forced = true ∨ eventName type = none ∧ pc'.other = true) →
      Doomed (s.at i (.run type pc' fd')) i := by
    intro pc' fd' h
    exact ⟨type, pc', fd', by simp, h⟩
  cases hs with
  | app l d _ => exact ⟨⟨type, pc, fd, ht, hp⟩, by simp, by simp, by simp⟩
  | arrive j ty _ hj _ =>
    have hij : i ≠ j := fun e => by rw [← e, ht] at hj; cases hj
    exact ⟨other hij, by simp, by simp, by simp⟩
  | @start j ty f _ hj =>
    by_cases hij : i = j
    · subst hij
      rw [ht] at hj
      injection hj with h1 h2 h3
      subst h1
      refine ⟨own ?_, by simp, by simp, by simp⟩
      by_cases hn : eventName type = none
      · rw [if_pos hn]; exact Or.inr ⟨hn, rfl⟩
      · rw [if_neg hn]
        rcases hp with hp | hp
        · exact Or.inl ⟨hp.1, rfl⟩
        · exact absurd hp.1 hn
    · exact ⟨other hij, by simp, by simp, by simp⟩
  | @log j ty p f fmt args p' bytes _ hj hl _ =>
    by_cases hij : i = j
    · subst hij
      rw [ht] at hj
      injection hj with h1 h2 h3
      subst h1 h2 h3
      refine ⟨own ?_, by simp, by simp, by simp⟩
      cases pc <;> simp [logOf, Pc.forced, Pc.other] at hl hp <;> rw [← hl.2.2]
      · rcases hp with hp | hp
        · exact Or.inl ⟨hp, rfl⟩
        · exact Or.inr ⟨hp, rfl⟩
      · exact Or.inl ⟨hp, rfl⟩
      · exact Or.inl ⟨hp, rfl⟩
    · exact ⟨other hij, by simp, by simp, by simp⟩
  | @check j ty f _ hj =>
    by_cases hij : i = j
    · subst hij
      rw [ht] at hj
      injection hj with h1 h2 h3
      subst h1 h2 h3
      refine ⟨own ?_, by simp, by simp, by simp⟩
      simp [Pc.forced, Pc.other] at hp
      rw [if_pos hp]
      exact Or.inl ⟨hp, rfl⟩
    · exact ⟨other hij, by simp, by simp, by simp⟩
  | exit1 _ hj hpc => exact ⟨⟨type, pc, fd, ht, hp⟩, by simp, by simp, by simp⟩
  | @exit0 j ty f _ hj =>
    refine ⟨⟨type, pc, fd, ht, hp⟩, by simp, by simp, ?_⟩
    intro c hc
    simp only [Option.some.injEq, Event.exit.injEq] at hc
    obtain ⟨rfl, -⟩ := hc
    rw [ht] at hj
    injection hj with h1 h2 h3
    rw [h2] at hp
    simp [Pc.forced, Pc.other] at hp
  | @set j ty f _ hj =>
    by_cases hij : i = j
    · subst hij
      rw [ht] at hj
      injection hj with h1 h2 h3
      rw [h2] at hp
      simp [Pc.forced, Pc.other] at hp
    · refine ⟨⟨type, pc, fd, by simp [hij, ht], ?_⟩, by simp, by simp, by simp⟩
      rcases hp with hp | hp
      · exact Or.inl ⟨rfl, hp.2⟩
      · exact Or.inr hp
  | @choose j ty f _ hj =>
    by_cases hij : i = j
    · subst hij
      rw [ht] at hj
      injection hj with h1 h2 h3
      rw [h2] at hp
      simp [Pc.forced, Pc.other] at hp
    · exact ⟨other hij, by simp, by simp, by simp⟩
  | @send j ty f rc _ hj =>
    by_cases hij : i = j
    · subst hij
      rw [ht] at hj
      injection hj with h1 h2 h3
      rw [h2] at hp
      simp [Pc.forced, Pc.other] at hp
    · exact ⟨other hij, by simp; intros; omega, by simp, by simp⟩
  | @ret j ty f _ hj =>
    by_cases hij : i = j
    · subst hij
      rw [ht] at hj
      injection hj with h1 h2 h3
      rw [h2] at hp
      simp [Pc.forced, Pc.other] at hp
    · exact ⟨other hij, by simp, by simp; omega, by simp⟩

theorem Doomed.run {s s' : State} {i : Nat} {es : List Event} (h : Doomed s i) (hr : Run s es s') :
    Doomed s' i ∧ (∀ fd rc, .command i fd rc ∉ es) ∧ .ret i ∉ es ∧ ∀ c, .exit i c ∈ es → c = 1 := by
  induction hr with
  | refl => exact ⟨h, by simp, by simp, by simp⟩
  | @step s2 s3 e es _ hst ih =>
    obtain ⟨hd, h1, h2, h3⟩ := ih
    obtain ⟨hd', g1, g2, g3⟩ := hd.step hst
    refine ⟨hd', ?_, ?_, ?_⟩
    · intro fd rc hm
      rcases List.mem_append.1 hm with hm | hm
      · exact h1 fd rc hm
      · exact g1 fd rc (by simpa using hm)
    · intro hm
      rcases List.mem_append.1 hm with hm | hm
      · exact h2 hm
      · exact g2 (by simpa using hm)
    · intro c hm
      rcases List.mem_append.1 hm with hm | hm
      · exact h3 c hm
      · exact g3 c (by simpa using hm)

/-- **C53 on Windows.** The handler of an event that arrives after a handler has set the flag sends no
command and does not return, whatever the other threads do; if it gets to an exit, the process ends
with status 1. `handler_work` and `handler_progress` say that it gets there if nobody ends the process
before.
Missing: events before the flag is set (`shutdown_race_violated`). -/
theorem shutdown_forced_partial {s s1 s' : State} {i type : Nat} {es : List Event} (hw : s.will = true)
    (ha : Step s (some (.arrive i type)) s1) (hr : Run s1 es s') :
    (∃ pc fd, s'.th i = .run type pc fd) ∧ (∀ fd rc, .command i fd rc ∉ es) ∧ .ret i ∉ es ∧
    ∀ c, .exit i c ∈ es → c = 1 := by
  have hd : Doomed s1 i ∧ ∃ pc fd, s1.th i = .run type pc fd := by
    cases ha with
    | arrive _ _ _ _ _ => exact ⟨⟨type, .start, 0, by simp, Or.inl ⟨hw, rfl⟩⟩, .start, 0, by simp⟩
  obtain ⟨h1, h2, h3, h4⟩ := hd.1.run hr
  refine ⟨?_, h2, h3, h4⟩
  clear h1 h2 h3 h4
  suffices h : Doomed s' i ∧ ∃ pc fd, s'.th i = .run type pc fd from h.2
  induction hr with
  | refl => exact hd
  | @step s2 s3 e es _ hst ih =>
    refine ⟨(ih.1.step hst).1, ?_⟩
    obtain ⟨pc, fd, ht⟩ := ih.2
    obtain ⟨hd', -, hnr, -⟩ := ih.1.step hst
    cases hst with
    | app => exact ⟨pc, fd, ht⟩
    | exit1 => exact ⟨pc, fd, ht⟩
    | exit0 => exact ⟨pc, fd, ht⟩
    | @arrive j ty _ hj _ =>
      have hij : i ≠ j := fun e => by rw [← e, ht] at hj; cases hj
      exact ⟨pc, fd, by simp [hij, ht]⟩
    | @ret j ty f _ hj =>
      have hij : i ≠ j := fun e => hnr (by rw [e])
      exact ⟨pc, fd, by simp [hij, ht]⟩
    | @start j ty f _ hj | @log j ty p f _ _ p' _ _ hj _ _ | @check j ty f _ hj | @set j ty f _ hj
    | @choose j ty f _ hj | @send j ty f _ _ hj =>
      by_cases hij : i = j
      · subst hij
        rw [ht] at hj
        injection hj with h1 h2 h3
        subst h1
        exact ⟨_, _, by simp; exact ⟨rfl, rfl⟩⟩
      · exact ⟨pc, fd, by simp [hij, ht]⟩

/-- The handler of an event that is neither Ctrl-C nor Ctrl-Break, such as closing the console, sends no
command and does not return; it ends the process with status 1, also the first time. -/
theorem other_exits {s s1 s' : State} {i type : Nat} {es : List Event}
    (ht : type ≠ CTRL_C_EVENT) (ht' : type ≠ CTRL_BREAK_EVENT)
    (ha : Step s (some (.arrive i type)) s1) (hr : Run s1 es s') :
    (∀ fd rc, .command i fd rc ∉ es) ∧ .ret i ∉ es ∧ ∀ c, .exit i c ∈ es → c = 1 := by
  have hd : Doomed s1 i := by
    cases ha with
    | arrive _ _ _ _ _ => exact ⟨type, .start, 0, by simp, Or.inr ⟨by simp [eventName, ht, ht'], rfl⟩⟩
  exact (hd.run hr).2

/-! ## The first event -/

/-- The commands in an execution, with descriptor and result. -/
def commands (es : List Event) : List (Int × Int) :=
  es.filterMap fun | .command _ fd rc => some (fd, rc) | _ => none

/-- How often a handler has returned. -/
def returns (es : List Event) : Nat :=
  (es.filter fun | .ret _ => true | _ => false).length

/-- Where the only handler can be, with the commands so far. -/
def First (fixed : Prop) (shutFd : Int) (will : Bool) (cmds : List (Int × Int)) : Pc → Prop
  | .start | .recv | .check | .set => will = false ∧ cmds = []
  | .choose => will = true ∧ cmds = []
  | .sendLog | .send => will = true ∧ (fixed → shutFd ≠ -1) ∧ cmds = []
  | .failLog | .failExit => will = true ∧ (fixed → shutFd ≠ -1) ∧ ∃ fd rc, rc ≠ 1 ∧ (fixed → fd = shutFd) ∧ cmds = [(fd, rc)]
  | .ret => will = true ∧ (fixed → shutFd ≠ -1) ∧ ∃ fd, (fixed → fd = shutFd) ∧ cmds = [(fd, 1)]
  | .noneLog | .noneExit => will = true ∧ (fixed → shutFd = -1) ∧ cmds = []
  | .forceLog | .forceExit | .otherLog | .otherExit => False

/-- **C53 on Windows.** The first Ctrl-C or Ctrl-Break, if no other event arrives: its handler is still
running, or it has sent one byte to the shutdown descriptor and returned with the flag set, or there is
no descriptor and it has exited with 0, or sending has failed and it has exited with 1. The
descriptor is the one that was set when the event arrived, unless the application changes it
meanwhile. -/
theorem shutdown_first {s s1 s' : State} {i type : Nat} {es : List Event} (hw : s.will = false)
    (hi : ∀ j t pc fd, s.th j ≠ .run t pc fd) (ht : type = CTRL_C_EVENT ∨ type = CTRL_BREAK_EVENT)
    (ha : Step s (some (.arrive i type)) s1) (hr : Run s1 es s') (hn : ∀ j t, .arrive j t ∉ es) :
    (s'.exit = none ∧ (∃ pc fd, s'.th i = .run type pc fd) ∧ returns es = 0) ∨
    (s'.exit = none ∧ s'.th i = .done ∧ s'.will = true ∧ returns es = 1 ∧
      ∃ fd, commands es = [(fd, 1)] ∧ (.app ∉ es → fd = s.shutFd ∧ s.shutFd ≠ -1)) ∨
    (s'.exit = some 0 ∧ commands es = [] ∧ returns es = 0 ∧ (.app ∉ es → s.shutFd = -1)) ∨
    (s'.exit = some 1 ∧ returns es = 0 ∧
      ∃ fd rc, rc ≠ 1 ∧ commands es = [(fd, rc)] ∧ (.app ∉ es → fd = s.shutFd ∧ s.shutFd ≠ -1)) := by
  suffices h : (s'.exit = none ∧ returns es = 0 ∧ (.app ∉ es → s'.shutFd = s.shutFd) ∧
        (∀ j t pc fd, j ≠ i → s'.th j ≠ .run t pc fd) ∧
        ∃ pc fd, s'.th i = .run type pc fd ∧ First (.app ∉ es) s.shutFd s'.will (commands es) pc) ∨
      (s'.exit = none ∧ s'.th i = .done ∧ (∀ j t pc fd, s'.th j ≠ .run t pc fd) ∧ s'.will = true ∧ returns es = 1 ∧
        ∃ fd, commands es = [(fd, 1)] ∧ (.app ∉ es → fd = s.shutFd ∧ s.shutFd ≠ -1)) ∨
      (s'.exit = some 0 ∧ commands es = [] ∧ returns es = 0 ∧ (.app ∉ es → s.shutFd = -1)) ∨
      (s'.exit = some 1 ∧ returns es = 0 ∧
        ∃ fd rc, rc ≠ 1 ∧ commands es = [(fd, rc)] ∧ (.app ∉ es → fd = s.shutFd ∧ s.shutFd ≠ -1)) by
    rcases h with ⟨h1, h2, _, _, pc, fd, h3, _⟩ | ⟨h1, h2, _, h3⟩ | h | h
    · exact Or.inl ⟨h1, ⟨pc, fd, h3⟩, h2⟩
    · exact Or.inr (Or.inl ⟨h1, h2, h3⟩)
    · exact Or.inr (Or.inr (Or.inl h))
    · exact Or.inr (Or.inr (Or.inr h))
  induction hr with
  | refl =>
    cases ha with
    | arrive _ _ hx _ _ =>
      refine Or.inl ⟨hx, rfl, fun _ => rfl, ?_, .start, 0, by simp, hw, rfl⟩
      intro j t pc fd hj
      simp [hj, hi]
  | @step s2 s3 e es _ hst ih =>
    have hn' : ∀ j t, Event.arrive j t ∉ es := fun j t hg => hn j t (by simp [hg])
    have ce : ∀ e : Option Event, commands (es ++ e.toList) = commands es ++ commands e.toList := by
      intro e; simp [commands]
    have re : ∀ e : Option Event, returns (es ++ e.toList) = returns es + returns e.toList := by
      intro e; simp [returns]
    rw [ce, re]
    rcases ih hn' with ⟨hx, hret, hsh, hoth, pc, fd, hf, hF⟩ | ⟨hx, hf, hoth, hwt, hr1, fd, hrest⟩ | ⟨h, _⟩ | ⟨h, _⟩
    · -- the handler is running
      have mine : ∀ {j t p f}, s2.th j = .run t p f → j = i ∧ t = type ∧ p = pc ∧ f = fd := by
        intro j t p f hj
        by_cases hji : j = i
        · subst hji
          rw [hf] at hj
          injection hj with h1 h2 h3
          exact ⟨rfl, h1.symm, h2.symm, h3.symm⟩
        · exact absurd hj (hoth j t p f hji)
      have rest : ∀ {t' : Thread}, ∀ j t p f, j ≠ i → (s2.at i t').th j ≠ .run t p f := by
        intro t' j t p f hj
        simp [hj]
        exact hoth j t p f hj
      have app_iff : ∀ {e : Option Event}, e ≠ some .app → (Event.app ∉ es ++ e.toList ↔ Event.app ∉ es) := by
        intro e he
        cases e with
        | none => simp
        | some e => simp at he ⊢; intro _; exact fun h => he h.symm
      cases hst with
      | app l d _ =>
        refine Or.inl ⟨hx, by simpa [returns] using hret, fun h => absurd (by simp) h, hoth, pc, fd, hf, ?_⟩
        have hc : commands (some Event.app).toList = [] := rfl
        rw [hc, List.append_nil]
        have hno : ¬ Event.app ∉ es ++ (some Event.app).toList := by simp
        have hno' : (Event.app ∉ es ++ (some Event.app).toList) = False := by simp
        rw [hno']
        cases pc <;> simp only [First] at hF ⊢ <;> first
          | exact hF
          | (obtain ⟨a, -, b⟩ := hF; exact ⟨a, fun h => h.elim, b⟩)
          | (obtain ⟨a, -, f, rc, b, -, c⟩ := hF; exact ⟨a, fun h => h.elim, f, rc, b, fun h => h.elim, c⟩)
          | (obtain ⟨a, -, f, -, c⟩ := hF; exact ⟨a, fun h => h.elim, f, fun h => h.elim, c⟩)
      | arrive j t => exact absurd (by simp) (hn j t)
      | @start j t f _ hj =>
        obtain ⟨rfl, rfl, rfl, rfl⟩ := mine hj
        refine Or.inl ⟨hx, by simpa [returns] using hret, by simpa using hsh, rest, _, _, by simp; exact ⟨rfl, rfl⟩, ?_⟩
        have hnm : eventName t ≠ none := by rcases ht with rfl | rfl <;> simp [eventName]
        rw [if_neg hnm]
        simpa [First, commands] using hF
      | @log j t p f fmt args p' bytes _ hj hl _ =>
        obtain ⟨rfl, rfl, rfl, rfl⟩ := mine hj
        refine Or.inl ⟨hx, by simpa [returns] using hret, by simpa using hsh, rest, p', f, by simp, ?_⟩
        rw [show (Event.app ∉ es ++ (some (Event.text j f bytes)).toList) = (Event.app ∉ es) from
          propext (app_iff (by simp))]
        have hc : commands (some (Event.text j f bytes)).toList = [] := rfl
        rw [hc, List.append_nil]
        cases p <;> simp [logOf] at hl <;> simp only [First] at hF <;> rw [← hl.2.2] <;> simp only [First, at_will] <;> exact hF
      | @check j t f _ hj =>
        obtain ⟨rfl, rfl, rfl, rfl⟩ := mine hj
        refine Or.inl ⟨hx, by simpa [returns] using hret, by simpa using hsh, rest, _, _, by simp; exact ⟨rfl, rfl⟩, ?_⟩
        have hF : s2.will = false ∧ commands es = [] := hF
        rw [if_neg (by simp [hF.1])]
        simpa [First, commands] using hF
      | @exit1 j t p f _ hj hp =>
        obtain ⟨rfl, rfl, rfl, rfl⟩ := mine hj
        rcases hp with rfl | rfl | rfl
        · exact hF.elim
        · exact hF.elim
        · obtain ⟨-, h1, g, rc, h2, h3, h4⟩ := hF
          refine Or.inr (Or.inr (Or.inr ⟨rfl, by simpa [returns] using hret, g, rc, h2, by simpa [commands] using h4, ?_⟩))
          intro hno
          have hno := (app_iff (e := some (.exit j 1)) (by simp)).1 hno
          exact ⟨h3 hno, h1 hno⟩
      | @exit0 j t f _ hj =>
        obtain ⟨rfl, rfl, rfl, rfl⟩ := mine hj
        obtain ⟨-, h1, h2⟩ := hF
        refine Or.inr (Or.inr (Or.inl ⟨rfl, by simpa [commands] using h2, by simpa [returns] using hret, ?_⟩))
        intro hno
        exact h1 ((app_iff (e := some (.exit j 0)) (by simp)).1 hno)
      | @set j t f _ hj =>
        obtain ⟨rfl, rfl, rfl, rfl⟩ := mine hj
        refine Or.inl ⟨hx, by simpa [returns] using hret, by simpa using hsh, rest, .choose, f, by simp, ?_⟩
        exact ⟨rfl, by simpa [commands] using hF.2⟩
      | @choose j t f _ hj =>
        obtain ⟨rfl, rfl, rfl, rfl⟩ := mine hj
        obtain ⟨h1, h2⟩ : s2.will = true ∧ commands es = [] := hF
        have hno : (Event.app ∉ es ++ (none : Option Event).toList) = (Event.app ∉ es) := by simp
        have hc : commands es ++ commands (none : Option Event).toList = [] := by rw [h2]; rfl
        rw [hno, hc]
        by_cases h : s2.shutFd = -1
        · exact Or.inl ⟨hx, by simpa [returns] using hret, hsh, rest, .noneLog, f, by simp [h],
            h1, fun hno => by rw [← hsh hno, h], rfl⟩
        · exact Or.inl ⟨hx, by simpa [returns] using hret, hsh, rest, .sendLog, f, by simp [h],
            h1, fun hno => by rw [← hsh hno]; exact h, rfl⟩
      | @send j t f rc _ hj =>
        obtain ⟨rfl, rfl, rfl, rfl⟩ := mine hj
        have e1 : Event.app ∉ es ++ (some (Event.command j s2.shutFd rc)).toList ↔ Event.app ∉ es := app_iff (by simp)
        obtain ⟨h1, h2, h3⟩ := hF
        rw [show (Event.app ∉ es ++ (some (Event.command j s2.shutFd rc)).toList) = (Event.app ∉ es) from propext e1]
        have hc : commands es ++ commands (some (Event.command j s2.shutFd rc)).toList = [(s2.shutFd, rc)] := by
          rw [h3]; rfl
        rw [hc]
        by_cases h : rc = 1
        · exact Or.inl ⟨hx, by simpa [returns] using hret, hsh, rest, .ret, f, by simp [h],
            h1, h2, s2.shutFd, hsh, by rw [h]⟩
        · exact Or.inl ⟨hx, by simpa [returns] using hret, hsh, rest, .failLog, f, by simp [h],
            h1, h2, s2.shutFd, rc, h, hsh, rfl⟩
      | @ret j t f _ hj =>
        obtain ⟨rfl, rfl, rfl, rfl⟩ := mine hj
        obtain ⟨h1, h2, g, h3, h4⟩ := hF
        refine Or.inr (Or.inl ⟨hx, by simp, ?_, h1, by simp [returns] at hret ⊢; exact hret, g, by simpa [commands] using h4, ?_⟩)
        · intro k t p f
          by_cases hk : k = j
          · simp [hk]
          · simp [hk]; exact hoth k t p f hk
        · intro hno
          have hno := (app_iff (e := some (.ret j)) (by simp)).1 hno
          exact ⟨h3 hno, h2 hno⟩
    · -- it has returned: only the application goes on
      cases hst with
      | app l d _ =>
        refine Or.inr (Or.inl ⟨hx, hf, hoth, hwt, by simpa [returns] using hr1, fd, by simpa [commands] using hrest.1, ?_⟩)
        intro hno
        exact absurd (by simp) hno
      | arrive j t => exact absurd (by simp) (hn j t)
      | start _ hj => exact absurd hj (hoth _ _ _ _)
      | log _ hj => exact absurd hj (hoth _ _ _ _)
      | check _ hj => exact absurd hj (hoth _ _ _ _)
      | exit1 _ hj => exact absurd hj (hoth _ _ _ _)
      | exit0 _ hj => exact absurd hj (hoth _ _ _ _)
      | set _ hj => exact absurd hj (hoth _ _ _ _)
      | choose _ hj => exact absurd hj (hoth _ _ _ _)
      | send _ _ hj => exact absurd hj (hoth _ _ _ _)
      | ret _ hj => exact absurd hj (hoth _ _ _ _)
    · rw [hst.running] at h; cases h
    · rw [hst.running] at h; cases h

/-! ## The messages -/

theorem log_lit {buf dst t : List UInt8} {s : String} {args : List Arg} (h0 : 0 ∉ text s)
    (hr : Renders (text s) args t) (hm : NoMin args) (ht : t.length ≤ 127) (hb : buf.length = 128)
    (hd : dst.length = 32) : log buf 128 (lit s) args dst = .ok t := by
  have h := cstr_lit h0
  generalize lit s = fmt at h ⊢
  rw [log_text h hr hm hd (by omega) (by omega) (by omega), List.take_of_length_le (by omega)]

theorem logCall_lit {t bytes : List UInt8} {s : String} {args : List Arg} (h0 : 0 ∉ text s)
    (hr : Renders (text s) args t) (hm : NoMin args) (ht : t.length ≤ 127) :
    LogCall (lit s) args bytes ↔ bytes = t := by
  constructor
  · rintro ⟨buf, dst, hb, hd, e⟩
    rw [log_lit h0 hr hm ht hb hd] at e
    injection e with e
    exact e.symm
  · rintro rfl
    exact ⟨List.replicate 128 0, List.replicate 32 0, List.length_replicate .., List.length_replicate ..,
      log_lit h0 hr hm ht (List.length_replicate ..) (List.length_replicate ..)⟩

/-- The decimal numeral of a number of 32 bits that is taken for a signed one. -/
def decimal (n : Nat) : List UInt8 :=
  if 0 ≤ (Int32.ofNat n).toInt then num 10 (Int32.ofNat n).toInt.toNat
  else 45 :: num 10 (-(Int32.ofNat n).toInt).toNat

theorem decimal_spec (n : Nat) : Signed (decimal n) (Int32.ofNat n).toInt := by
  unfold decimal
  by_cases h : 0 ≤ (Int32.ofNat n).toInt
  · rw [if_pos h]; exact Or.inl ⟨h, num_spec (by omega) (by omega)⟩
  · rw [if_neg h]; exact Or.inr ⟨by omega, _, rfl, num_spec (by omega) (by omega)⟩

theorem decimal_length (n : Nat) : (decimal n).length ≤ 11 := by
  have h1 := (Int32.ofNat n).toInt_lt
  have h2 := (Int32.ofNat n).le_toInt
  unfold decimal
  split
  · have : (num 10 (Int32.ofNat n).toInt.toNat).length ≤ 10 := num_length (k := 9) (by omega)
    omega
  · have : (num 10 (-(Int32.ofNat n).toInt).toNat).length ≤ 10 := num_length (k := 9) (by omega)
    simp only [List.length_cons]
    omega

/-- What the handler logs at a position. -/
def message (type : Nat) : Pc → Option (List UInt8)
  | .otherLog => some (text "Unknown console event [" ++ decimal type ++ text "], shutting down! \n")
  | .recv => some (if type = 0 then text "Received : CTRL_C event, (0) \n"
      else text "Received : CTRL_BREAK event, (1) \n")
  | .forceLog => some (text "Forcing shut down! \n")
  | .sendLog => some (text "Sending shutdown command. \n")
  | .failLog => some (text "Failed to send shutdown command, shutting down immediately! \n")
  | .noneLog => some (text "No shutdown handler, shutting down! \n")
  | _ => none

/-- The texts that the handler logs. None is cut by the buffer of 128 bytes. -/
theorem shutdown_message {type : Nat} {pc pc' : Pc} {fmt bytes : List UInt8} {args : List Arg}
    (hs : pc = .recv → type = CTRL_C_EVENT ∨ type = CTRL_BREAK_EVENT)
    (h : logOf type pc = some (fmt, args, pc')) :
    LogCall fmt args bytes ↔ message type pc = some bytes := by
  have plain : ∀ s : String, 0 ∉ text s → 37 ∉ text s → (text s).length ≤ 127 →
      (LogCall (lit s) [] bytes ↔ some (text s) = some bytes) := by
    intro s h0 h37 hl
    rw [logCall_lit h0 (renders_plain h37) (noMin_of (by simp)) hl]
    constructor
    · rintro rfl; rfl
    · intro e; injection e with e; exact e.symm
  have recv : ∀ {name : String} {t d : List UInt8}, (type = 0 ∨ type = 1) → eventName type = some (lit name) →
      0 ∉ text name → num 10 type = d → message type .recv = some t →
      t = text "Received : " ++ (text name ++ (text ", (" ++ (d ++ text ") \n"))) → t.length ≤ 127 →
      (LogCall (lit "Received : %s, (%d) \n") [.str (eventName type), .int (Int32.ofNat type)] bytes ↔
        message type .recv = some bytes) := by
    intro name t d hty hn h0 hd hmsg ht hl
    rw [logCall_lit (t := t) (by decide +kernel) ?_ ?_ hl, hmsg]
    · constructor
      · rintro rfl; rfl
      · intro e; injection e with e; exact e.symm
    · have : text "Received : %s, (%d) \n" =
          text "Received : " ++ (37 :: [115] ++ (text ", (" ++ (37 :: [100] ++ text ") \n"))) := by decide +kernel
      rw [this, ht, hn]
      refine Renders.prepend (by decide +kernel) (.conv (.s (cstr_lit h0)) ?_)
      refine Renders.prepend (by decide +kernel) (.conv (.d (signed_of (n := type) ?_ hd)) ?_)
      · rcases hty with rfl | rfl <;> rfl
      · exact renders_plain (by decide +kernel)
    · apply noMin_of
      intro a ha v
      simp at ha
      rcases ha with rfl | rfl <;> simp
  cases pc <;> simp only [logOf, Option.some.injEq, Prod.mk.injEq, reduceCtorEq] at h <;>
    obtain ⟨rfl, rfl, -⟩ := h
  · have hlen := decimal_length type
    rw [logCall_lit (t := text "Unknown console event [" ++ decimal type ++ text "], shutting down! \n")
      (by decide +kernel) ?_ (noMin_of (by simp)) ?_]
    · constructor
      · rintro rfl; rfl
      · intro e; injection e with e; exact e.symm
    · have : text "Unknown console event [%d], shutting down! \n" =
          text "Unknown console event [" ++ (37 :: [100] ++ text "], shutting down! \n") := by decide +kernel
      rw [this, List.append_assoc]
      refine Renders.prepend (by decide +kernel) (.conv (.d (decimal_spec type)) ?_)
      exact renders_plain (by decide +kernel)
    · have l1 : (text "Unknown console event [").length = 23 := by decide +kernel
      have l2 : (text "], shutting down! \n").length = 19 := by decide +kernel
      simp only [List.length_append, l1, l2]
      omega
  · rcases hs rfl with rfl | rfl
    · exact recv (name := "CTRL_C event") (d := [48]) (Or.inl rfl) rfl (by decide +kernel) (by decide +kernel) rfl
        (by decide +kernel) (by decide +kernel)
    · exact recv (name := "CTRL_BREAK event") (d := [49]) (Or.inr rfl) rfl (by decide +kernel) (by decide +kernel) rfl
        (by decide +kernel) (by decide +kernel)
  · exact plain _ (by decide +kernel) (by decide +kernel) (by decide +kernel)
  · exact plain _ (by decide +kernel) (by decide +kernel) (by decide +kernel)
  · exact plain _ (by decide +kernel) (by decide +kernel) (by decide +kernel)
  · exact plain _ (by decide +kernel) (by decide +kernel) (by decide +kernel)

/-! ## Handlers end -/

/-- The greatest number of steps that a handler has left at a position. -/
def Pc.left : Pc → Nat
  | .start => 9
  | .recv => 8
  | .check => 7
  | .set => 6
  | .choose => 5
  | .sendLog => 4
  | .send => 3
  | .failLog | .forceLog | .otherLog | .noneLog => 2
  | .failExit | .forceExit | .otherExit | .noneExit | .ret => 1

/-- The same for a thread. -/
def Thread.left : Thread → Nat
  | .run _ pc _ => pc.left
  | _ => 0

/-- Every step is one of the application, the arrival of an event, the end of the process, or brings
one handler nearer to its end and no other further from it: a handler takes at most 9 steps. -/
theorem handler_work {s s' : State} {e : Option Event} (h : Step s e s') :
    e = some .app ∨ (∃ i type, e = some (.arrive i type)) ∨ s'.exit ≠ none ∨
    ∃ i, (s'.th i).left < (s.th i).left ∧ ∀ j, j ≠ i → s'.th j = s.th j := by
  cases h with
  | app => exact Or.inl rfl
  | arrive i type => exact Or.inr (Or.inl ⟨i, type, rfl⟩)
  | exit1 | exit0 => exact Or.inr (Or.inr (Or.inl (by simp)))
  | @start i type fd _ hi =>
    refine Or.inr (Or.inr (Or.inr ⟨i, ?_, fun j hj => by simp [hj]⟩))
    rw [hi]
    by_cases h : eventName type = none <;> simp [Thread.left, Pc.left, h]
  | @log i type pc fd fmt args pc' bytes _ hi hl _ =>
    refine Or.inr (Or.inr (Or.inr ⟨i, ?_, fun j hj => by simp [hj]⟩))
    rw [hi]
    cases pc <;> simp [logOf] at hl <;> simp [Thread.left, ← hl.2.2, Pc.left]
  | @check i type fd _ hi =>
    refine Or.inr (Or.inr (Or.inr ⟨i, ?_, fun j hj => by simp [hj]⟩))
    rw [hi]
    cases s.will <;> simp [Thread.left, Pc.left]
  | @set i type fd _ hi =>
    refine Or.inr (Or.inr (Or.inr ⟨i, ?_, fun j hj => by simp [hj]⟩))
    rw [hi]
    simp [Thread.left, Pc.left]
  | @choose i type fd _ hi =>
    refine Or.inr (Or.inr (Or.inr ⟨i, ?_, fun j hj => by simp [hj]⟩))
    rw [hi]
    by_cases h : s.shutFd = -1 <;> simp [Thread.left, Pc.left, h]
  | @send i type fd rc _ hi =>
    refine Or.inr (Or.inr (Or.inr ⟨i, ?_, fun j hj => by simp [hj]⟩))
    rw [hi]
    by_cases h : rc = 1 <;> simp [Thread.left, Pc.left, h]
  | @ret i type fd _ hi =>
    refine Or.inr (Or.inr (Or.inr ⟨i, ?_, fun j hj => by simp [hj]⟩))
    rw [hi]
    simp [Thread.left, Pc.left]

/-- A handler that runs can always go on, whatever the others do: it never waits for them. `hs` says
that it got past the names only if the event has one, which holds of every handler. -/
theorem handler_progress {s : State} {i type : Nat} {pc : Pc} {fd : Int} (hx : s.exit = none)
    (hi : s.th i = .run type pc fd) (hs : pc = .recv → type = CTRL_C_EVENT ∨ type = CTRL_BREAK_EVENT) :
    ∃ e s', Step s e s' ∧ (s'.exit ≠ none ∨ (s'.th i).left < (s.th i).left) := by
  have hlog : ∀ {m x}, message type pc = some m → logOf type pc = some x →
      ∃ e s', Step s e s' ∧ (s'.exit ≠ none ∨ (s'.th i).left < (s.th i).left) := by
    intro m x hm hl
    obtain ⟨fmt, args, pc'⟩ := x
    refine ⟨_, _, .log hx hi hl ((shutdown_message hs hl).2 hm), Or.inr ?_⟩
    rw [hi]
    cases pc <;> simp [logOf] at hl <;> simp [Thread.left, ← hl.2.2, Pc.left]
  cases pc with
  | start =>
    refine ⟨_, _, .start hx hi, Or.inr ?_⟩
    rw [hi]
    by_cases h : eventName type = none <;> simp [Thread.left, Pc.left, h]
  | otherLog => exact hlog rfl rfl
  | recv => exact hlog rfl rfl
  | forceLog => exact hlog rfl rfl
  | sendLog => exact hlog rfl rfl
  | failLog => exact hlog rfl rfl
  | noneLog => exact hlog rfl rfl
  | otherExit => exact ⟨_, _, .exit1 hx hi (Or.inl rfl), Or.inl (by simp)⟩
  | forceExit => exact ⟨_, _, .exit1 hx hi (Or.inr (Or.inl rfl)), Or.inl (by simp)⟩
  | failExit => exact ⟨_, _, .exit1 hx hi (Or.inr (Or.inr rfl)), Or.inl (by simp)⟩
  | noneExit => exact ⟨_, _, .exit0 hx hi, Or.inl (by simp)⟩
  | check =>
    refine ⟨_, _, .check hx hi, Or.inr ?_⟩
    rw [hi]
    cases s.will <;> simp [Thread.left, Pc.left]
  | set => exact ⟨_, _, .set hx hi, Or.inr (by rw [hi]; simp [Thread.left, Pc.left])⟩
  | choose =>
    refine ⟨_, _, .choose hx hi, Or.inr ?_⟩
    rw [hi]
    by_cases h : s.shutFd = -1 <;> simp [Thread.left, Pc.left, h]
  | send => exact ⟨_, _, .send 1 hx hi, Or.inr (by rw [hi]; simp [Thread.left, Pc.left])⟩
  | ret => exact ⟨_, _, .ret hx hi, Or.inr (by rw [hi]; simp [Thread.left, Pc.left])⟩

/-- `hs` of `handler_progress` holds in every execution that starts without handlers. -/
theorem names_ok {s s' : State} {es : List Event} (hi : ∀ j t pc fd, s.th j ≠ .run t pc fd) (hr : Run s es s') :
    ∀ i type fd, s'.th i = .run type .recv fd → type = CTRL_C_EVENT ∨ type = CTRL_BREAK_EVENT := by
  induction hr with
  | refl => exact fun i t fd h => absurd h (hi _ _ _ _)
  | @step s2 s3 e es _ hst ih =>
    intro i type fd h
    cases hst with
    | app | exit1 | exit0 => exact ih i type fd h
    | @arrive j ty _ hj _ =>
      by_cases hij : i = j
      · simp [hij] at h
      · simp [hij] at h; exact ih i type fd h
    | @start j ty f _ hj =>
      by_cases hij : i = j
      · simp [hij] at h
        obtain ⟨rfl, h, -⟩ := h
        by_cases hn : eventName ty = none
        · simp [hn] at h
        · unfold eventName at hn
          by_cases h1 : ty = CTRL_C_EVENT
          · exact Or.inl h1
          · by_cases h2 : ty = CTRL_BREAK_EVENT
            · exact Or.inr h2
            · simp [h1, h2] at hn
      · simp [hij] at h; exact ih i type fd h
    | @log j ty pc f fmt args pc' bytes _ hj hl _ =>
      by_cases hij : i = j
      · simp [hij] at h
        obtain ⟨rfl, rfl, -⟩ := h
        cases pc <;> simp [logOf] at hl
      · simp [hij] at h; exact ih i type fd h
    | @check j ty f _ hj =>
      by_cases hij : i = j
      · simp [hij] at h
        cases hw : s2.will <;> simp [hw] at h
      · simp [hij] at h; exact ih i type fd h
    | @set j ty f _ hj =>
      by_cases hij : i = j
      · simp [hij] at h
      · simp [hij] at h; exact ih i type fd h
    | @choose j ty f _ hj =>
      by_cases hij : i = j
      · simp [hij] at h
        by_cases hw : s2.shutFd = -1 <;> simp [hw] at h
      · simp [hij] at h; exact ih i type fd h
    | @send j ty f rc _ hj =>
      by_cases hij : i = j
      · simp [hij] at h
        by_cases hw : rc = 1 <;> simp [hw] at h
      · simp [hij] at h; exact ih i type fd h
    | @ret j ty f _ hj =>
      by_cases hij : i = j
      · simp [hij] at h
      · simp [hij] at h; exact ih i type fd h

/-! ## Two events at the same time -/

/-- The events that arrive in an execution. -/
def arrivals (es : List Event) : List Nat :=
  es.filterMap fun | .arrive _ t => some t | _ => none

theorem Step.say {s : State} {i type : Nat} {pc pc' : Pc} {fd : Int} {fmt : List UInt8} {args : List Arg}
    {m : List UInt8} (hx : s.exit = none) (hi : s.th i = .run type pc fd)
    (hs : pc = .recv → type = CTRL_C_EVENT ∨ type = CTRL_BREAK_EVENT)
    (hm : message type pc = some m) (hl : logOf type pc = some (fmt, args, pc')) :
    Step s (some (.text i fd m)) (s.at i (.run type pc' fd)) :=
  .log hx hi hl ((shutdown_message hs hl).2 hm)

/-- A handler alone, from its start up to setting the flag. -/
theorem to_set {s : State} {i : Nat} (hx : s.exit = none) (hw : s.will = false) (hl : s.logFd = -1)
    (hi : s.th i = .idle) : ∃ s' es, Run s es s' ∧ arrivals es = [CTRL_C_EVENT] ∧ commands es = [] ∧ returns es = 0 ∧
      s'.will = false ∧ s'.exit = none ∧ s'.shutFd = s.shutFd ∧ s'.logFd = -1 ∧ s'.th i = .run CTRL_C_EVENT .set 1 ∧
      ∀ j, j ≠ i → s'.th j = s.th j := by
  let f (pc : Pc) (fd : Int) : State := s.at i (.run CTRL_C_EVENT pc fd)
  have at2 : ∀ t u, (s.at i t).at i u = s.at i u := by
    intro t u; simp only [State.at]; congr 1; funext j; split <;> simp_all
  have r1 : Run s _ (f .start 0) := Run.refl.step (.arrive i CTRL_C_EVENT hx hi (by decide))
  have r2 := r1.step (Step.start (i := i) (type := CTRL_C_EVENT) (fd := 0) hx (by simp [f]))
  have e2 : (f .start 0).at i (.run CTRL_C_EVENT (if eventName CTRL_C_EVENT = none then .otherLog else .recv)
      (if (f .start 0).logFd ≠ -1 then (f .start 0).logFd else 1)) = f .recv 1 := by
    simp [f, hl, eventName, at2]
  rw [e2] at r2
  have r3 := r2.step (Step.say (i := i) (type := CTRL_C_EVENT) (pc := .recv) (fd := 1) hx (by simp [f])
    (fun _ => Or.inl rfl) rfl rfl)
  rw [show (f .recv 1).at i (.run CTRL_C_EVENT .check 1) = f .check 1 from at2 _ _] at r3
  have r4 := r3.step (Step.check (i := i) (type := CTRL_C_EVENT) (fd := 1) hx (by simp [f]))
  have e4 : (f .check 1).at i (.run CTRL_C_EVENT (if (f .check 1).will then .forceLog else .set) 1) = f .set 1 := by
    simp [f, hw, at2]
  rw [e4] at r4
  exact ⟨f .set 1, _, r4, rfl, rfl, rfl, hw, hx, rfl, hl, by simp [f], fun j hj => by simp [f, hj]⟩

theorem Run.trans {s s' s'' : State} {es es' : List Event} (h : Run s es s') (h' : Run s' es' s'') :
    Run s (es ++ es') s'' := by
  induction h' with
  | refl => simpa using h
  | step _ hst ih => rw [← List.append_assoc]; exact .step ih hst

/-- A handler alone, from setting the flag to its end, with a shutdown descriptor that takes the
byte. -/
theorem from_set {s : State} {i : Nat} (hx : s.exit = none) (hd : s.shutFd ≠ -1)
    (hi : s.th i = .run CTRL_C_EVENT .set 1) :
    ∃ s' es, Run s es s' ∧ arrivals es = [] ∧ commands es = [(s.shutFd, 1)] ∧ returns es = 1 ∧
      s'.exit = none ∧ s'.shutFd = s.shutFd ∧ s'.th i = .done ∧ (∀ j, j ≠ i → s'.th j = s.th j) ∧ s'.will = true := by
  let g (t : Thread) : State := { s.at i t with will := true }
  have at2 : ∀ t u, (g t).at i u = g u := by
    intro t u; simp only [g, State.at]; congr 1; funext j; split <;> simp_all
  have r1 : Run s _ (g (.run CTRL_C_EVENT .choose 1)) := Run.refl.step (.set hx hi)
  have r2 := r1.step (Step.choose (i := i) (type := CTRL_C_EVENT) (fd := 1) hx (by simp [g]))
  rw [at2, show (g (.run CTRL_C_EVENT .choose 1)).shutFd = s.shutFd from rfl, if_pos hd] at r2
  have r3 := r2.step (Step.say (i := i) (type := CTRL_C_EVENT) (pc := .sendLog) (fd := 1) hx (by simp [g])
    (fun h => by cases h) rfl rfl)
  rw [at2] at r3
  have r4 := r3.step (Step.send (i := i) (type := CTRL_C_EVENT) (fd := 1) 1 hx (by simp [g]))
  rw [at2, if_neg (by simp)] at r4
  have r5 := r4.step (Step.ret (i := i) (type := CTRL_C_EVENT) (fd := 1) hx (by simp [g]))
  rw [at2] at r5
  exact ⟨_, _, r5, rfl, rfl, rfl, hx, rfl, by simp [g], fun j hj => by simp [g, hj], rfl⟩

/-- **C53 is violated** on Windows: events that arrive before a handler has set the flag are all taken for
the first. However many they are, none ends the process, and each sends a command. -/
theorem shutdown_race_violated (n : Nat) : ∃ s s' es, s.will = false ∧ (∀ i, s.th i = .idle) ∧ s.shutFd = 5 ∧
    Run s es s' ∧ arrivals es = List.replicate n CTRL_C_EVENT ∧ commands es = List.replicate n (5, 1) ∧
    returns es = n ∧ s'.exit = none := by
  have ae : ∀ a b, arrivals (a ++ b) = arrivals a ++ arrivals b := by intro a b; simp [arrivals]
  have ce : ∀ a b, commands (a ++ b) = commands a ++ commands b := by intro a b; simp [commands]
  have re : ∀ a b, returns (a ++ b) = returns a + returns b := by intro a b; simp [returns]
  let s0 : State := ⟨false, -1, 5, fun _ => .idle, none⟩
  have h1 : ∀ n, ∃ s' es, Run s0 es s' ∧ arrivals es = List.replicate n CTRL_C_EVENT ∧ commands es = [] ∧
      returns es = 0 ∧ s'.will = false ∧ s'.exit = none ∧ s'.shutFd = 5 ∧ s'.logFd = -1 ∧
      ∀ j, s'.th j = if j < n then .run CTRL_C_EVENT .set 1 else .idle := by
    intro n
    induction n with
    | zero => exact ⟨s0, [], .refl, rfl, rfl, rfl, rfl, rfl, rfl, rfl, fun j => by simp [s0]⟩
    | succ n ih =>
      obtain ⟨s, es, hr, ha, hc, hrt, hw, hx, hd, hl, ht⟩ := ih
      obtain ⟨s', es', hr', ha', hc', hrt', hw', hx', hd', hl', ht1, ht2⟩ := to_set (i := n) hx hw hl (by simp [ht])
      refine ⟨s', _, hr.trans hr', ?_, by rw [ce, hc, hc']; rfl, by rw [re, hrt, hrt'], hw', hx', by rw [hd', hd], hl', ?_⟩
      · rw [ae, ha, ha', List.replicate_succ']
      · intro j
        by_cases hj : j = n
        · rw [hj, ht1]; simp
        · rw [ht2 j hj, ht]
          by_cases hlt : j < n
          · rw [if_pos hlt, if_pos (by omega)]
          · rw [if_neg hlt, if_neg (by omega)]
  obtain ⟨s1, es1, hr1, ha1, hc1, hrt1, -, hx1, hd1, -, ht1⟩ := h1 n
  have h2 : ∀ k, k ≤ n → ∃ s' es, Run s1 es s' ∧ arrivals es = [] ∧ commands es = List.replicate k (5, 1) ∧
      returns es = k ∧ s'.exit = none ∧ s'.shutFd = 5 ∧
      ∀ j, s'.th j = if j < k then .done else s1.th j := by
    intro k
    induction k with
    | zero => exact fun _ => ⟨s1, [], .refl, rfl, rfl, rfl, hx1, hd1, fun j => by simp⟩
    | succ k ih =>
      intro hk
      obtain ⟨s, es, hr, ha, hc, hrt, hx, hd, ht⟩ := ih (by omega)
      have hik : s.th k = .run CTRL_C_EVENT .set 1 := by
        rw [ht, if_neg (by omega), ht1, if_pos (by omega)]
      obtain ⟨s', es', hr', ha', hc', hrt', hx', hd', htk, ht', -⟩ := from_set hx (by rw [hd]; decide) hik
      refine ⟨s', _, hr.trans hr', by rw [ae, ha, ha']; rfl, ?_, by rw [re, hrt, hrt'], hx', by rw [hd', hd], ?_⟩
      · rw [ce, hc, hc', hd, List.replicate_succ']
      · intro j
        by_cases hj : j = k
        · rw [hj, htk]; simp
        · rw [ht' j hj, ht]
          by_cases hlt : j < k
          · rw [if_pos hlt, if_pos (by omega)]
          · rw [if_neg hlt, if_neg (by omega)]
  obtain ⟨s2, es2, hr2, ha2, hc2, hrt2, hx2, -, -⟩ := h2 n (Nat.le_refl n)
  refine ⟨s0, s2, _, rfl, fun _ => rfl, rfl, hr1.trans hr2, ?_, ?_, ?_, hx2⟩
  · rw [ae, ha1, ha2, List.append_nil]
  · rw [ce, hc1, hc2]; rfl
  · rw [re, hrt1, hrt2]; omega

/-! ## C80 on Windows -/

/-- Initialization succeeds if the console handler could be registered; then each of the
handlers is registered if the system lets it or if it was before, and otherwise nothing is. -/
theorem init_ok (okConsole okAbort okInt : Bool) (r : Registered) :
    ((init okConsole okAbort okInt r).1 = 0 ↔ okConsole = true) ∧
    ((init okConsole okAbort okInt r).1 = 0 ∨ (init okConsole okAbort okInt r).1 = -1) ∧
    (okConsole = true → (init okConsole okAbort okInt r).2.console = true ∧ (init okConsole okAbort okInt r).2.filter = true ∧
      ((init okConsole okAbort okInt r).2.abort = true ↔ r.abort = true ∨ okAbort = true) ∧
      ((init okConsole okAbort okInt r).2.int = true ↔ r.int = true ∨ okInt = true)) ∧
    (okConsole = false → (init okConsole okAbort okInt r).2 = r) := by
  cases okConsole <;> cases okAbort <;> cases okInt <;> simp [init]

/-- **C80 is violated** on Windows: initialization succeeds although the handler for `abort` could not be
registered. -/
theorem init_violated : init true false true ⟨false, false, false, false⟩ = (0, ⟨true, true, false, true⟩) := rfl

theorem onFatal_eq {logFd : Int} {code : UInt32} {buf dst : List UInt8} (hb : buf.length = 128)
    (hd : dst.length = 32) : onFatal logFd code buf dst =
      .ok [.text (if logFd = -1 then 2 else logFd)
        (text "Fatal signal : " ++ decimal code.toNat ++ text ", shutting down! \n"), .search] := by
  have hlen := decimal_length code.toNat
  unfold onFatal
  rw [log_lit (t := text "Fatal signal : " ++ decimal code.toNat ++ text ", shutting down! \n")
    (by decide +kernel) ?_ (noMin_of (by simp)) ?_ hb hd]
  · by_cases h : logFd = -1 <;> simp [h]
  · have : text "Fatal signal : %d, shutting down! \n" =
        text "Fatal signal : " ++ (37 :: [100] ++ text ", shutting down! \n") := by decide +kernel
    rw [this, List.append_assoc]
    refine Renders.prepend (by decide +kernel) (.conv (.d (decimal_spec _)) ?_)
    exact renders_plain (by decide +kernel)
  · have l1 : (text "Fatal signal : ").length = 15 := by decide +kernel
    have l2 : (text ", shutting down! \n").length = 18 := by decide +kernel
    simp only [List.length_append, l1, l2]
    omega

/-- An exception that nobody handles is reported on the log descriptor or the standard error, with its
code as a signed number of 32 bits, and then left to the system, which ends the process.
Missing: that codes from 2^31 on are
printed as such (`exception_code_violated`). -/
theorem exception_reported_partial {logFd : Int} {code : UInt32} {buf dst : List UInt8} (hb : buf.length = 128)
    (hd : dst.length = 32) :
    ∃ t, Signed t (Int32.ofNat code.toNat).toInt ∧ onFatal logFd code buf dst =
      .ok [.text (if logFd = -1 then 2 else logFd) (text "Fatal signal : " ++ t ++ text ", shutting down! \n"), .search] :=
  ⟨decimal code.toNat, decimal_spec _, onFatal_eq hb hd⟩

/-- **C80 is violated** on Windows: the code of an access violation, C0000005, is not the number that is
reported. -/
theorem exception_code_violated {buf dst : List UInt8} (hb : buf.length = 128) (hd : dst.length = 32) :
    onFatal (-1) 0xC0000005 buf dst = .ok [.text 2 (text "Fatal signal : -1073741819, shutting down! \n"), .search] := by
  rw [onFatal_eq hb hd]
  have : text "Fatal signal : " ++ decimal (0xC0000005 : UInt32).toNat ++ text ", shutting down! \n" =
      text "Fatal signal : -1073741819, shutting down! \n" := by decide +kernel
  rw [this]
  rfl

/-- `abort` is reported with its name and number, and the process ends with status 1. -/
theorem abort_reported {logFd : Int} {buf dst : List UInt8} (hb : buf.length = 128) (hd : dst.length = 32) :
    stdOnFatal logFd SIGABRT buf dst =
      .ok [.text (if logFd = -1 then 2 else logFd) (text "Fatal signal : [SIGABRT][22], shutting down! \n"), .exit 1] := by
  unfold stdOnFatal
  rw [log_lit (t := text "Fatal signal : [SIGABRT][22], shutting down! \n") (by decide +kernel) ?_ ?_ (by decide +kernel) hb hd]
  · by_cases h : logFd = -1 <;> simp [h]
  · have e1 : text "Fatal signal : [%s][%d], shutting down! \n" =
        text "Fatal signal : [" ++ (37 :: [115] ++ (text "][" ++ (37 :: [100] ++ text "], shutting down! \n"))) := by decide +kernel
    have e2 : text "Fatal signal : [SIGABRT][22], shutting down! \n" =
        text "Fatal signal : [" ++ (text "SIGABRT" ++ (text "][" ++ ([50, 50] ++ text "], shutting down! \n"))) := by decide +kernel
    rw [e1, e2]
    refine Renders.prepend (by decide +kernel) (.conv (.s (mem := fatalName SIGABRT) (cstr_lit (s := "SIGABRT") (by decide +kernel))) ?_)
    refine Renders.prepend (by decide +kernel) (.conv (.d (signed_of (n := SIGABRT) rfl (by decide +kernel))) ?_)
    exact renders_plain (by decide +kernel)
  · apply noMin_of
    intro a ha v
    simp at ha
    rcases ha with rfl | rfl <;> simp

/-- The line that reports a signal of the C library. -/
def stdLine (name num : String) : List UInt8 :=
  text "Fatal signal : [" ++ (text name ++ (text "][" ++ (text num ++ text "], shutting down! \n")))

/-- Whichever signal the handler is registered for, it is reported with its name and number, and the
process ends with status 1. -/
theorem std_reported {logFd : Int} {buf dst : List UInt8} {sig : Nat} {name num : String}
    (hs : (sig, name, num) ∈ [(22, "SIGABRT", "22"), (11, "SIGSEGV", "11"), (8, "SIGFPE", "8"), (4, "SIGILL", "4")])
    (hb : buf.length = 128) (hd : dst.length = 32) :
    stdOnFatal logFd sig buf dst = .ok [.text (if logFd = -1 then 2 else logFd) (stdLine name num), .exit 1] := by
  have key : ∀ {n : Nat} {name : String} {d : List UInt8}, (Int32.ofNat n).toInt = n → Signal.num 10 n = d →
      0 ∉ text name → (text name).length ≤ 7 → d.length ≤ 2 →
      log buf 128 (lit "Fatal signal : [%s][%d], shutting down! \n") [.str (some (lit name)), .int (Int32.ofNat n)] dst =
        .ok (text "Fatal signal : [" ++ (text name ++ (text "][" ++ (d ++ text "], shutting down! \n")))) := by
    intro n name d hn hdn h0 hl hl2
    refine log_lit (by decide +kernel) ?_ ?_ ?_ hb hd
    · have : text "Fatal signal : [%s][%d], shutting down! \n" =
          text "Fatal signal : [" ++ (37 :: [115] ++ (text "][" ++ (37 :: [100] ++ text "], shutting down! \n"))) := by decide +kernel
      rw [this]
      refine Renders.prepend (by decide +kernel) (.conv (.s (cstr_lit h0)) ?_)
      refine Renders.prepend (by decide +kernel) (.conv (.d (signed_of hn hdn)) ?_)
      exact renders_plain (by decide +kernel)
    · apply noMin_of
      intro a ha v
      simp at ha
      rcases ha with rfl | rfl <;> simp
    · have l1 : (text "Fatal signal : [").length = 16 := by decide +kernel
      have l2 : (text "][").length = 2 := by decide +kernel
      have l3 : (text "], shutting down! \n").length = 19 := by decide +kernel
      simp only [List.length_append, l1, l2, l3]
      omega
  have fin : ∀ {d : List UInt8}, d = text num →
      log buf 128 (lit "Fatal signal : [%s][%d], shutting down! \n") [.str (some (fatalName sig)), .int (Int32.ofNat sig)] dst =
        .ok (text "Fatal signal : [" ++ (text name ++ (text "][" ++ (d ++ text "], shutting down! \n")))) →
      stdOnFatal logFd sig buf dst = .ok [.text (if logFd = -1 then 2 else logFd) (stdLine name num), .exit 1] := by
    intro d hd' h
    unfold stdOnFatal
    rw [h, hd']
    by_cases h : logFd = -1 <;> simp [h, stdLine]
  simp only [List.mem_cons, List.not_mem_nil, or_false, Prod.mk.injEq] at hs
  rcases hs with ⟨rfl, rfl, rfl⟩ | ⟨rfl, rfl, rfl⟩ | ⟨rfl, rfl, rfl⟩ | ⟨rfl, rfl, rfl⟩
  · exact fin (d := [50, 50]) (by decide +kernel) (key (name := "SIGABRT") rfl (by decide +kernel) (by decide +kernel) (by decide +kernel) (by decide +kernel))
  · exact fin (d := [49, 49]) (by decide +kernel) (key (name := "SIGSEGV") rfl (by decide +kernel) (by decide +kernel) (by decide +kernel) (by decide +kernel))
  · exact fin (d := [56]) (by decide +kernel) (key (name := "SIGFPE") rfl (by decide +kernel) (by decide +kernel) (by decide +kernel) (by decide +kernel))
  · exact fin (d := [52]) (by decide +kernel) (key (name := "SIGILL") rfl (by decide +kernel) (by decide +kernel) (by decide +kernel) (by decide +kernel))

/-! ## Concrete cases -/

-- Ctrl-C in an application with a shutdown descriptor, and Ctrl-C again
example : ∃ s s' es, s.will = false ∧ s.shutFd = 5 ∧ Run s es s' ∧ arrivals es = [CTRL_C_EVENT] ∧ commands es = [(5, 1)] ∧
    s'.will = true := by
  obtain ⟨s1, e1, r1, a1, c1, -, -, x1, d1, -, t1, -⟩ :=
    to_set (s := ⟨false, -1, 5, fun _ => .idle, none⟩) (i := 0) rfl rfl rfl rfl
  have h5 : s1.shutFd ≠ -1 := by rw [d1]; decide
  obtain ⟨s2, e2, r2, a2, c2, -, x2, -, t2, -, w2⟩ := from_set x1 h5 t1
  refine ⟨_, s2, _, rfl, rfl, r1.trans r2, ?_, ?_, ?_⟩
  · simp [arrivals] at a1 a2 ⊢; rw [a1]; simp; exact a2
  · simp [commands] at c1 c2 d1 ⊢; rw [c2, d1]; simp; exact c1
  · exact w2

end Verif.Signal.Win
