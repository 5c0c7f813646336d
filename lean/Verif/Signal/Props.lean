import Verif.Signal.Lemmas
import Verif.Signal.Handler

namespace Verif.Signal

open Spec

/-! ## C51, C52 -/

/-- Every call has a text, or a conversion that is not supported, or an argument of a wrong type. -/
theorem format_cases (fmt : List UInt8) (args : List Arg) :
    (∃ t, Renders fmt args t) ∨ Unsupported fmt args ∨ Mismatch fmt args := by
  suffices h : ∀ n (fmt : List UInt8) (args : List Arg), fmt.length ≤ n →
      (∃ t, Renders fmt args t) ∨ Unsupported fmt args ∨ Mismatch fmt args from h _ fmt args (Nat.le_refl _)
  intro n
  induction n with
  | zero =>
    intro fmt args h
    have : fmt = [] := List.length_eq_zero_iff.1 (by omega)
    exact Or.inl ⟨[], this ▸ .nil⟩
  | succ n ih =>
    intro fmt args h
    cases fmt with
    | nil => exact Or.inl ⟨[], .nil⟩
    | cons c f =>
      by_cases hc : c = 37
      · subst hc
        by_cases hl : ∃ m ∈ letters, m <+: f
        · obtain ⟨m, hm, f', rfl⟩ := hl
          have hlen : f'.length ≤ n := by simp at h; omega
          by_cases h37 : m = [37]
          · subst h37
            rcases ih f' args hlen with ⟨t, ht⟩ | hu | hw
            · exact Or.inl ⟨_, .percent ht⟩
            · exact Or.inr (Or.inl (.percent hu))
            · exact Or.inr (Or.inr (.percent hw))
          · by_cases ha : ∃ a as x, args = a :: as ∧ Conv m a x
            · obtain ⟨a, as, x, rfl, hcv⟩ := ha
              rcases ih f' as hlen with ⟨t, ht⟩ | hu | hw
              · exact Or.inl ⟨_, .conv hcv ht⟩
              · exact Or.inr (Or.inl (.conv hcv hu))
              · exact Or.inr (Or.inr (.conv hcv hw))
            · exact Or.inr (Or.inr (.here hm h37 fun a as x e hcv => ha ⟨a, as, x, e, hcv⟩))
        · exact Or.inr (Or.inl (.here fun m hm hp => hl ⟨m, hm, hp⟩))
      · rcases ih f args (by simpa using h) with ⟨t, ht⟩ | hu | hw
        · exact Or.inl ⟨_, .char hc ht⟩
        · exact Or.inr (Or.inl (.char hc hu))
        · exact Or.inr (Or.inr (.char hc hw))

/-- Formatting into `sz` bytes writes as much of the text as fits, and a terminator, and nothing
else, and returns the number of characters written. Missing: size 0 and the least `long`, see
`snprintf_zero_violated` and `snprintf_min_violated`. -/
theorem snprintf_partial {buf fmt dst f t : List UInt8} {sz : Nat} {args : List Arg}
    (h : CStr fmt 0 f) (hr : Renders f args t) (hm : NoMin args) (hd : dst.length = 32)
    (h0 : 0 < sz) (hsz : sz ≤ buf.length) (h31 : sz ≤ 2147483648) :
    vsnprintf buf sz fmt args dst =
      .ok (t.take (sz - 1) ++ [0] ++ buf.drop ((t.take (sz - 1)).length + 1), ((min t.length (sz - 1) : Nat) : Int)) := by
  unfold vsnprintf
  rw [if_neg (by omega)]
  have hlt := h.lt
  rw [fmtLoop_eq h hr hm hd (by omega) (by omega) (by omega)]
  unfold splice
  rw [List.take_zero, List.nil_append, Nat.zero_add, Nat.zero_add, List.length_append, List.length_take,
    Nat.min_comm]
  simp only [List.length_singleton]

/-- An unsupported conversion makes formatting fail, and only the first `sz - 1` bytes of the buffer
may have changed. -/
theorem snprintf_unsupported {buf fmt dst f : List UInt8} {sz : Nat} {args : List Arg}
    (h : CStr fmt 0 f) (hr : Unsupported f args) (hm : NoMin args) (hd : dst.length = 32)
    (h0 : 0 < sz) (hsz : sz ≤ buf.length) :
    ∃ buf', vsnprintf buf sz fmt args dst = .ok (buf', -1) ∧ buf'.length = buf.length ∧
      ∀ i, sz - 1 ≤ i → buf'[i]? = buf[i]? := by
  unfold vsnprintf
  rw [if_neg (by omega)]
  have hlt := h.lt
  obtain ⟨buf', e, hl, hf⟩ := fmtLoop_bad (buf := buf) (out := 0) (cap := sz - 1) h hr hm hd (by omega)
    (fuel := fmt.length + 1) (by omega)
  exact ⟨buf', e, hl, fun i hi => hf i (by omega)⟩

/-- A numeral is the only one of its number, and of no other number. -/
theorem numeral_exact {b n m : Nat} {s t : List UInt8} (hb : 2 ≤ b) (hb' : b ≤ 16) (h : Numeral b s n)
    (h' : Numeral b t m) : s = t ↔ n = m := by
  constructor
  · rintro rfl; exact numeral_unique h h'
  · rintro rfl; rw [numeral_num hb hb' h, numeral_num hb hb' h']

/-- Every number has a numeral: every supported conversion of an argument of its type has a text. -/
theorem conv_exists (a : Arg) : (∀ s, a = .str s → s = none ∨ ∃ mem t, s = some mem ∧ CStr mem 0 t) →
    ∃ m t, m ∈ letters ∧ Conv m a t := by
  have sg : ∀ v : Int, ∃ t, Signed t v := by
    intro v
    by_cases h : 0 ≤ v
    · exact ⟨_, Or.inl ⟨h, num_spec (by omega) (by omega)⟩⟩
    · exact ⟨_, Or.inr ⟨by omega, _, rfl, num_spec (by omega) (by omega)⟩⟩
  intro hs
  cases a with
  | int v => obtain ⟨t, h⟩ := sg v.toInt; exact ⟨_, t, by decide, .d h⟩
  | long v => obtain ⟨t, h⟩ := sg v.toInt; exact ⟨_, t, by decide, .ld h⟩
  | llong v => obtain ⟨t, h⟩ := sg v.toInt; exact ⟨_, t, by decide, .lld h⟩
  | uint v => exact ⟨_, _, by decide, .u (num_spec (by omega) (by omega))⟩
  | ulong v => exact ⟨_, _, by decide, .lu (num_spec (by omega) (by omega))⟩
  | ullong v => exact ⟨_, _, by decide, .llu (num_spec (by omega) (by omega))⟩
  | ptr v => exact ⟨_, _, by decide, .p (num_spec (by omega) (by omega))⟩
  | str s =>
    rcases hs s rfl with rfl | ⟨mem, t, rfl, h⟩
    · exact ⟨_, _, by decide, .null⟩
    · exact ⟨_, t, by decide, .s h⟩

/-- A log message is the text of its format, cut to the buffer. -/
theorem log_text {buf fmt dst f t : List UInt8} {sz : Nat} {args : List Arg}
    (h : CStr fmt 0 f) (hr : Renders f args t) (hm : NoMin args) (hd : dst.length = 32)
    (h0 : 0 < sz) (hsz : sz ≤ buf.length) (h31 : sz ≤ 2147483648) :
    log buf sz fmt args dst = .ok (t.take (sz - 1)) := by
  unfold log
  rw [snprintf_partial h hr hm hd h0 hsz h31, Res.ok_bind]
  simp only
  have e : (((min t.length (sz - 1) : Nat) : Int) % W64).toNat = min t.length (sz - 1) := by omega
  rw [e]
  have hl : (t.take (sz - 1)).length = min t.length (sz - 1) := by rw [List.length_take, Nat.min_comm]
  rw [if_pos]
  · congr 1
    rw [List.append_assoc, List.take_append_of_le_length (by omega), List.take_of_length_le (by omega)]
  · simp only [List.length_append, List.length_drop, hl, List.length_singleton]
    omega

/-- **C51.** With size 0 the terminator is written all the same, and nothing else. -/
theorem snprintf_zero_partial {buf fmt dst f t : List UInt8} {args : List Arg} (h : CStr fmt 0 f) (hr : Renders f args t) (hm : NoMin args)
    (hd : dst.length = 32) (hb : 0 < buf.length) : vsnprintf buf 0 fmt args dst = .ok (0 :: buf.drop 1, 0) := by
  unfold vsnprintf
  have hlt := h.lt
  rw [if_pos rfl, fmtLoop_eq h hr hm hd (by omega) (by omega) (by omega)]
  simp [splice]

/-- With size 0 a terminator is written all the same, here after the end of an empty buffer. -/
theorem snprintf_zero_violated : vsnprintf [] 0 [0] [] (List.replicate 32 0) = .ub := by decide +kernel

/-- The least `long long` cannot be formatted: it is negated in its own type. -/
theorem snprintf_min_violated :
    vsnprintf (List.replicate 64 0) 64 (lit "%lld") [.llong (-9223372036854775808)] (List.replicate 32 0) =
      .ub := by decide +kernel

/-- Logging with a format that is not supported writes what comes after the buffer. -/
theorem log_unsupported_defect :
    log (List.replicate 64 0) 64 (lit "%x") [.uint 1] (List.replicate 32 0) = .ub := by decide +kernel

/-- With an unsupported conversion the text is left without a terminator. -/
theorem snprintf_unterminated_defect :
    vsnprintf (List.replicate 4 7) 4 (lit "a%x") [.uint 1] (List.replicate 32 0) =
      .ok ([97, 7, 7, 7], -1) := by decide +kernel

/-! ## C53 -/

theorem Step.running {s s' : State} {e : Option Event} (h : Step s e s') : s.exit = none := by
  cases h <;> assumption

theorem Run.trans {s s' s'' : State} {es es' : List Event} (h : Run s es s') (h' : Run s' es' s'') :
    Run s (es ++ es') s'' := by
  induction h' with
  | refl => simpa using h
  | step _ hst ih => rw [← List.append_assoc]; exact .step ih hst

/-- The positions that lead to a forced exit, for a handler that starts with the flag set. -/
def Pc.forced : Pc → Bool
  | .save | .recv | .check | .forceLog | .forceExit => true
  | _ => false

/-- A signal that arrives after a handler has set the flag ends the process with status 1: from then
on, until that happens, its handler has not returned, all handlers above it are on the same way, and
no command is written.
Missing: a signal that arrives before the flag is set (`shutdown_race_violated`). -/
theorem shutdown_forced_partial {s s1 s' : State} {sig : Nat} {es : List Event} (hw : s.will = true)
    (ha : Step s (some (.arrive sig)) s1) (hr : Run s1 es s') :
    (∀ fd rc, .command fd rc ∉ es) ∧ (∀ g, .ret g ∉ es) ∧ s'.will = true ∧
    (s'.exit = some 1 ∨
      s'.exit = none ∧ ∃ top f, f.sig = sig ∧ s'.frames = top ++ f :: s.frames ∧
        ∀ g ∈ top ++ [f], g.pc.forced = true) := by
  induction hr with
  | refl =>
    cases ha with
    | arrive _ hx _ _ =>
      exact ⟨by simp, by simp, hw, Or.inr ⟨hx, [], _, rfl, rfl, by simp [Pc.forced]⟩⟩
  | @step s2 s3 e es _ hst ih =>
    obtain ⟨h1, h2, hw2, h3⟩ := ih
    rcases h3 with h3 | ⟨hx, top, f, hf, hfr, hall⟩
    · rw [hst.running] at h3; cases h3
    · -- the running handler is on its way to the exit
      have hd : ∃ g gs, s2.frames = g :: gs ∧ g.pc.forced = true ∧
          ∀ p : Frame, p.pc.forced = true → p.sig = g.sig →
            ∃ top f, f.sig = sig ∧ p :: gs = top ++ f :: s.frames ∧ ∀ g ∈ top ++ [f], g.pc.forced = true := by
        cases top with
        | nil =>
          refine ⟨f, s.frames, by simpa using hfr, hall f (by simp), fun p hp hps => ⟨[], p, by rw [hps, hf], rfl, ?_⟩⟩
          simpa using hp
        | cons g top =>
          refine ⟨g, top ++ f :: s.frames, by simpa using hfr, hall g (by simp), fun p hp _ => ⟨p :: top, f, hf, rfl, ?_⟩⟩
          intro q hq
          rcases List.mem_cons.1 hq with rfl | hq
          · exact hp
          · exact hall q (by simp at hq ⊢; exact Or.inr hq)
      obtain ⟨g, gs, hg, hgp, hput⟩ := hd
      cases hst with
      | app _ _ _ _ h0 => rw [h0] at hg; cases hg
      | arrive sg _ _ _ =>
        refine ⟨by simpa using h1, by simpa using h2, hw2, Or.inr ⟨hx, ⟨sg, .save, 0, 0, s2.errno⟩ :: top, f, hf, by simp [hfr], ?_⟩⟩
        intro q hq
        rcases List.mem_cons.1 hq with rfl | hq
        · rfl
        · exact hall q hq
      | save _ he hp =>
        rw [hg] at he
        obtain ⟨rfl, rfl⟩ := List.cons.inj he
        exact ⟨by simpa using h1, by simpa using h2, hw2, Or.inr ⟨hx, hput _ rfl rfl⟩⟩
      | @log _ _ fmt args pc bytes _ _ he hp _ =>
        rw [hg] at he
        obtain ⟨rfl, rfl⟩ := List.cons.inj he
        refine ⟨by simpa using h1, by simpa using h2, hw2, Or.inr ⟨hx, hput _ ?_ rfl⟩⟩
        show pc.forced = true
        unfold logOf at hp
        cases hpc : g.pc <;> rw [hpc] at hp hgp <;> simp [Pc.forced] at hp hgp <;> rw [← hp.2.2] <;> rfl
      | check _ he hp =>
        rw [hg] at he
        obtain ⟨rfl, rfl⟩ := List.cons.inj he
        refine ⟨by simpa using h1, by simpa using h2, hw2, Or.inr ⟨hx, hput _ ?_ rfl⟩⟩
        simp [hw2, Pc.forced]
      | exit1 _ he hp => exact ⟨by simpa using h1, by simpa using h2, hw2, Or.inl rfl⟩
      | exit0 _ he hp =>
        rw [hg] at he
        obtain ⟨rfl, rfl⟩ := List.cons.inj he
        rw [hp] at hgp
        cases hgp
      | set _ he hp =>
        rw [hg] at he
        obtain ⟨rfl, rfl⟩ := List.cons.inj he
        rw [hp] at hgp
        cases hgp
      | choose _ he hp =>
        rw [hg] at he
        obtain ⟨rfl, rfl⟩ := List.cons.inj he
        rw [hp] at hgp
        cases hgp
      | send _ _ _ he hp =>
        rw [hg] at he
        obtain ⟨rfl, rfl⟩ := List.cons.inj he
        rw [hp] at hgp
        cases hgp
      | restore _ he hp =>
        rw [hg] at he
        obtain ⟨rfl, rfl⟩ := List.cons.inj he
        rw [hp] at hgp
        cases hgp

/-- The commands in an execution, with their results. -/
def commands (es : List Event) : List (Int × Int) :=
  es.filterMap fun | .command fd rc => some (fd, rc) | _ => none

/-- How often a handler has returned. -/
def returns (es : List Event) : Nat :=
  (es.filter fun | .ret _ => true | _ => false).length

/-- Where the only handler can be, with the commands so far. -/
def First (shutFd : Int) (will : Bool) (cmds : List (Int × Int)) : Pc → Prop
  | .save | .recv | .check | .set => will = false ∧ cmds = []
  | .choose => will = true ∧ cmds = []
  | .sendLog | .send => will = true ∧ shutFd ≠ -1 ∧ cmds = []
  | .failLog | .failExit => will = true ∧ shutFd ≠ -1 ∧ ∃ rc, rc ≠ 1 ∧ cmds = [(shutFd, rc)]
  | .restore => will = true ∧ shutFd ≠ -1 ∧ cmds = [(shutFd, 1)]
  | .noneLog | .noneExit => will = true ∧ shutFd = -1 ∧ cmds = []
  | .forceLog | .forceExit => False

/-- The first shutdown signal, if no other arrives: its handler is still running, or it has written
one byte to the shutdown descriptor and returned with the flag set, or there is no descriptor and it
has exited with 0, or writing has failed and it has exited with 1. -/
theorem shutdown_first {s s1 s' : State} {sig : Nat} {es : List Event} (hw : s.will = false)
    (hi : s.frames = []) (ha : Step s (some (.arrive sig)) s1) (hr : Run s1 es s')
    (hn : ∀ g, .arrive g ∉ es) :
    (s'.exit = none ∧ s'.frames ≠ [] ∧ returns es = 0) ∨
    (s'.exit = none ∧ s'.frames = [] ∧ s'.will = true ∧ returns es = 1 ∧ s.shutFd ≠ -1 ∧
      commands es = [(s.shutFd, 1)]) ∨
    (s'.exit = some 0 ∧ s.shutFd = -1 ∧ commands es = [] ∧ returns es = 0) ∨
    (s'.exit = some 1 ∧ s.shutFd ≠ -1 ∧ (∃ rc, rc ≠ 1 ∧ commands es = [(s.shutFd, rc)]) ∧ returns es = 0) := by
  suffices h : (s'.exit = none ∧ returns es = 0 ∧ s'.shutFd = s.shutFd ∧
        ∃ f, s'.frames = [f] ∧ First s.shutFd s'.will (commands es) f.pc) ∨
      (s'.exit = none ∧ s'.frames = [] ∧ s'.will = true ∧ returns es = 1 ∧ s.shutFd ≠ -1 ∧
        commands es = [(s.shutFd, 1)]) ∨
      (s'.exit = some 0 ∧ s.shutFd = -1 ∧ commands es = [] ∧ returns es = 0) ∨
      (s'.exit = some 1 ∧ s.shutFd ≠ -1 ∧ (∃ rc, rc ≠ 1 ∧ commands es = [(s.shutFd, rc)]) ∧ returns es = 0) by
    rcases h with ⟨h1, h2, _, f, h3, _⟩ | h | h | h
    · exact Or.inl ⟨h1, by rw [h3]; simp, h2⟩
    · exact Or.inr (Or.inl h)
    · exact Or.inr (Or.inr (Or.inl h))
    · exact Or.inr (Or.inr (Or.inr h))
  induction hr with
  | refl =>
    cases ha with
    | arrive _ hx _ _ =>
      exact Or.inl ⟨hx, rfl, rfl, ⟨sig, .save, 0, 0, s.errno⟩, by simp [hi], ⟨hw, rfl⟩⟩
  | @step s2 s3 e es _ hst ih =>
    have hn' : ∀ g, Event.arrive g ∉ es := fun g hg => hn g (by simp [hg])
    have ce : ∀ e : Option Event, commands (es ++ e.toList) = commands es ++ commands e.toList := by
      intro e; simp [commands]
    have re : ∀ e : Option Event, returns (es ++ e.toList) = returns es + returns e.toList := by
      intro e; simp [returns]
    rw [ce, re]
    rcases ih hn' with ⟨hx, hret, hsh, f, hf, hF⟩ | ⟨hx, hf, hwt, hrest⟩ | ⟨h, _⟩ | ⟨h, _⟩
    · cases hst with
      | app _ _ _ _ h0 => rw [h0] at hf; cases hf
      | arrive g => exact absurd (by simp) (hn g)
      | save _ he hp =>
        rw [hf] at he
        obtain ⟨rfl, rfl⟩ := List.cons.inj he
        rw [hp] at hF
        exact Or.inl ⟨hx, hret, hsh, _, rfl, by simpa [First, commands] using hF⟩
      | @log _ _ fmt args pc bytes _ _ he hp _ =>
        rw [hf] at he
        obtain ⟨rfl, rfl⟩ := List.cons.inj he
        refine Or.inl ⟨hx, hret, hsh, _, rfl, ?_⟩
        show First _ _ _ pc
        unfold logOf at hp
        cases hpc : f.pc <;> rw [hpc] at hp hF <;> simp at hp <;> rw [← hp.2.2] <;>
          simp [First, commands] at hF ⊢ <;> exact hF
      | check _ he hp =>
        rw [hf] at he
        obtain ⟨rfl, rfl⟩ := List.cons.inj he
        rw [hp] at hF
        refine Or.inl ⟨hx, hret, hsh, _, rfl, ?_⟩
        simpa [hF.1, First, commands] using hF.2
      | exit1 _ he hp =>
        rw [hf] at he
        obtain ⟨rfl, rfl⟩ := List.cons.inj he
        rcases hp with hp | hp
        · rw [hp] at hF; exact absurd hF id
        · rw [hp] at hF
          exact Or.inr (Or.inr (Or.inr ⟨rfl, hF.2.1, by simpa [commands] using hF.2.2, by simpa [returns] using hret⟩))
      | exit0 _ he hp =>
        rw [hf] at he
        obtain ⟨rfl, rfl⟩ := List.cons.inj he
        rw [hp] at hF
        exact Or.inr (Or.inr (Or.inl ⟨rfl, hF.2.1, by simpa [commands] using hF.2.2, by simpa [returns] using hret⟩))
      | set _ he hp =>
        rw [hf] at he
        obtain ⟨rfl, rfl⟩ := List.cons.inj he
        rw [hp] at hF
        exact Or.inl ⟨hx, hret, hsh, _, rfl, rfl, by simpa [commands] using hF.2⟩
      | choose _ he hp =>
        rw [hf] at he
        obtain ⟨rfl, rfl⟩ := List.cons.inj he
        rw [hp] at hF
        refine Or.inl ⟨hx, hret, hsh, _, rfl, ?_⟩
        show First _ _ _ (if s2.shutFd ≠ -1 then Pc.sendLog else Pc.noneLog)
        rw [hsh]
        by_cases h1 : s.shutFd = -1
        · rw [if_neg (by simp [h1])]
          exact ⟨hF.1, h1, by simpa [commands] using hF.2⟩
        · rw [if_pos h1]
          exact ⟨hF.1, h1, by simpa [commands] using hF.2⟩
      | send rc _ _ he hp =>
        rw [hf] at he
        obtain ⟨rfl, rfl⟩ := List.cons.inj he
        rw [hp] at hF
        refine Or.inl ⟨hx, hret, hsh, _, rfl, ?_⟩
        show First _ _ _ (if rc ≠ 1 then Pc.failLog else Pc.restore)
        by_cases h1 : rc = 1
        · rw [if_neg (by simp [h1])]
          exact ⟨hF.1, hF.2.1, by rw [hF.2.2, h1, hsh]; rfl⟩
        · rw [if_pos h1]
          exact ⟨hF.1, hF.2.1, rc, h1, by rw [hF.2.2, hsh]; rfl⟩
      | restore _ he hp =>
        rw [hf] at he
        obtain ⟨rfl, rfl⟩ := List.cons.inj he
        rw [hp] at hF
        exact Or.inr (Or.inl ⟨hx, rfl, hF.1, by rw [hret]; rfl, hF.2.1, by rw [hF.2.2]; rfl⟩)
    · cases hst with
      | app => exact Or.inr (Or.inl ⟨hx, hf, hwt, by simpa [commands, returns] using hrest⟩)
      | arrive g => exact absurd (by simp) (hn g)
      | save _ he => rw [hf] at he; cases he
      | log _ _ he => rw [hf] at he; cases he
      | check _ he => rw [hf] at he; cases he
      | exit1 _ he => rw [hf] at he; cases he
      | exit0 _ he => rw [hf] at he; cases he
      | set _ he => rw [hf] at he; cases he
      | choose _ he => rw [hf] at he; cases he
      | send _ _ _ he => rw [hf] at he; cases he
      | restore _ he => rw [hf] at he; cases he
    · rw [hst.running] at h; cases h
    · rw [hst.running] at h; cases h

/-- Whether a handler has found the flag unset. -/
def Pc.past : Pc → Bool
  | .save | .recv | .check | .forceLog | .forceExit => false
  | _ => true

/-- Whether a handler may still write a command. -/
def Pc.owes : Pc → Bool
  | .set | .choose | .sendLog | .send => true
  | _ => false

/-- Whether a handler has not yet set the flag. -/
def Pc.early : Pc → Bool
  | .save | .recv | .check | .set => true
  | _ => false

/-- Whatever signals arrive, at most two handlers ever return and at most two commands are ever
written: the flag stops all but a signal that arrives while the first handler is between its look at
the flag and setting it. -/
theorem shutdown_bound {s s' : State} {es : List Event} (hw : s.will = false) (hi : s.frames = [])
    (hr : Run s es s') : returns es ≤ 2 ∧ (commands es).length ≤ 2 := by
  suffices h : ((s'.will = false → returns es = 0 ∧ commands es = [] ∧ ∀ f ∈ s'.frames, f.pc.early = true ∨ f.pc.forced = true) ∧
      (s'.will = true → returns es + (s'.frames.filter (·.pc.past)).length ≤ 2 ∧
        (commands es).length + (s'.frames.filter (·.pc.owes)).length ≤ 2)) ∧
      (s'.frames.map (·.sig)).Nodup ∧ (∀ f ∈ s'.frames, f.sig = SIGINT ∨ f.sig = SIGTERM) by
    obtain ⟨⟨h1, h2⟩, -⟩ := h
    cases hb : s'.will with
    | false => have := h1 hb; simp [this.1, this.2.1]
    | true => have := h2 hb; omega
  induction hr with
  | refl => simp [hi, hw, returns, commands]
  | @step s2 s3 e es _ hst ih =>
    have ce : ∀ e : Option Event, commands (es ++ e.toList) = commands es ++ commands e.toList := by
      intro e; simp [commands]
    have re : ∀ e : Option Event, returns (es ++ e.toList) = returns es + returns e.toList := by
      intro e; simp [returns]
    rw [ce, re]
    obtain ⟨⟨h1, h2⟩, hnd, hsig⟩ := ih
    cases hst with
    | app _ _ _ _ h0 => exact ⟨⟨by simpa [returns, commands] using h1, by simpa [returns, commands] using h2⟩, hnd, hsig⟩
    | arrive g _ hg hnew =>
      refine ⟨⟨?_, ?_⟩, ?_, ?_⟩
      · intro hf
        obtain ⟨a, b, c⟩ := h1 hf
        refine ⟨by simpa [returns] using a, by simpa [commands] using b, ?_⟩
        intro f hfm
        rcases List.mem_cons.1 hfm with rfl | hfm
        · left; rfl
        · exact c f hfm
      · intro hf
        simpa [returns, commands, Pc.past, Pc.owes] using h2 hf
      · simp only [List.map_cons, List.nodup_cons]
        refine ⟨?_, hnd⟩
        intro hm
        obtain ⟨f, hf, e⟩ := List.mem_map.1 hm
        exact hnew f hf e
      · intro f hfm
        rcases List.mem_cons.1 hfm with rfl | hfm
        · exact hg
        · exact hsig f hfm
    | save _ he hp =>
      rw [he] at h1 h2 hnd hsig
      refine ⟨⟨?_, ?_⟩, hnd, by simpa using hsig⟩
      · intro hf
        obtain ⟨a, b, c⟩ := h1 hf
        refine ⟨by simpa [returns] using a, by simpa [commands] using b, ?_⟩
        simp [hp, Pc.early, Pc.forced] at c ⊢
        exact c
      · intro hf
        simpa [hp, returns, commands, Pc.past, Pc.owes] using h2 hf
    | @log f fs fmt args pc bytes _ _ he hp _ =>
      rw [he] at h1 h2 hnd hsig
      refine ⟨⟨?_, ?_⟩, hnd, by simpa using hsig⟩
      · intro hf
        obtain ⟨a, b, c⟩ := h1 hf
        refine ⟨by simpa [returns] using a, by simpa [commands] using b, ?_⟩
        intro x hx
        rcases List.mem_cons.1 hx with rfl | hx
        · have := c f (by simp)
          show pc.early = true ∨ pc.forced = true
          unfold logOf at hp
          cases hpc : f.pc <;> rw [hpc] at hp this <;> simp at hp <;> rw [← hp.2.2] <;>
            simp [Pc.early, Pc.forced] at this ⊢
        · exact c x (by simp [hx])
      · intro hf
        have := h2 hf
        simp only [List.filter_cons] at this ⊢
        show returns es + 0 + (List.length (if pc.past = true then _ else _)) ≤ 2 ∧
          (commands es ++ []).length + (List.length (if pc.owes = true then _ else _)) ≤ 2
        rw [List.append_nil, Nat.add_zero]
        unfold logOf at hp
        cases hpc : f.pc <;> rw [hpc] at hp this <;> simp at hp <;> rw [← hp.2.2] <;>
          simpa [Pc.past, Pc.owes] using this
    | check _ he hp =>
      rw [he] at h1 h2 hnd hsig
      refine ⟨⟨?_, ?_⟩, hnd, by simpa using hsig⟩
      · intro hf
        have hf : s2.will = false := hf
        obtain ⟨a, b, c⟩ := h1 hf
        refine ⟨by simpa [returns] using a, by simpa [commands] using b, ?_⟩
        simp [hp, Pc.early, Pc.forced, hf] at c ⊢
        exact c
      · intro hf
        have hf : s2.will = true := hf
        simpa [hp, returns, commands, Pc.past, Pc.owes, hf] using h2 hf
    | exit1 _ he hp =>
      refine ⟨⟨?_, ?_⟩, hnd, hsig⟩
      · intro hf; simpa [returns, commands] using h1 hf
      · intro hf; simpa [returns, commands] using h2 hf
    | exit0 _ he hp =>
      refine ⟨⟨?_, ?_⟩, hnd, hsig⟩
      · intro hf; simpa [returns, commands] using h1 hf
      · intro hf; simpa [returns, commands] using h2 hf
    | @set f fs _ he hp =>
      rw [he] at h1 h2 hnd hsig
      refine ⟨⟨by simp, ?_⟩, hnd, by simpa using hsig⟩
      intro _
      cases hb : s2.will with
      | true =>
        simpa [hp, returns, commands, Pc.past, Pc.owes] using h2 hb
      | false =>
        obtain ⟨a, b, -⟩ := h1 hb
        -- there are two signals, hence at most two handlers
        have hlen : (f :: fs).length ≤ 2 := by
          rw [← List.length_map (f := (·.sig))]
          generalize hl : (f :: fs).map (·.sig) = l at hnd
          have hall : ∀ x ∈ l, x = 2 ∨ x = 15 := by
            intro x hx
            rw [← hl] at hx
            obtain ⟨g, hg, rfl⟩ := List.mem_map.1 hx
            exact hsig g hg
          match l, hnd, hall with
          | [], _, _ => simp
          | [_], _, _ => simp
          | [_, _], _, _ => simp
          | x :: y :: z :: l, hnd, hall =>
            have h1 := hall x (by simp)
            have h2 := hall y (by simp)
            have h3 := hall z (by simp)
            simp at hnd
            omega
        have l1 : ∀ (p : Frame → Bool) (l : List Frame), (l.filter p).length ≤ l.length :=
          fun p l => List.length_filter_le _ _
        have m1 := l1 (·.pc.past) ({ f with pc := .choose } :: fs)
        have m2 := l1 (·.pc.owes) ({ f with pc := .choose } :: fs)
        simp only [List.length_cons] at hlen m1 m2
        rw [a, b]
        simp only [returns, commands, Option.toList_none, List.filter_nil, List.length_nil,
          List.filterMap_nil, List.append_nil]
        omega
    | choose _ he hp =>
      rw [he] at h1 h2 hnd hsig
      refine ⟨⟨?_, ?_⟩, hnd, by simpa using hsig⟩
      · intro hf
        obtain ⟨a, b, c⟩ := h1 hf
        simp [hp, Pc.early, Pc.forced] at c
      · intro hf
        have := h2 hf
        by_cases h : s2.shutFd = -1
        · simp [hp, returns, commands, Pc.past, Pc.owes, h] at this ⊢
          exact ⟨this.1, by omega⟩
        · simpa [hp, returns, commands, Pc.past, Pc.owes, h] using this
    | send rc _ _ he hp =>
      rw [he] at h1 h2 hnd hsig
      refine ⟨⟨?_, ?_⟩, hnd, by simpa using hsig⟩
      · intro hf
        obtain ⟨a, b, c⟩ := h1 hf
        simp [hp, Pc.early, Pc.forced] at c
      · intro hf
        have := h2 hf
        by_cases h : rc = 1
        · simp [hp, returns, commands, Pc.past, Pc.owes, h] at this ⊢
          exact ⟨this.1, by omega⟩
        · simp [hp, returns, commands, Pc.past, Pc.owes, h] at this ⊢
          exact ⟨this.1, by omega⟩
    | restore _ he hp =>
      rw [he] at h1 h2 hnd hsig
      refine ⟨⟨?_, ?_⟩, ?_, ?_⟩
      · intro hf
        obtain ⟨a, b, c⟩ := h1 hf
        simp [hp, Pc.early, Pc.forced] at c
      · intro hf
        have := h2 hf
        simp [hp, returns, commands, Pc.past, Pc.owes] at this ⊢
        exact ⟨by omega, this.2⟩
      · simp at hnd; exact hnd.2
      · intro f hf; exact hsig f (by simp [hf])

/-! ### The handlers come to an end -/

/-- Steps left in a handler. -/
def Pc.left : Pc → Nat
  | .save => 9 | .recv => 8 | .check => 7 | .set => 6 | .choose => 5 | .sendLog => 4 | .send => 3
  | .failLog => 2 | .noneLog => 2 | .forceLog => 2 | _ => 1

/-- Steps left in all running handlers. -/
def work (s : State) : Nat := if s.exit = none then (s.frames.map (·.pc.left)).sum else 0

/-- Every step of a handler brings it nearer to its end. -/
theorem handler_work {s s' : State} {e : Option Event} (h : Step s e s') :
    e = some .app ∨ (∃ g, e = some (.arrive g)) ∨ work s' < work s := by
  have key : ∀ {f : Frame} {fs : List Frame}, s.exit = none → s.frames = f :: fs →
      work s = f.pc.left + (fs.map (·.pc.left)).sum := by
    intro f fs hx hf
    unfold work
    rw [if_pos hx, hf, List.map_cons, List.sum_cons]
  have pos : ∀ p : Pc, 0 < p.left := by intro p; cases p <;> decide
  cases h with
  | app => exact Or.inl rfl
  | arrive g => exact Or.inr (Or.inl ⟨g, rfl⟩)
  | save hx hf hp => right; right; rw [key hx hf, hp]; simp [work, hx, Pc.left]
  | @log f fs fmt args pc bytes _ hx hf hp _ =>
    right; right; rw [key hx hf]
    unfold logOf at hp
    cases hpc : f.pc <;> rw [hpc] at hp <;> simp at hp <;> rw [← hp.2.2] <;> simp [work, hx, Pc.left]
  | check hx hf hp =>
    right; right; rw [key hx hf, hp]
    cases hb : s.will <;> simp [work, hx, Pc.left]
  | @exit1 f fs hx hf _ => right; right; rw [key hx hf]; have := pos f.pc; simp [work]; omega
  | @exit0 f fs hx hf _ => right; right; rw [key hx hf]; have := pos f.pc; simp [work]; omega
  | set hx hf hp => right; right; rw [key hx hf, hp]; simp [work, hx, Pc.left]
  | choose hx hf hp =>
    right; right; rw [key hx hf, hp]
    by_cases h : s.shutFd = -1 <;> simp [work, hx, Pc.left, h]
  | send rc _ hx hf hp =>
    right; right; rw [key hx hf, hp]
    by_cases h : rc = 1 <;> simp [work, hx, Pc.left, h]
  | restore hx hf hp => right; right; rw [key hx hf, hp]; simp [work, hx, Pc.left]

/-! ### The messages -/

/-- The bytes of a text. -/
def text (s : String) : List UInt8 := s.toList.map fun c => UInt8.ofNat c.toNat

/-- What the shutdown handler logs at a position. -/
def message (sig : Nat) : Pc → Option (List UInt8)
  | .recv => some (if sig = 2 then text "Recv : SIGINT, (2) \n" else text "Recv : SIGTERM, (15) \n")
  | .forceLog => some (text "Forcing shut down! \n")
  | .sendLog => some (text "Sending shutdown command. \n")
  | .failLog => some (text "Failed to send shutdown command, shutting down immediately! \n")
  | .noneLog => some (text "No shutdown handler, shutting down! \n")
  | _ => none

theorem Renders.prepend {a b t : List UInt8} {args : List Arg} (ha : 37 ∉ a) (h : Renders b args t) :
    Renders (a ++ b) args (a ++ t) := by
  induction a with
  | nil => exact h
  | cons c a ih =>
    exact .char (fun e => ha (by simp [e])) (ih fun hm => ha (by simp [hm]))

theorem renders_plain {a : List UInt8} {args : List Arg} (ha : 37 ∉ a) : Renders a args a := by
  have := Renders.prepend (args := args) ha .nil
  simpa using this

theorem noMin_of {args : List Arg} (h : ∀ a ∈ args, ∀ v, a ≠ .long v ∧ a ≠ .llong v) : NoMin args :=
  fun v _ => ⟨fun hm => (h _ hm v).1 rfl, fun hm => (h _ hm v).2 rfl⟩

theorem cstr_lit {s : String} (h : 0 ∉ text s) : CStr (lit s) 0 (text s) := by
  have : lit s = text s ++ [0] := rfl
  rw [this]
  exact CStr.self fun b hb e => h (e ▸ hb)

theorem log_lit {buf dst t : List UInt8} {s : String} {args : List Arg} (h0 : 0 ∉ text s)
    (hr : Renders (text s) args t) (hm : NoMin args) (ht : t.length ≤ 4095) (hb : buf.length = 4096)
    (hd : dst.length = 32) : log buf 4096 (lit s) args dst = .ok t := by
  have h := cstr_lit h0
  generalize lit s = fmt at h ⊢
  rw [log_text h hr hm hd (by omega) (by omega) (by omega), List.take_of_length_le (by omega)]

theorem log_plain {buf dst : List UInt8} (s : String) (h0 : 0 ∉ text s) (h37 : 37 ∉ text s)
    (ht : (text s).length ≤ 4095) (hb : buf.length = 4096) (hd : dst.length = 32) :
    log buf 4096 (lit s) [] dst = .ok (text s) :=
  log_lit h0 (renders_plain h37) (noMin_of (by simp)) ht hb hd

theorem numeral_of {b n : Nat} {s : List UInt8} (hb : 2 ≤ b) (hb' : b ≤ 16) (h : num b n = s) : Numeral b s n :=
  h ▸ num_spec hb hb'

theorem signed_of {n : Nat} {s : List UInt8} {v : Int32} (hv : v.toInt = n) (h : num 10 n = s) :
    Signed s v.toInt := by
  rw [hv]
  exact Or.inl ⟨by omega, numeral_of (by omega) (by omega) h⟩

theorem log_const {fmt bytes t : List UInt8} {args : List Arg}
    (h : ∀ buf dst : List UInt8, buf.length = 4096 → dst.length = 32 → log buf 4096 fmt args dst = .ok t) :
    LogCall fmt args bytes ↔ bytes = t := by
  constructor
  · rintro ⟨buf, dst, hb, hd, e⟩
    rw [h buf dst hb hd] at e
    injection e with e
    exact e.symm
  · rintro rfl
    exact ⟨List.replicate 4096 0, List.replicate 32 0, List.length_replicate .., List.length_replicate ..,
      h _ _ (List.length_replicate ..) (List.length_replicate ..)⟩

/-- The texts that the shutdown handler logs. -/
theorem shutdown_message {sig : Nat} {pc pc' : Pc} {fmt bytes : List UInt8} {args : List Arg}
    (hs : sig = SIGINT ∨ sig = SIGTERM) (h : logOf sig pc = some (fmt, args, pc')) :
    LogCall fmt args bytes ↔ message sig pc = some bytes := by
  have recv : ∀ {n : Nat} {name : String} {d : List UInt8}, (Int32.ofNat n).toInt = n → num 10 n = d →
      0 ∉ text name → d.length ≤ 10 → (text name).length ≤ 100 →
      ∀ buf dst : List UInt8, buf.length = 4096 → dst.length = 32 →
      log buf 4096 (lit "Recv : %s, (%d) \n") [.str (some (lit name)), .int (Int32.ofNat n)] dst =
        .ok (text "Recv : " ++ (text name ++ (text ", (" ++ (d ++ text ") \n")))) := by
    intro n name d hn hd h0 hdl hl buf dst hb hds
    refine log_lit (by decide +kernel) ?_ ?_ ?_ hb hds
    · have : text "Recv : %s, (%d) \n" = text "Recv : " ++ (37 :: [115] ++ (text ", (" ++ (37 :: [100] ++ text ") \n"))) := by
        decide +kernel
      rw [this]
      refine Renders.prepend (by decide +kernel) (.conv (.s (cstr_lit h0)) ?_)
      refine Renders.prepend (by decide +kernel) (.conv (.d (signed_of hn hd)) ?_)
      exact renders_plain (by decide +kernel)
    · apply noMin_of
      intro a ha v
      simp at ha
      rcases ha with rfl | rfl <;> simp
    · have l1 : (text "Recv : ").length = 7 := by decide +kernel
      have l2 : (text ", (").length = 3 := by decide +kernel
      have l3 : (text ") \n").length = 3 := by decide +kernel
      simp only [List.length_append, l1, l2, l3]
      omega
  have plain : ∀ s : String, 0 ∉ text s → 37 ∉ text s → (text s).length ≤ 4095 →
      (LogCall (lit s) [] bytes ↔ some (text s) = some bytes) := by
    intro s h0 h37 hl
    rw [log_const fun buf dst hb hd => log_plain s h0 h37 hl hb hd]
    constructor
    · rintro rfl; rfl
    · intro e; injection e with e; exact e.symm
  cases pc <;> simp only [logOf, Option.some.injEq, Prod.mk.injEq, reduceCtorEq] at h <;>
    obtain ⟨rfl, rfl, -⟩ := h
  · rcases hs with rfl | rfl
    · rw [show shutdownName SIGINT = lit "SIGINT" from rfl,
        log_const (recv (d := [50]) rfl (by decide +kernel) (by decide +kernel) (by decide) (by decide +kernel))]
      have : message SIGINT .recv =
          some (text "Recv : " ++ (text "SIGINT" ++ (text ", (" ++ ([50] ++ text ") \n")))) := by decide +kernel
      rw [this]
      constructor
      · rintro rfl; rfl
      · intro e; injection e with e; exact e.symm
    · rw [show shutdownName SIGTERM = lit "SIGTERM" from rfl,
        log_const (recv (d := [49, 53]) rfl (by decide +kernel) (by decide +kernel) (by decide) (by decide +kernel))]
      have : message SIGTERM .recv =
          some (text "Recv : " ++ (text "SIGTERM" ++ (text ", (" ++ ([49, 53] ++ text ") \n")))) := by decide +kernel
      rw [this]
      constructor
      · rintro rfl; rfl
      · intro e; injection e with e; exact e.symm
  · exact plain _ (by decide +kernel) (by decide +kernel) (by decide +kernel)
  · exact plain _ (by decide +kernel) (by decide +kernel) (by decide +kernel)
  · exact plain _ (by decide +kernel) (by decide +kernel) (by decide +kernel)
  · exact plain _ (by decide +kernel) (by decide +kernel) (by decide +kernel)

/-- A running handler can always go on; it never waits for anything. -/
theorem handler_progress {s : State} {f : Frame} {fs : List Frame} (hx : s.exit = none)
    (hf : s.frames = f :: fs) (hs : f.sig = SIGINT ∨ f.sig = SIGTERM) :
    ∃ e s', Step s e s' ∧ e ≠ some .app ∧ ∀ g, e ≠ some (.arrive g) := by
  have hlog : ∀ {m}, message f.sig f.pc = some m → (∃ x, logOf f.sig f.pc = some x) →
      ∃ e s', Step s e s' ∧ e ≠ some .app ∧ ∀ g, e ≠ some (.arrive g) := by
    intro m hm ⟨⟨fmt, args, pc'⟩, hl⟩
    exact ⟨_, _, .log s.errno hx hf hl ((shutdown_message hs hl).2 hm), by simp, by simp⟩
  cases hp : f.pc with
  | save => exact ⟨_, _, .save hx hf hp, by simp, by simp⟩
  | recv => exact hlog (by rw [hp]; rfl) ⟨_, by rw [hp]; rfl⟩
  | check => exact ⟨_, _, .check hx hf hp, by simp, by simp⟩
  | forceLog => exact hlog (by rw [hp]; rfl) ⟨_, by rw [hp]; rfl⟩
  | forceExit => exact ⟨_, _, .exit1 hx hf (Or.inl hp), by simp, by simp⟩
  | set => exact ⟨_, _, .set hx hf hp, by simp, by simp⟩
  | choose => exact ⟨_, _, .choose hx hf hp, by simp, by simp⟩
  | sendLog => exact hlog (by rw [hp]; rfl) ⟨_, by rw [hp]; rfl⟩
  | send => exact ⟨_, _, .send 1 s.errno hx hf hp, by simp, by simp⟩
  | failLog => exact hlog (by rw [hp]; rfl) ⟨_, by rw [hp]; rfl⟩
  | failExit => exact ⟨_, _, .exit1 hx hf (Or.inr hp), by simp, by simp⟩
  | noneLog => exact hlog (by rw [hp]; rfl) ⟨_, by rw [hp]; rfl⟩
  | noneExit => exact ⟨_, _, .exit0 hx hf hp, by simp, by simp⟩
  | restore => exact ⟨_, _, .restore hx hf hp, by simp, by simp⟩

/-- The signals that arrive in an execution. -/
def arrivals (es : List Event) : List Nat :=
  es.filterMap fun | .arrive g => some g | _ => none

/-- SIGTERM arrives when the handler of SIGINT has looked at the flag but has not set it yet: two
shutdown signals, and the process goes on, with two commands instead of an exit. -/
theorem shutdown_race_violated : ∃ s s' es, s.will = false ∧ s.frames = [] ∧ s.shutFd = 5 ∧
    Run s es s' ∧ arrivals es = [SIGINT, SIGTERM] ∧ commands es = [(5, 1), (5, 1)] ∧
    s'.exit = none ∧ s'.frames = [] := by
  have log : ∀ {s : State} {f : Frame} {fs : List Frame} {fmt : List UInt8} {args : List Arg} {pc : Pc}
      {m : List UInt8}, s.exit = none → s.frames = f :: fs → (f.sig = SIGINT ∨ f.sig = SIGTERM) →
      message f.sig f.pc = some m → logOf f.sig f.pc = some (fmt, args, pc) →
      Step s (some (.text f.fd m)) { s with errno := 0, frames := { f with pc := pc } :: fs } :=
    fun hx hf hs hm hl => .log 0 hx hf hl ((shutdown_message hs hl).2 hm)
  have r0 : Run ⟨false, -1, 5, 0, [], none⟩ [] ⟨false, -1, 5, 0, [], none⟩ := .refl
  have r1 : Run ⟨false, -1, 5, 0, [], none⟩ _ ⟨false, -1, 5, 0, [⟨2, .save, 0, 0, 0⟩], none⟩ :=
    r0.step (.arrive SIGINT rfl (Or.inl rfl) (by simp))
  have r2 : Run ⟨false, -1, 5, 0, [], none⟩ _ ⟨false, -1, 5, 0, [⟨2, .recv, 0, 1, 0⟩], none⟩ :=
    r1.step (Step.save (f := ⟨2, .save, 0, 0, 0⟩) (fs := []) rfl rfl rfl)
  have r3 : Run ⟨false, -1, 5, 0, [], none⟩ _ ⟨false, -1, 5, 0, [⟨2, .check, 0, 1, 0⟩], none⟩ :=
    r2.step (log (f := ⟨2, .recv, 0, 1, 0⟩) (fs := []) rfl rfl (Or.inl rfl) rfl rfl)
  have r4 : Run ⟨false, -1, 5, 0, [], none⟩ _ ⟨false, -1, 5, 0, [⟨2, .set, 0, 1, 0⟩], none⟩ :=
    r3.step (Step.check (f := ⟨2, .check, 0, 1, 0⟩) (fs := []) rfl rfl rfl)
  have r5 : Run ⟨false, -1, 5, 0, [], none⟩ _ ⟨false, -1, 5, 0, [⟨15, .save, 0, 0, 0⟩, ⟨2, .set, 0, 1, 0⟩], none⟩ :=
    r4.step (.arrive SIGTERM rfl (Or.inr rfl) (by simp; decide))
  have r6 : Run ⟨false, -1, 5, 0, [], none⟩ _ ⟨false, -1, 5, 0, [⟨15, .recv, 0, 1, 0⟩, ⟨2, .set, 0, 1, 0⟩], none⟩ :=
    r5.step (Step.save (f := ⟨15, .save, 0, 0, 0⟩) (fs := [⟨2, .set, 0, 1, 0⟩]) rfl rfl rfl)
  have r7 : Run ⟨false, -1, 5, 0, [], none⟩ _ ⟨false, -1, 5, 0, [⟨15, .check, 0, 1, 0⟩, ⟨2, .set, 0, 1, 0⟩], none⟩ :=
    r6.step (log (f := ⟨15, .recv, 0, 1, 0⟩) (fs := [⟨2, .set, 0, 1, 0⟩]) rfl rfl (Or.inr rfl) rfl rfl)
  have r8 : Run ⟨false, -1, 5, 0, [], none⟩ _ ⟨false, -1, 5, 0, [⟨15, .set, 0, 1, 0⟩, ⟨2, .set, 0, 1, 0⟩], none⟩ :=
    r7.step (Step.check (f := ⟨15, .check, 0, 1, 0⟩) (fs := [⟨2, .set, 0, 1, 0⟩]) rfl rfl rfl)
  have r9 : Run ⟨false, -1, 5, 0, [], none⟩ _ ⟨true, -1, 5, 0, [⟨15, .choose, 0, 1, 0⟩, ⟨2, .set, 0, 1, 0⟩], none⟩ :=
    r8.step (Step.set (f := ⟨15, .set, 0, 1, 0⟩) (fs := [⟨2, .set, 0, 1, 0⟩]) rfl rfl rfl)
  have r10 : Run ⟨false, -1, 5, 0, [], none⟩ _ ⟨true, -1, 5, 0, [⟨15, .sendLog, 0, 1, 0⟩, ⟨2, .set, 0, 1, 0⟩], none⟩ :=
    r9.step (Step.choose (f := ⟨15, .choose, 0, 1, 0⟩) (fs := [⟨2, .set, 0, 1, 0⟩]) rfl rfl rfl)
  have r11 : Run ⟨false, -1, 5, 0, [], none⟩ _ ⟨true, -1, 5, 0, [⟨15, .send, 0, 1, 0⟩, ⟨2, .set, 0, 1, 0⟩], none⟩ :=
    r10.step (log (f := ⟨15, .sendLog, 0, 1, 0⟩) (fs := [⟨2, .set, 0, 1, 0⟩]) rfl rfl (Or.inr rfl) rfl rfl)
  have r12 : Run ⟨false, -1, 5, 0, [], none⟩ _ ⟨true, -1, 5, 0, [⟨15, .restore, 0, 1, 0⟩, ⟨2, .set, 0, 1, 0⟩], none⟩ :=
    r11.step (Step.send (f := ⟨15, .send, 0, 1, 0⟩) (fs := [⟨2, .set, 0, 1, 0⟩]) 1 0 rfl rfl rfl)
  have r13 : Run ⟨false, -1, 5, 0, [], none⟩ _ ⟨true, -1, 5, 0, [⟨2, .set, 0, 1, 0⟩], none⟩ :=
    r12.step (Step.restore (f := ⟨15, .restore, 0, 1, 0⟩) (fs := [⟨2, .set, 0, 1, 0⟩]) rfl rfl rfl)
  have r14 : Run ⟨false, -1, 5, 0, [], none⟩ _ ⟨true, -1, 5, 0, [⟨2, .choose, 0, 1, 0⟩], none⟩ :=
    r13.step (Step.set (f := ⟨2, .set, 0, 1, 0⟩) (fs := []) rfl rfl rfl)
  have r15 : Run ⟨false, -1, 5, 0, [], none⟩ _ ⟨true, -1, 5, 0, [⟨2, .sendLog, 0, 1, 0⟩], none⟩ :=
    r14.step (Step.choose (f := ⟨2, .choose, 0, 1, 0⟩) (fs := []) rfl rfl rfl)
  have r16 : Run ⟨false, -1, 5, 0, [], none⟩ _ ⟨true, -1, 5, 0, [⟨2, .send, 0, 1, 0⟩], none⟩ :=
    r15.step (log (f := ⟨2, .sendLog, 0, 1, 0⟩) (fs := []) rfl rfl (Or.inl rfl) rfl rfl)
  have r17 : Run ⟨false, -1, 5, 0, [], none⟩ _ ⟨true, -1, 5, 0, [⟨2, .restore, 0, 1, 0⟩], none⟩ :=
    r16.step (Step.send (f := ⟨2, .send, 0, 1, 0⟩) (fs := []) 1 0 rfl rfl rfl)
  have r18 : Run ⟨false, -1, 5, 0, [], none⟩ _ ⟨true, -1, 5, 0, [], none⟩ :=
    r17.step (Step.restore (f := ⟨2, .restore, 0, 1, 0⟩) (fs := []) rfl rfl rfl)
  exact ⟨_, _, _, rfl, rfl, rfl, r18, rfl, rfl, rfl, rfl⟩

/-! ## C79 -/

/-- Each running handler has saved the value that `errno` had when its signal arrived. -/
def ErrnoOk (e0 : Int) : Int → List Frame → Prop
  | errno, [] => errno = e0
  | errno, f :: fs => (if f.pc = .save then errno = f.entry else f.saved = f.entry) ∧ ErrnoOk e0 f.entry fs

/-- The application never sees `errno` changed by the shutdown handler: whatever signals arrive,
also during handlers, it is unchanged when all have returned. -/
theorem errno_unchanged {s s' : State} {es : List Event} (hi : s.frames = []) (hr : Run s es s')
    (ha : .app ∉ es) (hi' : s'.frames = []) : s'.errno = s.errno := by
  suffices h : ErrnoOk s.errno s'.errno s'.frames by rw [hi'] at h; exact h
  clear hi'
  induction hr with
  | refl => rw [hi]; rfl
  | @step s2 s3 e es _ hst ih =>
    have ih := ih fun h => ha (by simp [h])
    cases hst with
    | app => exact absurd (by simp) ha
    | arrive => exact ⟨by simp, ih⟩
    | save _ he hp =>
      rw [he] at ih
      have := ih.1
      rw [if_pos hp] at this
      exact ⟨by simp [this], ih.2⟩
    | @log f fs fmt args pc bytes _ _ he hp _ =>
      rw [he] at ih
      have h1 := ih.1
      unfold logOf at hp
      cases hpc : f.pc <;> rw [hpc] at hp <;> simp at hp <;> rw [← hp.2.2] <;> rw [hpc] at h1 <;>
        exact ⟨by simpa using h1, ih.2⟩
    | check _ he hp =>
      rw [he] at ih
      have h1 := ih.1
      rw [hp] at h1
      refine ⟨?_, ih.2⟩
      cases s2.will <;> simpa using h1
    | exit1 => exact ih
    | exit0 => exact ih
    | set _ he hp =>
      rw [he] at ih
      have h1 := ih.1
      rw [hp] at h1
      exact ⟨by simpa using h1, ih.2⟩
    | choose _ he hp =>
      rw [he] at ih
      have h1 := ih.1
      rw [hp] at h1
      refine ⟨?_, ih.2⟩
      by_cases h : s2.shutFd = -1 <;> simpa [h] using h1
    | send rc _ _ he hp =>
      rw [he] at ih
      have h1 := ih.1
      rw [hp] at h1
      refine ⟨?_, ih.2⟩
      by_cases h : rc = 1 <;> simpa [h] using h1
    | @restore f fs _ he hp =>
      rw [he] at ih
      have h1 := ih.1
      rw [hp] at h1
      have h1 : f.saved = f.entry := h1
      have h2 := ih.2
      show ErrnoOk _ f.saved fs
      rw [h1]
      exact h2

/-! ## C80 -/

/-- Initialization succeeds if all registrations do. Then the process ignores SIGHUP and SIGPIPE, has
the shutdown handler for SIGINT and SIGTERM, the fatal one for five signals, and is otherwise as before. -/
theorem init_ok (ok : Nat → Bool) (t : Nat → Disp) :
    ((init ok t).1 = 0 ↔ ∀ sig ∈ [SIGHUP, SIGPIPE, SIGTERM, SIGINT, SIGABRT, SIGSEGV, SIGBUS, SIGFPE, SIGILL], ok sig = true) ∧
    ((init ok t).1 = 0 ∨ (init ok t).1 = -1) ∧
    ((init ok t).1 = 0 → ∀ sig, (init ok t).2 sig =
      if sig ∈ [SIGHUP, SIGPIPE] then .ign
      else if sig ∈ [SIGINT, SIGTERM] then .shutdown
      else if sig ∈ [SIGABRT, SIGSEGV, SIGBUS, SIGFPE, SIGILL] then .fatal
      else t sig) := by
  have key : (init ok t).1 = 0 ↔ ∀ sig ∈ [SIGHUP, SIGPIPE, SIGTERM, SIGINT, SIGABRT, SIGSEGV, SIGBUS, SIGFPE, SIGILL], ok sig = true := by
    simp [init, register, initCalls]
    grind
  refine ⟨key, ?_, ?_⟩
  · simp only [init]
    grind
  · intro h sig
    have h := key.1 h
    simp at h
    simp only [init, register, initCalls, h, if_true]
    simp
    grind

/-- The line that names the signal. -/
def fatalLine (sig : Nat) : List UInt8 :=
  if sig = SIGSEGV then text "\nSignal : [11][SIGSEGV] \n"
  else if sig = SIGABRT then text "\nSignal : [6][SIGABRT] \n"
  else if sig = SIGBUS then text "\nSignal : [7][SIGBUS] \n"
  else if sig = SIGFPE then text "\nSignal : [8][SIGFPE] \n"
  else text "\nSignal : [4][SIGILL] \n"

/-- What is reported: the lines written, all to the log descriptor or to the standard error. -/
inductive Report : Option UInt64 → Nat → List (List UInt8) → Prop
  | without {sig} : Report none sig
      [fatalLine sig, text "\n----------------- CRASH REPORT ---------------- \n",
       text "\n--------------- CRASH REPORT END -------------- \n", text "\nSignal handler completed! \n"]
  | caller {sig p t} : Numeral 16 t p.toNat → Report (some p) sig
      [fatalLine sig, text "\n----------------- CRASH REPORT ---------------- \n",
       text "\n Caller [0x" ++ t ++ text "] \n\n",
       text "\n--------------- CRASH REPORT END -------------- \n", text "\nSignal handler completed! \n"]

/-- The texts written by a handler, with their descriptors. -/
def texts (as : List Act) : List (Int × List UInt8) :=
  as.filterMap fun | .text fd b => some (fd, b) | _ => none

theorem log_fatal {buf dst : List UInt8} {sig : Nat}
    (hs : sig ∈ [SIGABRT, SIGSEGV, SIGBUS, SIGFPE, SIGILL]) (hb : buf.length = 4096)
    (hd : dst.length = 32) :
    log buf 4096 (lit "\nSignal : [%d][%s] \n")
      [.int (Int32.ofNat sig), .str (some (fatalName sig))] dst = .ok (fatalLine sig) := by
  have key : ∀ {n : Nat} {name : String} {d t : List UInt8}, (Int32.ofNat n).toInt = n → num 10 n = d →
      0 ∉ text name →
      t = text "\nSignal : [" ++ (d ++ (text "][" ++ (text name ++ text "] \n"))) → t.length ≤ 4095 →
      log buf 4096 (lit "\nSignal : [%d][%s] \n") [.int (Int32.ofNat n), .str (some (lit name))] dst = .ok t := by
    intro n name d t hn hdn h0 ht hl
    refine log_lit (by decide +kernel) ?_ ?_ hl hb hd
    · have : text "\nSignal : [%d][%s] \n" =
          text "\nSignal : [" ++ (37 :: [100] ++ (text "][" ++ (37 :: [115] ++ text "] \n"))) := by decide +kernel
      rw [this, ht]
      refine Renders.prepend (by decide +kernel) (.conv (.d (signed_of hn hdn)) ?_)
      refine Renders.prepend (by decide +kernel) (.conv (.s (cstr_lit h0)) ?_)
      exact renders_plain (by decide +kernel)
    · apply noMin_of
      intro a ha v
      simp at ha
      rcases ha with rfl | rfl <;> simp
  simp only [List.mem_cons, List.not_mem_nil, or_false] at hs
  rcases hs with rfl | rfl | rfl | rfl | rfl
  · exact key (name := "SIGABRT") (d := [54]) rfl (by decide +kernel) (by decide +kernel) (by decide +kernel) (by decide +kernel)
  · exact key (name := "SIGSEGV") (d := [49, 49]) rfl (by decide +kernel) (by decide +kernel) (by decide +kernel) (by decide +kernel)
  · exact key (name := "SIGBUS") (d := [55]) rfl (by decide +kernel) (by decide +kernel) (by decide +kernel) (by decide +kernel)
  · exact key (name := "SIGFPE") (d := [56]) rfl (by decide +kernel) (by decide +kernel) (by decide +kernel) (by decide +kernel)
  · exact key (name := "SIGILL") (d := [52]) rfl (by decide +kernel) (by decide +kernel) (by decide +kernel) (by decide +kernel)

/-- A fatal signal is reported by number and name, and then ends the process, whatever its handlers. -/
theorem fatal_ends {logFd : Int} {caller : Option UInt64} {buf dst : List UInt8} {sig : Nat}
    (hs : sig ∈ [SIGABRT, SIGSEGV, SIGBUS, SIGFPE, SIGILL]) (hb : buf.length = 4096)
    (hd : dst.length = 32) (t : Nat → Disp) :
    ∃ as lines, onFatal logFd caller buf dst sig = .ok as ∧ endedBy as t = some sig ∧
      Report caller sig lines ∧ texts as = lines.map fun l => (if logFd = -1 then 2 else logFd, l) := by
  unfold onFatal
  simp only [log_fatal hs hb hd, Res.ok_bind,
    log_plain "\n----------------- CRASH REPORT ---------------- \n" (by decide +kernel) (by decide +kernel)
      (by decide +kernel) hb hd,
    log_plain "\n--------------- CRASH REPORT END -------------- \n" (by decide +kernel) (by decide +kernel)
      (by decide +kernel) hb hd,
    log_plain "\nSignal handler completed! \n" (by decide +kernel) (by decide +kernel) (by decide +kernel) hb hd]
  cases caller with
  | none =>
    simp only [Res.ok_bind]
    refine ⟨_, _, rfl, ?_, .without, ?_⟩
    · simp [endedBy]
    · by_cases h : logFd = -1 <;> simp [texts, h]
  | some p =>
    have hn : Numeral 16 (num 16 p.toNat) p.toNat := num_spec (by omega) (by omega)
    have hlen : (num 16 p.toNat).length ≤ 16 := num_length (k := 15) (by have := p.toNat_lt; omega)
    have hc : log buf 4096 (lit "\n Caller [%p] \n\n") [.ptr p] dst =
        .ok (text "\n Caller [0x" ++ num 16 p.toNat ++ text "] \n\n") := by
      refine log_lit (by decide +kernel) ?_ ?_ ?_ hb hd
      · have e1 : text "\n Caller [%p] \n\n" = text "\n Caller [" ++ (37 :: [112] ++ text "] \n\n") := by
          decide +kernel
        have e2 : text "\n Caller [0x" = text "\n Caller [" ++ [48, 120] := by decide +kernel
        rw [e1, e2, List.append_assoc, List.append_assoc]
        refine Renders.prepend (by decide +kernel) ?_
        have := Renders.conv (.p hn) (renders_plain (a := text "] \n\n") (args := []) (by decide +kernel))
        simpa using this
      · apply noMin_of; simp
      · have l1 : (text "\n Caller [0x").length = 12 := by decide +kernel
        have l2 : (text "] \n\n").length = 4 := by decide +kernel
        simp only [List.length_append, l1, l2]
        omega
    simp only [hc, Res.ok_bind]
    refine ⟨_, _, rfl, ?_, .caller hn, ?_⟩
    · simp [endedBy]
    · by_cases h : logFd = -1 <;> simp [texts, h]

/-! ## Concrete cases -/

-- "%s=%d" with a key and -5, into 5 bytes
example : vsnprintf (List.replicate 6 9) 5 (lit "%s=%d") [.str (some (lit "key")), .int (-5)] (List.replicate 32 0) =
    .ok ([107, 101, 121, 61, 0, 9], 4) := by decide +kernel

example : Renders (text "%s=%d") [.str (some (lit "key")), .int (-5)] (text "key=-5") := by
  have : Renders (37 :: [115] ++ (61 :: (37 :: [100] ++ []))) [.str (some (lit "key")), .int (-5)]
      (text "key" ++ (61 :: ([45, 53] ++ []))) :=
    .conv (.s (cstr_lit (by decide +kernel))) (.char (by decide) (.conv (.d (Or.inr ⟨by decide, [53], rfl,
      numeral_of (by omega) (by omega) (by decide +kernel)⟩)) .nil))
  exact this

-- a shutdown signal in an application with a shutdown descriptor
example : ∃ s' es, Run ⟨false, -1, 5, 11, [], none⟩ es s' ∧ returns es = 1 ∧ commands es = [(5, 1)] ∧
    s'.errno = 11 ∧ .text 1 (text "Recv : SIGTERM, (15) \n") ∈ es := by
  have log : ∀ {s : State} {f : Frame} {fs : List Frame} {fmt : List UInt8} {args : List Arg} {pc : Pc}
      {m : List UInt8}, s.exit = none → s.frames = f :: fs → (f.sig = SIGINT ∨ f.sig = SIGTERM) →
      message f.sig f.pc = some m → logOf f.sig f.pc = some (fmt, args, pc) →
      Step s (some (.text f.fd m)) { s with errno := 0, frames := { f with pc := pc } :: fs } :=
    fun hx hf hs hm hl => .log 0 hx hf hl ((shutdown_message hs hl).2 hm)
  have r0 : Run ⟨false, -1, 5, 11, [], none⟩ [] ⟨false, -1, 5, 11, [], none⟩ := .refl
  have r1 : Run ⟨false, -1, 5, 11, [], none⟩ _ ⟨false, -1, 5, 11, [⟨15, .save, 0, 0, 11⟩], none⟩ :=
    r0.step (.arrive SIGTERM rfl (Or.inr rfl) (by simp))
  have r2 : Run ⟨false, -1, 5, 11, [], none⟩ _ ⟨false, -1, 5, 11, [⟨15, .recv, 11, 1, 11⟩], none⟩ :=
    r1.step (Step.save (f := ⟨15, .save, 0, 0, 11⟩) (fs := []) rfl rfl rfl)
  have r3 : Run ⟨false, -1, 5, 11, [], none⟩ _ ⟨false, -1, 5, 0, [⟨15, .check, 11, 1, 11⟩], none⟩ :=
    r2.step (log (f := ⟨15, .recv, 11, 1, 11⟩) (fs := []) rfl rfl (Or.inr rfl) rfl rfl)
  have r4 : Run ⟨false, -1, 5, 11, [], none⟩ _ ⟨false, -1, 5, 0, [⟨15, .set, 11, 1, 11⟩], none⟩ :=
    r3.step (Step.check (f := ⟨15, .check, 11, 1, 11⟩) (fs := []) rfl rfl rfl)
  have r5 : Run ⟨false, -1, 5, 11, [], none⟩ _ ⟨true, -1, 5, 0, [⟨15, .choose, 11, 1, 11⟩], none⟩ :=
    r4.step (Step.set (f := ⟨15, .set, 11, 1, 11⟩) (fs := []) rfl rfl rfl)
  have r6 : Run ⟨false, -1, 5, 11, [], none⟩ _ ⟨true, -1, 5, 0, [⟨15, .sendLog, 11, 1, 11⟩], none⟩ :=
    r5.step (Step.choose (f := ⟨15, .choose, 11, 1, 11⟩) (fs := []) rfl rfl rfl)
  have r7 : Run ⟨false, -1, 5, 11, [], none⟩ _ ⟨true, -1, 5, 0, [⟨15, .send, 11, 1, 11⟩], none⟩ :=
    r6.step (log (f := ⟨15, .sendLog, 11, 1, 11⟩) (fs := []) rfl rfl (Or.inr rfl) rfl rfl)
  have r8 : Run ⟨false, -1, 5, 11, [], none⟩ _ ⟨true, -1, 5, 4, [⟨15, .restore, 11, 1, 11⟩], none⟩ :=
    r7.step (Step.send (f := ⟨15, .send, 11, 1, 11⟩) (fs := []) 1 4 rfl rfl rfl)
  have r9 : Run ⟨false, -1, 5, 11, [], none⟩ _ ⟨true, -1, 5, 11, [], none⟩ :=
    r8.step (Step.restore (f := ⟨15, .restore, 11, 1, 11⟩) (fs := []) rfl rfl rfl)
  exact ⟨_, _, r9, rfl, rfl, rfl, by simp⟩

-- registration
example : (init (fun _ => true) fun _ => .dfl).2 SIGSEGV = .fatal := by decide
example : (init (fun n => n != SIGBUS) fun _ => .dfl).1 = -1 := by decide

end Verif.Signal
