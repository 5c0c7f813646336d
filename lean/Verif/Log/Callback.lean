import Verif.Log.Spec

/-!
# Callbacks that use the logger

`sc_log_log` calls the callback while it holds the mutex (logger/sc_log.c:421, 442-448). Here the callback is a program that
calls the functions of the logger itself. There is one thread. The streams and files are not looked at: `written` tells which
messages got as far as them.
-/

namespace Verif.Log.Callback

open Spec (Level)

/-- What a thread calls. `sc_log_set_level` with a text that is no level is left out; of `sc_log_set_file` only that it takes the
mutex matters. -/
inductive Call where
  | log (l : Level)
  | setLevel (l : Level)
  | setStdout (b : Bool)
  | setFile
  | setCallback (cb : Option Nat)
  | setName

/-- How the logger was compiled: `recursive` with the `CRITICAL_SECTION` of Windows, logger/sc_log.c:84-111, which the thread that owns
it may take again, and not with the mutex of POSIX, logger/sc_log.c:117-152, of the type `PTHREAD_MUTEX_NORMAL`, for which that thread
then waits forever; `atomic` with C11 atomics, logger/sc_log.c:57-69. -/
structure Sys where
  recursive : Bool
  atomic : Bool

/-- The logger: `held` is how often the thread has taken the mutex; `seen` are the calls of callbacks, the newest last. -/
structure St where
  level : Level
  stdout : Bool
  cb : Option Nat
  held : Nat
  seen : List (Nat × Level)
  written : List Level

/-- What callbacks do: they may go by all that callbacks have seen, of which the message at hand is the last. -/
abbrev Prog := List (Nat × Level) → List Call

/-- How a call ends: it returns, the thread waits for itself, or more time is needed. -/
inductive Out where
  | ret (s : St)
  | blocked
  | more

/-- A critical section: `sc_log_mutex_lock`, logger/sc_log.c:100-103 and 144-147, the section, `sc_log_mutex_unlock`,
logger/sc_log.c:105-108 and 149-152 -/
def locked (y : Sys) (s : St) (body : St → Out) : Out :=
  if s.held = 0 ∨ y.recursive = true then
    match body { s with held := s.held + 1 } with
    | .ret s => .ret { s with held := s.held - 1 }
    | o => o
  else .blocked

/-- Calls one after the other -/
def all (f : Call → St → Out) : List Call → St → Out
  | [], s => .ret s
  | c :: cs, s =>
    match f c s with
    | .ret s => all f cs s
    | o => o

/-- A call, with a bound on how deep calls and callbacks are nested: `sc_log_log`, logger/sc_log.c:404-451, `sc_log_set_level`,
logger/sc_log.c:234-252, `sc_log_set_stdout`, logger/sc_log.c:254-259, `sc_log_set_file`, logger/sc_log.c:261-320, `sc_log_set_callback`,
logger/sc_log.c:322-329, `sc_log_set_thread_name`, logger/sc_log.c:213-216 -/
def exec (y : Sys) (p : Prog) : Nat → Call → St → Out
  | 0, _, _ => .more
  | n + 1, c, s =>
    match c with
    | .setName => .ret s
    | .setLevel l =>
      if y.atomic = true then .ret { s with level := l } else locked y s (fun s => .ret { s with level := l })
    | .setStdout b => locked y s (fun s => .ret { s with stdout := b })
    | .setFile => locked y s .ret
    | .setCallback cb => locked y s (fun s => .ret { s with cb := cb })
    | .log l =>
      if y.atomic = true ∧ l.rank < s.level.rank then .ret s
      else locked y s (fun s =>
        if y.atomic = false ∧ l.rank < s.level.rank then .ret s
        else
          let s := { s with written := s.written ++ [l] }
          match s.cb with
          | none => .ret s
          | some f => all (exec y p n) (p (s.seen ++ [(f, l)])) { s with seen := s.seen ++ [(f, l)] })

/-! ## What can be relied on -/

/-- The calls that do without the mutex, when the level is `l` -/
inductive Free (y : Sys) : Level → Call → Prop
  | name {l} : Free y l .setName
  | level {l l'} : y.atomic = true → Free y l (.setLevel l')
  | below {l l'} : y.atomic = true → l'.rank < l.rank → Free y l (.log l')

/-- The level after a call -/
def after (l : Level) : Call → Level
  | .setLevel l' => l'
  | _ => l

/-- Calls that do without the mutex, one after the other, from one level to another -/
inductive FreeAll (y : Sys) : Level → List Call → Level → Prop
  | nil {l} : FreeAll y l [] l
  | cons {l l' c cs} : Free y l c → FreeAll y (after l c) cs l' → FreeAll y l (c :: cs) l'

theorem free_exec {y : Sys} {p : Prog} {n : Nat} {c : Call} {s : St} (h : Free y s.level c) :
    exec y p (n + 1) c s = .ret { s with level := after s.level c } := by
  cases h with
  | name => rfl
  | level ha => simp only [exec]; rw [if_pos ha]; rfl
  | below ha hl => simp only [exec]; rw [if_pos ⟨ha, hl⟩]; rfl

theorem freeAll_exec {y : Sys} {p : Prog} {n : Nat} {cs : List Call} {l l' : Level} (h : FreeAll y l cs l') :
    ∀ {s : St} (rest : List Call), s.level = l → all (exec y p (n + 1)) (cs ++ rest) s = all (exec y p (n + 1)) rest { s with level := l' } := by
  induction h with
  | nil => intro s rest hs; subst hs; rfl
  | @cons l l' c cs hf _ ih =>
    intro s rest hs
    subst hs
    simp only [List.cons_append, all]
    rw [free_exec hf]
    simp only
    rw [ih rest rfl]

/-- A call that is not free, when the mutex is held and is not recursive, waits forever. -/
theorem blocked_exec {y : Sys} {p : Prog} {n : Nat} {c : Call} {s : St} (hr : y.recursive = false) (hs : s.held ≠ 0) (h : ¬ Free y s.level c) :
    exec y p (n + 1) c s = .blocked := by
  have hl : ∀ b, locked y s b = .blocked := by
    intro b
    unfold locked
    rw [if_neg]
    rw [hr]
    simp [hs]
  cases c with
  | setName => exact absurd .name h
  | setLevel l =>
    simp only [exec]
    rw [if_neg (fun ha => h (.level ha)), hl]
  | setStdout b => simp only [exec]; rw [hl]
  | setFile => simp only [exec]; rw [hl]
  | setCallback cb => simp only [exec]; rw [hl]
  | log l =>
    simp only [exec]
    rw [if_neg (fun ha => h (.below ha.1 ha.2)), hl]

/-- An enabled message, when the mutex is free: the callback is left to act. -/
theorem log_exec {y : Sys} {p : Prog} {n : Nat} {l : Level} {s : St} {f : Nat} (hl : ¬ l.rank < s.level.rank) (hk : s.held = 0 ∨ y.recursive = true)
    (hc : s.cb = some f) :
    exec y p (n + 1) (.log l) s =
      match all (exec y p n) (p (s.seen ++ [(f, l)])) ⟨s.level, s.stdout, s.cb, s.held + 1, s.seen ++ [(f, l)], s.written ++ [l]⟩ with
      | .ret s => .ret { s with held := s.held - 1 }
      | o => o := by
  simp only [exec]
  rw [if_neg (fun ha => hl ha.2)]
  unfold locked
  rw [if_pos hk]
  simp only
  rw [if_neg (fun ha => hl ha.2), hc]

/-- **C121 (part).** If the callback only makes calls that do without the mutex, the message is logged: it is written, the callback sees it
once, the level is what the callback leaves, and the mutex is free again. -/
theorem quiet_partial {y : Sys} {p : Prog} {n : Nat} {l l' : Level} {s : St} {f : Nat} (hl : ¬ l.rank < s.level.rank)
    (hk : s.held = 0 ∨ y.recursive = true) (hc : s.cb = some f) (hq : FreeAll y s.level (p (s.seen ++ [(f, l)])) l') :
    exec y p (n + 2) (.log l) s =
      .ret { s with level := l', seen := s.seen ++ [(f, l)], written := s.written ++ [l] } := by
  rw [log_exec hl hk hc]
  have := freeAll_exec (p := p) (n := n) hq (s := ⟨s.level, s.stdout, s.cb, s.held + 1, s.seen ++ [(f, l)], s.written ++ [l]⟩) [] rfl
  rw [List.append_nil] at this
  rw [this]
  rfl

/-- **C121 (part).** The settings are those made last: a thread that sets the callback, the level and whether it prints, and then logs, has the
message go to that callback, once, if there is one, and the message is not below that level; the mutex is free in the end. -/
theorem settings_partial {y : Sys} {p : Prog} {n : Nat} {l l₀ l' : Level} {b : Bool} {s : St} {cb : Option Nat} (hk : s.held = 0 ∨ y.recursive = true)
    (hq : ∀ f, cb = some f → FreeAll y l₀ (p (s.seen ++ [(f, l)])) l') :
    all (exec y p (n + 2)) [.setCallback cb, .setLevel l₀, .setStdout b, .log l] s =
      .ret (if l.rank < l₀.rank then { s with level := l₀, stdout := b, cb := cb }
        else { s with level := if cb = none then l₀ else l', stdout := b, cb := cb,
                      seen := s.seen ++ cb.toList.map (·, l), written := s.written ++ [l] }) := by
  have hset : exec y p (n + 2) (.setCallback cb) s = .ret { s with cb := cb } := by
    simp only [exec]; unfold locked; rw [if_pos hk]; rfl
  have hlev : ∀ s : St, (s.held = 0 ∨ y.recursive = true) → exec y p (n + 2) (.setLevel l₀) s = .ret { s with level := l₀ } := by
    intro s hk
    simp only [exec]
    split
    · rfl
    · unfold locked; rw [if_pos hk]; rfl
  have hout : ∀ s : St, (s.held = 0 ∨ y.recursive = true) → exec y p (n + 2) (.setStdout b) s = .ret { s with stdout := b } := by
    intro s hk
    simp only [exec]; unfold locked; rw [if_pos hk]; rfl
  simp only [all]
  rw [hset]
  simp only
  rw [hlev { s with cb := cb } hk]
  simp only
  rw [hout { s with cb := cb, level := l₀ } hk]
  simp only
  by_cases hl : l.rank < l₀.rank
  · rw [if_pos hl]
    simp only [exec]
    cases ha : y.atomic with
    | true => rw [if_pos ⟨rfl, hl⟩]
    | false =>
      rw [if_neg (by simp)]
      unfold locked
      rw [if_pos hk]
      simp only
      rw [if_pos ⟨trivial, hl⟩]
      rfl
  · rw [if_neg hl]
    cases cb with
    | none =>
      simp only [exec]
      rw [if_neg (fun h => hl h.2)]
      unfold locked
      rw [if_pos hk]
      simp only
      rw [if_neg (fun h => hl h.2)]
      simp
    | some f =>
      rw [quiet_partial (s := { s with cb := some f, level := l₀, stdout := b }) (f := f) (l' := l') hl hk rfl (hq f rfl)]
      simp

/-- **C121 is violated** on POSIX systems: if the callback makes a call that needs the mutex, such as logging a message that is not below the
level, or `sc_log_set_stdout`, the thread waits for itself, and `sc_log_log` never returns. -/
theorem deadlock_violated {y : Sys} (hr : y.recursive = false) {p : Prog} {l l' : Level} {s : St} {f : Nat} (hl : ¬ l.rank < s.level.rank)
    (hk : s.held = 0) (hc : s.cb = some f) {pre post : List Call} {c : Call}
    (hp : p (s.seen ++ [(f, l)]) = pre ++ c :: post) (hq : FreeAll y s.level pre l') (hn : ¬ Free y l' c) (n : Nat) :
    exec y p (n + 2) (.log l) s = .blocked := by
  rw [log_exec hl (Or.inl hk) hc, hp, freeAll_exec hq (s := ⟨s.level, s.stdout, s.cb, s.held + 1, s.seen ++ [(f, l)], s.written ++ [l]⟩) _ rfl]
  simp only [all]
  rw [blocked_exec hr (Nat.succ_ne_zero _) hn]

/-- **C121 is violated** on Windows too: a callback that logs what it is given calls itself without end. -/
theorem endless_violated {y : Sys} (hr : y.recursive = true) {p : Prog} (hp : ∀ seen f l, p (seen ++ [(f, l)]) = [.log l]) {l : Level} (n : Nat) :
    ∀ {s : St}, ¬ l.rank < s.level.rank → s.cb ≠ none → exec y p n (.log l) s = .more := by
  induction n with
  | zero => intros; rfl
  | succ n ih =>
    intro s hl hc
    obtain ⟨f, hf⟩ := Option.ne_none_iff_exists'.1 hc
    rw [log_exec hl (Or.inr hr) hf, hp]
    simp only [all]
    rw [ih (by exact hl) (by rw [hf]; exact (fun hc => by cases hc))]

/-! ## Balance -/

/-- A call leaves the mutex as often taken as it was, and has only added to what was written and seen. -/
def Fair (s s' : St) : Prop := s'.held = s.held ∧ s.seen <+: s'.seen ∧ s.written <+: s'.written

theorem Fair.refl (s : St) : Fair s s := ⟨rfl, List.prefix_rfl, List.prefix_rfl⟩

theorem Fair.trans {a b c : St} (h : Fair a b) (k : Fair b c) : Fair a c := ⟨k.1.trans h.1, h.2.1.trans k.2.1, h.2.2.trans k.2.2⟩

theorem all_fair {f : Call → St → Out} (hf : ∀ c s s', f c s = .ret s' → Fair s s') (cs : List Call) : ∀ {s s' : St}, all f cs s = .ret s' → Fair s s' := by
  induction cs with
  | nil => intro s s' h; cases h; exact .refl _
  | cons c cs ih =>
    intro s s' h
    simp only [all] at h
    generalize hx : f c s = x at h
    cases x with
    | ret s₁ => exact (hf c s s₁ hx).trans (ih h)
    | blocked => cases h
    | more => cases h

theorem locked_fair {y : Sys} {s s' : St} {b : St → Out} (hb : ∀ {a a' : St}, b a = .ret a' → Fair a a') (h : locked y s b = .ret s') : Fair s s' := by
  unfold locked at h
  split at h
  · generalize hx : b { s with held := s.held + 1 } = x at h
    cases x with
    | ret s₁ =>
      cases h
      have := hb hx
      refine ⟨?_, this.2.1, this.2.2⟩
      have := this.1
      simp only at this ⊢
      omega
    | blocked => cases h
    | more => cases h
  · cases h

/-- **C121 (part).** Whatever callbacks do, a call that returns has given back the mutex as often as it took it, and nothing that was written is
taken back. -/
theorem returns_fair {y : Sys} {p : Prog} (n : Nat) : ∀ (c : Call) (s s' : St), exec y p n c s = .ret s' → Fair s s' := by
  induction n with
  | zero => intro c s s' h; cases h
  | succ n ih =>
    intro c s s' h
    cases c with
    | setName => cases h; exact .refl _
    | setLevel l =>
      simp only [exec] at h
      split at h
      · cases h; exact .refl _
      · exact locked_fair (fun h => by cases h; exact .refl _) h
    | setStdout b => simp only [exec] at h; exact locked_fair (fun h => by cases h; exact .refl _) h
    | setFile => simp only [exec] at h; exact locked_fair (fun h => by cases h; exact .refl _) h
    | setCallback cb => simp only [exec] at h; exact locked_fair (fun h => by cases h; exact .refl _) h
    | log l =>
      simp only [exec] at h
      split at h
      · cases h; exact .refl _
      · refine locked_fair (fun {a a'} h => ?_) h
        split at h
        · cases h; exact .refl _
        · split at h
          · cases h
            exact ⟨rfl, List.prefix_rfl, List.prefix_append _ _⟩
          · have := all_fair ih _ h
            exact ⟨this.1, (List.prefix_append _ _).trans this.2.1, (List.prefix_append _ _).trans this.2.2⟩

/-! ## Windows: callbacks that end -/

/-- The callbacks log only messages of lower levels than the one they are given. -/
def Descends (p : Prog) : Prop := ∀ seen f (l l' : Level), Call.log l' ∈ p (seen ++ [(f, l)]) → l'.rank < l.rank

theorem locked_returns {y : Sys} (hr : y.recursive = true) {s : St} {b : St → Out} (hb : ∀ a, ∃ a', b a = .ret a') : ∃ s', locked y s b = .ret s' := by
  unfold locked
  rw [if_pos (Or.inr hr)]
  obtain ⟨a', h⟩ := hb { s with held := s.held + 1 }
  rw [h]
  exact ⟨_, rfl⟩

theorem all_returns {f : Call → St → Out} (cs : List Call) (hf : ∀ c ∈ cs, ∀ s, ∃ s', f c s = .ret s') : ∀ s, ∃ s', all f cs s = .ret s' := by
  induction cs with
  | nil => intro s; exact ⟨s, rfl⟩
  | cons c cs ih =>
    intro s
    obtain ⟨s₁, h₁⟩ := hf c (List.mem_cons_self ..) s
    obtain ⟨s₂, h₂⟩ := ih (fun c hc => hf c (List.mem_cons_of_mem _ hc)) s₁
    simp only [all]
    rw [h₁]
    exact ⟨s₂, h₂⟩

/-- **C121 (part).** On Windows every call returns if the callbacks log only messages of lower levels than the one they are given; they may call
anything else. -/
theorem descending_partial {y : Sys} (hr : y.recursive = true) {p : Prog} (hp : Descends p) (n : Nat) :
    ∀ (c : Call) (s : St), (∀ l, c = .log l → l.rank < n) → ∃ s', exec y p (n + 1) c s = .ret s' := by
  induction n with
  | zero =>
    intro c s hc
    cases c with
    | setName => exact ⟨_, rfl⟩
    | setLevel l =>
      simp only [exec]
      by_cases ha : y.atomic = true
      · rw [if_pos ha]; exact ⟨_, rfl⟩
      · rw [if_neg ha]; exact locked_returns hr (fun a => ⟨_, rfl⟩)
    | setStdout b => exact locked_returns hr (fun a => ⟨_, rfl⟩)
    | setFile => exact locked_returns hr (fun a => ⟨_, rfl⟩)
    | setCallback cb => exact locked_returns hr (fun a => ⟨_, rfl⟩)
    | log l => exact absurd (hc l rfl) (by omega)
  | succ n ih =>
    intro c s hc
    cases c with
    | setName => exact ⟨_, rfl⟩
    | setLevel l =>
      simp only [exec]
      by_cases ha : y.atomic = true
      · rw [if_pos ha]; exact ⟨_, rfl⟩
      · rw [if_neg ha]; exact locked_returns hr (fun a => ⟨_, rfl⟩)
    | setStdout b => exact locked_returns hr (fun a => ⟨_, rfl⟩)
    | setFile => exact locked_returns hr (fun a => ⟨_, rfl⟩)
    | setCallback cb => exact locked_returns hr (fun a => ⟨_, rfl⟩)
    | log l =>
      rw [exec]
      by_cases ha : y.atomic = true ∧ l.rank < s.level.rank
      · simp only; rw [if_pos ha]; exact ⟨_, rfl⟩
      · simp only; rw [if_neg ha]
        refine locked_returns hr (fun a => ?_)
        by_cases hb : y.atomic = false ∧ l.rank < a.level.rank
        · rw [if_pos hb]; exact ⟨_, rfl⟩
        · rw [if_neg hb]
          cases hcb : a.cb with
          | none => exact ⟨_, rfl⟩
          | some f =>
            refine all_returns _ (fun c hm s => ih c s (fun l' he => ?_)) _
            subst he
            have := hp _ _ _ _ hm
            have := hc l rfl
            omega

/-- Every call of every program ends so: levels have ranks below 5. -/
theorem descending_returns_partial {y : Sys} (hr : y.recursive = true) {p : Prog} (hp : Descends p) (c : Call) (s : St) :
    ∃ s', exec y p 6 c s = .ret s' ∧ s'.held = s.held := by
  obtain ⟨s', h⟩ := descending_partial hr hp 5 c s (fun l _ => by cases l <;> decide)
  exact ⟨s', h, (returns_fair _ _ _ _ h).1⟩

/-! ## Examples -/

def posix : Sys := ⟨false, true⟩
def windows : Sys := ⟨true, true⟩

/-- After `sc_log_init` and `sc_log_set_callback` -/
def s₀ : St := ⟨.info, true, some 1, 0, [], []⟩

/-- The callback reports errors it is given as warnings, and lowers the level. -/
def report : Prog := fun seen =>
  match seen.getLast? with
  | some (_, .error) => [.setName, .log .warn, .setLevel .debug]
  | _ => [.log .debug]

example : exec posix report 9 (.log .error) s₀ = .blocked := by rfl

example : exec posix report 9 (.log .info) s₀ = .ret ⟨.info, true, some 1, 0, [(1, .info)], [.info]⟩ := by rfl

example : exec windows report 9 (.log .error) s₀ =
    .ret ⟨.debug, true, some 1, 0, [(1, .error), (1, .warn)], [.error, .warn]⟩ := by rfl

example : ∃ l', FreeAll posix s₀.level (report (s₀.seen ++ [(1, .info)])) l' := ⟨.info, .cons (.below rfl (by decide)) .nil⟩

example : all (exec posix report 2) [.setCallback (some 2), .setLevel .info, .setStdout false, .log .warn] s₀ =
    .ret ⟨.info, false, some 2, 0, [(2, .warn)], [.warn]⟩ :=
  settings_partial (l' := .info) (Or.inl rfl) (fun f _ => .cons (.below rfl (by decide)) .nil)

example : exec posix report 9 (.log .error) s₀ = .blocked :=
  deadlock_violated (l' := .info) (pre := [.setName]) (post := [.setLevel .debug]) (c := .log .warn) rfl (by decide) rfl rfl rfl
    (.cons .name .nil) (fun h => by cases h with | below _ h => exact absurd h (by decide)) 7

example : exec windows (fun seen => match seen.getLast? with | some (_, l) => [.log l] | none => []) 100 (.log .error) s₀ = .more :=
  endless_violated rfl (fun seen f l => by simp) 100 (by decide) (fun h => by cases h)

end Verif.Log.Callback
