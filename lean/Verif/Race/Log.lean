import Verif.Log.Progress
import Verif.Race.Lemmas

/-!
# The logger and data races

The functions of the logger never race for its fields, nor do callbacks for what only callbacks
access; and what a thread did before it set a callback is ordered before the calls of it.
-/

namespace Verif.Log

open Spec (Level)
open Race (Trace HB Racy Guarded keep last lt_of_some)

/-- What the threads access without atomic operations: the fields `cb` and `arg` of `struct sc_log`,
its other fields but the level, logger/sc_log.c:156-170, and what callbacks access. -/
inductive Place where
  | cb
  | rest
  | user
  deriving DecidableEq

/-- Of interest besides: what can be observed, and calls of callbacks. -/
inductive Mark where
  | seen (e : Event)
  | invoked (f : Nat)

abbrev Doing := Race.Act Unit Place Mark

/-- What a thread does in the next step, besides calling and returning. Inside the critical sections
of `sc_log_log` and `sc_log_set_file` the steps may access all but the callback. The level is read
with an atomic operation, which orders nothing (logger/sc_log.c:61-64). -/
def doing (s : State) (t : Nat) : List Doing :=
  match (s.th t).st with
  | .idle | .check .. => []
  /- logger/sc_log.c:256, 267, 325, 421 -/
  | .waiting _ => [.acq ()]
  | .inside op loc _ =>
    match loc.pc, op with
    /- logger/sc_log.c:258, 316, 328, 448 -/
    | .unlock, _ => [.rel ()]
    /- logger/sc_log.c:326-327 -/
    | _, .setCallback _ => [.wr .cb]
    /- logger/sc_log.c:442-446 -/
    | .callback, .log .. =>
      match s.sh.cb with
      | none => [.rd .cb]
      | some f => [.rd .cb, .rd .user, .wr .user, .ev (.invoked f)]
    | _, _ => [.rd .rest, .wr .rest]

/-- The thread that makes a step. Nobody moves when the level or a name is set. -/
def Moves (s s' : State) (t : Nat) : Prop := (s.th t).st ≠ (s'.th t).st

/-- Executions and what the threads do in them. -/
inductive Exec : State → Trace Unit Place Mark → State → Prop
  | refl {s} : Exec s [] s
  | step {s s' s'' e tr t} : Exec s tr s' → Step s' e s'' → Moves s' s'' t →
      Exec s (tr ++ (doing s' t ++ e.toList.map fun e => Race.Act.ev (Mark.seen e)).map fun a => (t, a)) s''
  | quiet {s s' s'' e tr} : Exec s tr s' → Step s' e s'' → (∀ t, ¬ Moves s' s'' t) → Exec s tr s''

/-- Every execution is one of these. -/
theorem exec_of_run {s s' : State} {es : List Event} (r : Run s es s') : ∃ tr, Exec s tr s' := by
  induction r with
  | refl => exact ⟨[], .refl⟩
  | @step s s' e es _ st ih =>
    obtain ⟨tr, h⟩ := ih
    by_cases m : ∃ t, Moves s s' t
    · obtain ⟨t, m⟩ := m; exact ⟨_, .step h st m⟩
    · exact ⟨tr, .quiet h st fun t h => m ⟨t, h⟩⟩

/-- And these are executions. -/
theorem run_of_exec {s s' : State} {tr : Trace Unit Place Mark} (r : Exec s tr s') : ∃ es, Run s es s' := by
  induction r with
  | refl => exact ⟨[], .refl⟩
  | step _ st _ ih => exact ih.imp' (· ++ _) fun _ h => .step h st
  | quiet _ st _ ih => exact ih.imp' (· ++ _) fun _ h => .step h st

/-! ## Invariant -/

/-- A call that sets the callback `f` has stored it, and none has been stored since. -/
def Stored (tr : Trace Unit Place Mark) (f : Nat) : Prop :=
  ∃ t c w, c < w ∧ Race.At tr c t (.ev (.seen (.call t (.setCallback (some f))))) ∧ Race.At tr w t (.wr .cb) ∧
    ∀ k, w < k → ∀ u, ¬ Race.At tr k u (.wr .cb)

/-- What went before the `j`th thing, a call of the callback `f`. -/
def Before (tr : Trace Unit Place Mark) (j u f : Nat) : Prop :=
  ∃ t c w r, c < w ∧ w < r ∧ r < j ∧ Race.At tr c t (.ev (.seen (.call t (.setCallback (some f))))) ∧
    Race.At tr w t (.wr .cb) ∧ (∀ k, w < k → k < j → ∀ i, ¬ Race.At tr k i (.wr .cb)) ∧ Race.At tr r u (.rd .cb)

/-- The thread is about to set the callback. -/
def Setting (x : Status) (cb : Option Nat) : Prop :=
  x = .waiting (.setCallback cb) ∨ ∃ loc outs, x = .inside (.setCallback cb) loc outs

structure Sync (tr : Trace Unit Place Mark) (s : State) : Prop where
  guarded : Guarded (fun _ => ()) tr fun _ => s.lock
  own : ∀ t op loc outs, (s.th t).st = .inside op loc outs → s.lock = some t
  asked : ∀ t cb, Setting (s.th t).st cb → ∃ c, Race.At tr c t (.ev (.seen (.call t (.setCallback cb))))
  stored : ∀ f, s.sh.cb = some f → Stored tr f
  before : ∀ j u f, Race.At tr j u (.ev (.invoked f)) → Before tr j u f

/-- What a thread has just done. -/
abbrev by_ (t : Nat) (es : List Doing) : Trace Unit Place Mark := es.map fun a => (t, a)

theorem at_append {tr : Trace Unit Place Mark} {t : Nat} {es : List Doing} {k u : Nat} {a : Doing}
    (h : Race.At (tr ++ by_ t es) k u a) :
    (k < tr.length ∧ Race.At tr k u a) ∨ (tr.length ≤ k ∧ u = t ∧ es[k - tr.length]? = some a) := by
  have h : (tr ++ by_ t es)[k]? = some (u, a) := h
  rw [List.getElem?_append] at h
  split at h
  · rename_i hk; exact .inl ⟨hk, h⟩
  · rename_i hk
    rw [List.getElem?_map, Option.map_eq_some_iff] at h
    obtain ⟨b, hb, e⟩ := h
    cases e
    exact .inr ⟨by omega, rfl, hb⟩

theorem Stored.keep {tr : Trace Unit Place Mark} {f : Nat} (h : Stored tr f) {t : Nat} {es : List Doing}
    (he : Race.Act.wr Place.cb ∉ es) : Stored (tr ++ by_ t es) f := by
  obtain ⟨u, c, w, h1, h2, h3, h4⟩ := h
  refine ⟨u, c, w, h1, Race.keep h2, Race.keep h3, fun k hk i hi => ?_⟩
  rcases at_append hi with ⟨_, e⟩ | ⟨_, _, e⟩
  · exact h4 k hk i e
  · exact he (List.mem_of_getElem? e)

theorem Before.keep {tr : Trace Unit Place Mark} {j u f : Nat} (h : Before tr j u f) (hj : j ≤ tr.length) {t : Nat}
    {es : List Doing} : Before (tr ++ by_ t es) j u f := by
  obtain ⟨i, c, w, r, h1, h2, h0, h3, h4, h5, h6⟩ := h
  refine ⟨i, c, w, r, h1, h2, h0, Race.keep h3, Race.keep h4, fun k hk hk' i hi => ?_, Race.keep h6⟩
  rcases at_append hi with ⟨_, e⟩ | ⟨h, _, e⟩
  · exact h5 k hk hk' i e
  · omega

/-- A thread moves on. -/
theorem Sync.move {tr : Trace Unit Place Mark} {s : State} (h : Sync tr s) {t : Nat} {x : Status} {l : Option Nat}
    {sh : Shared} {es : List Doing} (hg : Guarded (fun _ => ()) (tr ++ by_ t es) fun _ => l)
    (ho : (∃ op loc outs, x = .inside op loc outs) → l = some t)
    (hl : l = s.lock ∨ s.lock = none ∨ s.lock = some t)
    (ha : ∀ cb, Setting x cb → ∃ c, Race.At (tr ++ by_ t es) c t (.ev (.seen (.call t (.setCallback cb)))))
    (hs : ∀ f, sh.cb = some f → Stored (tr ++ by_ t es) f)
    (hb : ∀ k f, es[k]? = some (.ev (.invoked f)) → Before (tr ++ by_ t es) (tr.length + k) t f) :
    Sync (tr ++ by_ t es) { s.set t x with lock := l, sh := sh } := by
  refine ⟨hg, fun i op loc outs hi => ?_, fun i cb hi => ?_, hs, fun j u f hj => ?_⟩
  · show l = some i
    by_cases e : i = t
    · subst e
      simp only [State.set, if_pos] at hi
      exact ho ⟨_, _, _, hi⟩
    · simp only [State.set, if_neg e] at hi
      have := h.own i op loc outs hi
      rcases hl with hl | hl | hl
      · rw [hl]; exact this
      · rw [hl] at this; cases this
      · rw [hl] at this; cases this; exact absurd rfl e
  · by_cases e : i = t
    · subst e
      simp only [State.set, if_pos] at hi
      exact ha cb hi
    · simp only [State.set, if_neg e] at hi
      exact (h.asked i cb hi).imp fun c hc => Race.keep hc
  · rcases at_append hj with ⟨hl, e'⟩ | ⟨hl, hu, e'⟩
    · exact (h.before j u f e').keep (by omega)
    · subst hu
      have := hb _ _ e'
      rwa [show tr.length + (j - tr.length) = j by omega] at this

/-- The callback stays. -/
def KeepsCb (s : Shared) (r : Res (Loc × Shared)) : Prop := ∀ p, r = .ok p → p.2.cb = s.cb

theorem KeepsCb.ok {s s' : Shared} {loc : Loc} (h : s'.cb = s.cb) : KeepsCb s (.ok (loc, s')) := by
  intro p e; cases e; exact h

theorem KeepsCb.ub {s : Shared} : KeepsCb s .ub := by
  intro p e; cases e

theorem KeepsCb.bind {α : Type} {s : Shared} {x : Res α} {f : α → Res (Loc × Shared)} (h : ∀ a, KeepsCb s (f a)) :
    KeepsCb s (x >>= f) := by
  intro p e
  obtain ⟨a, -, e⟩ := Res.bind_eq_ok.1 e
  exact h a p e

theorem KeepsCb.ite {c : Prop} [Decidable c] {s : Shared} {a b : Res (Loc × Shared)} (ha : KeepsCb s a) (hb : KeepsCb s b) :
    KeepsCb s (if c then a else b) := by
  split <;> assumption

theorem emit_cb (s : Shared) (l : Level) (b : List UInt8) : (s.emit l b).cb = s.cb := by
  unfold Shared.emit; split <;> rfl

theorem stepLog_cb (name : List UInt8) (l : Level) (msg : List UInt8) (loc : Loc) (o : Out) (s : Shared) :
    KeepsCb s (stepLog name l msg loc o s) := by
  unfold stepLog
  split <;> repeat' first
    | exact .ok rfl
    | exact .ok (emit_cb ..)
    | exact .ub
    | refine .ite ?_ ?_
    | refine .bind fun _ => ?_
    | (refine .ok ?_; split <;> rfl)
    | split

theorem stepFile_cb (names : Option (List UInt8 × List UInt8)) (loc : Loc) (o : Out) (s : Shared) :
    KeepsCb s (stepFile names loc o s) := by
  unfold stepFile
  split <;> repeat' first
    | exact .ok rfl
    | exact .ub
    | refine .ite ?_ ?_
    | refine .bind fun _ => ?_
    | split

/-- Only `sc_log_set_callback` sets the callback. -/
theorem step_cb {name : List UInt8} {op : Op} {loc loc' : Loc} {o : Out} {s s' : Shared}
    (h : step name op loc o s = .ok (loc', s')) :
    (∃ cb, op = .setCallback cb ∧ s'.cb = cb) ∨ ((∀ cb, op ≠ .setCallback cb) ∧ s'.cb = s.cb) := by
  cases op with
  | log l msg => exact .inr ⟨by simp, stepLog_cb _ _ _ _ _ _ _ h⟩
  | setFile n => exact .inr ⟨by simp, stepFile_cb _ _ _ _ _ h⟩
  | setStdout b =>
    refine .inr ⟨by simp, ?_⟩
    simp only [step] at h
    split at h
    · cases h; rfl
    · cases h
  | setCallback cb =>
    refine .inl ⟨cb, rfl, ?_⟩
    simp only [step] at h
    split at h
    · cases h; rfl
    · cases h

/-- Whoever moves is the thread of the step. -/
theorem mover {s s' : State} {t u : Nat} (m : Moves s s' u) (h : ∀ i, i ≠ t → (s'.th i).st = (s.th i).st) : u = t :=
  Classical.byContradiction fun hne => m (h u hne).symm

theorem Sync.step {tr : Trace Unit Place Mark} {s s' : State} {e : Option Event} {u : Nat} (h : Sync tr s)
    (st : Step s e s') (m : Moves s s' u) :
    Sync (tr ++ by_ u (doing s u ++ e.toList.map fun e => Race.Act.ev (Mark.seen e))) s' := by
  have one : ∀ {t : Nat}, (∀ i, i ≠ t → (s'.th i).st = (s.th i).st) → u = t := fun h => mover m h
  cases st with
  | call t op hi =>
    obtain rfl := one (t := t) (by intro i hi; simp [State.set, hi])
    rw [show doing s u = [] by simp [doing, hi]]
    refine h.move (.ev u _ h.guarded) ?_ (.inl rfl) ?_ (fun f hf => (h.stored f hf).keep (by simp)) ?_
    · rintro ⟨a, b, c, e⟩; cases op <;> cases e
    · intro cb hc
      refine ⟨tr.length, ?_⟩
      have : op = .setCallback cb := by
        rcases hc with e | ⟨a, b, e⟩
        · cases op <;> simp [Op.entry] at e <;> exact congrArg _ e
        · cases op <;> cases e
      rw [this]
      exact Race.last _ _
    · intro k f hk
      match k with
      | 0 => simp at hk
      | k + 1 => simp at hk
  | setLevel t str hi => exact absurd rfl m
  | @setName name t str hi hn =>
    refine absurd m fun c => c ?_
    by_cases e : u = t <;> simp [e]
  | @skip t l msg hi hl =>
    obtain rfl := one (t := t) (by intro i hi; simp [State.set, hi])
    rw [show doing s u = [] by simp [doing, hi]]
    refine h.move (.ev u _ h.guarded) ?_ (.inl rfl) ?_ (fun f hf => (h.stored f hf).keep (by simp)) ?_
    · rintro ⟨a, b, c, e⟩; cases e
    · rintro cb (e | ⟨a, b, e⟩) <;> cases e
    · intro k f hk
      match k with
      | 0 => simp at hk
      | k + 1 => simp at hk
  | @pass t l msg hi hl =>
    obtain rfl := one (t := t) (by intro i hi; simp [State.set, hi])
    rw [show doing s u = [] by simp [doing, hi]]
    refine h.move (by simpa using h.guarded) ?_ (.inl rfl) ?_ (fun f hf => (h.stored f hf).keep (by simp)) ?_
    · rintro ⟨a, b, c, e⟩; cases e
    · rintro cb (e | ⟨a, b, e⟩) <;> cases e
    · intro k f hk; simp at hk
  | @lock t op hi hl =>
    obtain rfl := one (t := t) (by intro i hi; simp [State.set, hi])
    rw [show doing s u = [.acq ()] by simp [doing, hi]]
    refine h.move (.acq u () h.guarded hl rfl fun k hk => absurd rfl hk) (fun _ => rfl) (.inr (.inl hl)) ?_
      (fun f hf => (h.stored f hf).keep (by simp)) ?_
    · intro cb hc
      have : op = .setCallback cb := by
        rcases hc with e | ⟨a, b, e⟩
        · cases e
        · cases e; rfl
      exact (h.asked u cb (.inl (by rw [hi, this]))).imp fun c hc => Race.keep hc
    · intro k f hk
      match k with
      | 0 => simp at hk
      | k + 1 => simp at hk
  | @step t op loc outs loc' sh' o hi hp hst =>
    obtain rfl := one (t := t) (by intro i hi; simp [State.set, hi])
    have hl := h.own u op loc outs hi
    have ha : ∀ es : List Doing, ∀ cb, Setting (.inside op loc' (outs ++ [o])) cb →
        ∃ c, Race.At (tr ++ by_ u es) c u (.ev (.seen (.call u (.setCallback cb)))) := by
      intro es cb hc
      have : op = .setCallback cb := by
        rcases hc with e | ⟨a, b, e⟩
        · cases e
        · cases e; rfl
      exact (h.asked u cb (.inr ⟨_, _, by rw [hi, this]⟩)).imp fun c hc => Race.keep hc
    have h1 : ∀ x, Guarded (fun _ => ()) (tr ++ by_ u [.rd x]) fun _ => s.lock := fun x => .rd u x h.guarded hl
    have h2 : ∀ x, Guarded (fun _ => ()) (tr ++ by_ u [.wr x]) fun _ => s.lock := fun x => .wr u x h.guarded hl
    have h3 : ∀ x, Guarded (fun _ => ()) (tr ++ by_ u [.rd x, .wr x]) fun _ => s.lock := fun x => by
      have := Guarded.wr u x (h1 x) hl
      rwa [List.append_assoc] at this
    rcases step_cb hst with ⟨cb, rfl, hcb⟩ | ⟨hne, hcb⟩
    · have hd : doing s u = [.wr .cb] := by simp only [doing, hi]
      rw [hd]
      refine h.move (h2 .cb) (fun _ => hl) (.inl rfl) (ha _) ?_ ?_
      · intro f hf
        rw [hcb] at hf
        obtain ⟨c, hc⟩ := h.asked u cb (.inr ⟨_, _, hi⟩)
        rw [hf] at hc
        refine ⟨u, c, tr.length, lt_of_some hc, Race.keep hc, Race.last _ _, fun k hk i hi => ?_⟩
        have := lt_of_some hi
        simp at this; omega
      · intro k f hk
        match k with
        | 0 => simp at hk
        | k + 1 => simp at hk
    · by_cases hc : loc.pc = .callback ∧ ∃ l msg, op = .log l msg
      · obtain ⟨hc, l, msg, rfl⟩ := hc
        cases hcb' : s.sh.cb with
        | none =>
          rw [show doing s u = [.rd .cb] by simp [doing, hi, hc, hcb']]
          refine h.move (h1 .cb) (fun _ => hl) (.inl rfl) (ha _) ?_ ?_
          · intro f hf; rw [hcb, hcb'] at hf; cases hf
          · intro k f hk
            match k with
            | 0 => simp at hk
            | k + 1 => simp at hk
        | some g =>
          rw [show doing s u = [.rd .cb, .rd .user, .wr .user, .ev (.invoked g)] by simp [doing, hi, hc, hcb']]
          have g1 := Guarded.ev u (.invoked g) (.wr u .user (.rd u .user (h1 .cb) hl) hl)
          simp only [List.append_assoc] at g1
          refine h.move g1 (fun _ => hl) (.inl rfl) (ha _) ?_ ?_
          · intro f hf
            rw [hcb] at hf
            exact (h.stored f hf).keep (by simp)
          · intro k f hk
            match k with
            | 0 | 1 | 2 => simp at hk
            | 3 =>
              simp at hk
              subst hk
              obtain ⟨t, c, w, k1, k2, k3, k4⟩ := h.stored _ hcb'
              refine ⟨t, c, w, tr.length, k1, lt_of_some k3, by omega, Race.keep k2, Race.keep k3, fun k hk hk' i hi => ?_, ?_⟩
              · rcases at_append hi with ⟨_, e⟩ | ⟨h, _, e⟩
                · exact k4 k hk i e
                · have := List.mem_of_getElem? e
                  simp at this
              · simp [Race.At]
            | k + 4 => simp at hk
      · have hd : doing s u = [.rd .rest, .wr .rest] := by
          simp only [doing, hi]
          cases e : loc.pc <;> cases op <;> first
            | rfl
            | exact absurd e hp
            | exact absurd rfl (hne _)
            | exact (hc ⟨e, _, _, rfl⟩).elim
        rw [hd]
        refine h.move (h3 .rest) (fun _ => hl) (.inl rfl) (ha _) ?_ ?_
        · intro f hf
          rw [hcb] at hf
          exact (h.stored f hf).keep (by simp)
        · intro k f hk
          match k with
          | 0 | 1 => simp at hk
          | k + 2 => simp at hk
  | @unlock t op loc outs hi hp =>
    obtain rfl := one (t := t) (by intro i hi; simp [State.set, hi])
    have hl := h.own u op loc outs hi
    rw [show doing s u = [.rel ()] by simp [doing, hi, hp]]
    have g := Guarded.ev u (.seen (.done u (s.th u).name op outs loc))
      (.rel u () (o' := fun _ => none) h.guarded hl rfl fun k hk => absurd rfl hk)
    rw [List.append_assoc] at g
    refine h.move g ?_ (.inr (.inr hl)) ?_ (fun f hf => (h.stored f hf).keep (by simp)) ?_
    · rintro ⟨a, b, c, e⟩; cases e
    · rintro cb (e | ⟨a, b, e⟩) <;> cases e
    · intro k f hk
      match k with
      | 0 | 1 => simp at hk
      | k + 2 => simp at hk

/-- A step in which nobody moves. -/
theorem Sync.quiet {tr : Trace Unit Place Mark} {s s' : State} {e : Option Event} (h : Sync tr s)
    (st : Step s e s') (m : ∀ t, ¬ Moves s s' t) : Sync tr s' := by
  have same : ∀ t, (s'.th t).st = (s.th t).st := fun t => (Classical.not_not.1 (m t)).symm
  have key : s'.lock = s.lock → s'.sh.cb = s.sh.cb → Sync tr s' := fun h1 h2 =>
    ⟨by rw [h1]; exact h.guarded, fun t op loc outs hi => by rw [h1]; exact h.own t op loc outs (by rw [← same]; exact hi),
      fun t cb hi => h.asked t cb (by rw [← same]; exact hi), fun f hf => h.stored f (by rw [← h2]; exact hf), h.before⟩
  cases st with
  | call t op hi => exact key rfl rfl
  | setLevel t str hi => exact key rfl rfl
  | setName t str hi => exact key rfl rfl
  | skip hi => exact key rfl rfl
  | pass hi => exact key rfl rfl
  | @lock t op hi =>
    have := same t
    rw [hi] at this; simp [State.set] at this
  | @step t op loc outs loc' sh' o hi =>
    have := same t
    rw [hi] at this; simp [State.set] at this
  | @unlock t op loc outs hi =>
    have := same t
    rw [hi] at this; simp [State.set] at this

theorem sync_exec {fs : List UInt8 → Option (List UInt8)} {out err : List UInt8} {tr : Trace Unit Place Mark}
    {s : State} (r : Exec (begun fs out err) tr s) : Sync tr s := by
  generalize hs : begun fs out err = s₀ at r
  induction r with
  | refl =>
    subst hs
    exact ⟨.nil, fun t op loc outs h => by simp [begun] at h, fun t cb h => by simp [begun, Setting] at h,
      fun f h => (by cases h), fun j u f h => by simp [Race.At] at h⟩
  | step _ st m ih => exact ih.step st m
  | quiet _ st m ih => exact ih.quiet st m

/-! ## Main theorems -/

/-- The functions never race for the fields of the logger, nor callbacks for what only they access. -/
theorem log_race_free {fs : List UInt8 → Option (List UInt8)} {out err : List UInt8} {tr : Trace Unit Place Mark}
    {s : State} (r : Exec (begun fs out err) tr s) : ¬ Racy tr :=
  (sync_exec r).guarded.not_racy

/-- A callback that is called was set by a call whose effect was the last such one; all that the
thread did before that call happens before the callback. -/
theorem log_callback_sees {fs : List UInt8 → Option (List UInt8)} {out err : List UInt8} {tr : Trace Unit Place Mark}
    {s : State} (r : Exec (begun fs out err) tr s) {j u f : Nat} (hj : Race.At tr j u (.ev (.invoked f))) :
    ∃ t c w, Race.At tr c t (.ev (.seen (.call t (.setCallback (some f))))) ∧ Race.At tr w t (.wr .cb) ∧
      c < w ∧ w < j ∧ (∀ k, w < k → k < j → ∀ i, ¬ Race.At tr k i (.wr .cb)) ∧ HB tr c j := by
  have h := sync_exec r
  obtain ⟨t, c, w, l, h1, h2, h3, h4, h5, h6, h7⟩ := h.before j u f hj
  refine ⟨t, c, w, h4, h5, h1, by omega, h6, ?_⟩
  exact .trans (.thread h1 h4 h5) (.trans (Race.ordered h.guarded h2 h5 h7 (x := Place.cb) rfl rfl) (.thread h3 h7 hj))

/-! ## Example -/

/-- A thread sets a callback, and it is called by another thread that logs a message; the time is not
known, so nothing is printed. -/
example : ∃ tr s j, Exec (begun (fun _ => none) [] []) tr s ∧ Race.At tr j 2 (.ev (.invoked 5)) := by
  have r1 := Exec.step (t := 1) (.refl (s := begun (fun _ => none) [] [])) (.call 1 (.setCallback (some 5)) rfl)
    (by simp [Moves, State.set, begun, Op.entry])
  have r2 := Exec.step (t := 1) r1 (.lock (t := 1) (op := .setCallback (some 5)) rfl rfl) (by simp [Moves, State.set, Op.entry])
  have r3 := Exec.step (t := 1) r2 (.step (t := 1) (op := .setCallback (some 5)) (loc := start (.setCallback none)) (outs := []) { ok := true } rfl (by simp [start]) rfl) (by simp [Moves, State.set])
  have r4 := Exec.step (t := 1) r3 (.unlock (t := 1) (op := .setCallback (some 5)) (loc := { pc := .unlock }) rfl rfl) (by simp [Moves, State.set])
  have r5 := Exec.step (t := 2) r4 (.call 2 (.log .error [69]) rfl) (by simp [Moves, State.set, begun, Op.entry])
  have r6 := Exec.step (t := 2) r5 (.pass (t := 2) (l := .error) (msg := [69]) rfl (by simp [State.set, begun, Level.rank])) (by simp [Moves, State.set, Op.entry])
  have r7 := Exec.step (t := 2) r6 (.lock (t := 2) (op := .log .error [69]) rfl rfl) (by simp [Moves, State.set])
  have r8 := Exec.step (t := 2) r7 (.step (t := 2) (op := .log .error [69]) (loc := { pc := .out1, rc := 0 }) { ok := true } rfl (by simp) rfl) (by simp [Moves, State.set])
  have r9 := Exec.step (t := 2) r8 (.step (t := 2) (op := .log .error [69]) (loc := { pc := .file1, rc := 0 ||| -1 }) { ok := true } rfl (by simp) rfl) (by simp [Moves, State.set])
  have r10 := Exec.step (t := 2) r9 (.step (t := 2) (op := .log .error [69]) (loc := { pc := .callback, rc := 0 ||| -1 }) { ok := true } rfl (by simp) rfl) (by simp [Moves, State.set])
  exact ⟨_, _, 14, r10, rfl⟩

end Verif.Log
