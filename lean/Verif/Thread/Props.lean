import Verif.Ini.Lemmas
import Verif.Thread.Model

/-! # Properties of threads -/

namespace Verif.Thread

open Ini (strncpy)
open Spec (Event)

/-! ## Texts of errors -/

/-- Where `n` bytes fit, a string shorter than that is copied with its terminator. -/
theorem strncpy_short {dst mem s : List UInt8} {n : Nat} (h : CStr mem 0 s) (hd : n ≤ dst.length) (hs : s.length < n) :
    ∃ dst', strncpy dst mem 0 n = .ok dst' ∧ CStr dst' 0 s ∧ dst'.length = dst.length := by
  have hl : (s.take n ++ List.replicate (n - s.length) 0).length = n := by simp; omega
  have hf : 0 + (s.take n ++ List.replicate (n - s.length) (0 : UInt8)).length ≤ dst.length := by rw [hl]; omega
  refine ⟨_, ?_, ?_, length_splice hf⟩
  · unfold strncpy
    rw [cstr_eq h]
    simp only [Res.ok_bind]
    rw [if_pos (by omega)]
  · refine ⟨?_, h.nonzero, ?_⟩
    · intro i hi
      rw [splice_getElem? hf]
      grind
    · rw [splice_getElem? hf]
      grind

/-- A string that is too long is cut; the terminator is what was there. -/
theorem strncpy_long {dst mem s : List UInt8} {n : Nat} (h : CStr mem 0 s) (hd : n ≤ dst.length) (hs : n ≤ s.length) :
    ∃ dst', strncpy dst mem 0 n = .ok dst' ∧ dst'.length = dst.length ∧ dst'.take n = s.take n ∧
      ∀ i, n ≤ i → dst'[i]? = dst[i]? := by
  have e0 : n - s.length = 0 := by omega
  have hl : (s.take n).length = n := by simp; omega
  have hf : 0 + (s.take n).length ≤ dst.length := by rw [hl]; omega
  refine ⟨splice dst 0 (s.take n), ?_, length_splice hf, ?_, ?_⟩
  · unfold strncpy
    rw [cstr_eq h]
    simp only [Res.ok_bind, e0, List.replicate_zero, List.append_nil]
    rw [if_pos (by omega)]
  · apply List.ext_getElem?
    intro i
    rw [List.getElem?_take, splice_getElem? hf, hl]
    by_cases hi : i < n <;> simp [hi, List.getElem?_take]
  · intro i hi
    rw [splice_getElem? hf, hl, if_neg (by omega), if_neg (by omega)]

/-- Texts of `strerror` are strings. -/
def Texts (strerror : Int → List UInt8) : Prop := ∀ rc, ∃ s, CStr (strerror rc) 0 s

theorem strncpy_def {dst mem : List UInt8} (h : ∃ s, CStr mem 0 s) (hd : dst.length = 128) :
    ∃ dst', strncpy dst mem 0 (128 - 1) = .ok dst' ∧ dst'.length = 128 := by
  obtain ⟨s, h⟩ := h
  by_cases hs : s.length < 127
  · obtain ⟨d, h1, -, h3⟩ := strncpy_short h (n := 127) (dst := dst) (by omega) hs
    exact ⟨d, h1, by omega⟩
  · obtain ⟨d, h1, h2, -⟩ := strncpy_long h (n := 127) (dst := dst) (by omega) (by omega)
    exact ⟨d, h1, by omega⟩

/-! ## Starting and joining -/

/-- What is known of the object: it stands for a thread that has not been joined, or for none. -/
structure OK (s : State) : Prop where
  err : s.t.err.length = 128
  live : s.t.id ≠ 0 → s.w s.t.id ≠ none

/-- The result of joining now. -/
def Th.res : Th → Option Nat
  | .running _ _ => none
  | .finished v => some v

/-- The state of the specification. -/
def State.spec (s : State) : Spec.State :=
  ⟨if s.t.id = 0 then none else some s.t.id, fun i => (s.w i).bind Th.res⟩

theorem start_ok {strerror : Int → List UInt8} (hs : Texts strerror) {o : StartOut} {fn arg : Nat} {s : State} (h : OK s) :
    ∃ rc w t, start strerror o fn arg s.w s.t = .ok (rc, w, t) ∧ t.err.length = 128 ∧
      ((o.attr ≠ 0 ∧ rc = -1 ∧ w = s.w ∧ t.id = s.t.id) ∨
       (o.attr = 0 ∧ o.create ≠ 0 ∧ rc = o.create ∧ w = s.w ∧ t.id = o.id) ∨
       (o.attr = 0 ∧ o.create = 0 ∧ rc = 0 ∧ w = (fun i => if i = o.id then some (.running fn arg) else s.w i) ∧
         t.id = o.id ∧ t.err = s.t.err)) := by
  unfold start
  by_cases ha : o.attr = 0
  · rw [if_neg (by simpa using ha)]
    by_cases hc : o.create = 0
    · simp only [hc, ne_eq, not_true_eq_false, if_false]
      exact ⟨_, _, _, rfl, h.err, .inr (.inr ⟨ha, trivial, rfl, rfl, rfl, rfl⟩)⟩
    · simp only [ne_eq, hc, not_false_eq_true, if_true]
      obtain ⟨d, h1, h2⟩ := strncpy_def (hs o.create) h.err
      rw [h1]
      exact ⟨_, _, _, rfl, h2, .inr (.inl ⟨ha, by simp, rfl, rfl, rfl⟩)⟩
  · rw [if_pos (by simpa using ha)]
    obtain ⟨d, h1, h2⟩ := strncpy_def (hs o.attr) h.err
    rw [h1]
    exact ⟨_, _, _, rfl, h2, .inl ⟨ha, rfl, rfl, rfl⟩⟩

theorem join_ok {strerror : Int → List UInt8} (hs : Texts strerror) {rc : Int} {s : State} (h : OK s) :
    ∃ r, join strerror rc s.w s.t = .ok r ∧
      (s.t.id = 0 → r = some (0, 0, s.w, s.t)) ∧
      (s.t.id ≠ 0 → ∀ fn arg, s.w s.t.id = some (.running fn arg) → rc = 0 → r = none) ∧
      (s.t.id ≠ 0 → ∀ v, s.w s.t.id = some (.finished v) → rc = 0 →
        r = some (0, v, fun i => if i = s.t.id then none else s.w i, { s.t with id := 0 })) ∧
      (s.t.id ≠ 0 → rc ≠ 0 → ∃ t, r = some (rc, 0, s.w, t) ∧ t.id = 0 ∧ t.err.length = 128) := by
  unfold join
  by_cases hi : s.t.id = 0
  · rw [if_pos hi]
    exact ⟨_, rfl, fun _ => rfl, fun h => absurd hi h, fun h => absurd hi h, fun h => absurd hi h⟩
  · rw [if_neg hi]
    cases hw : s.w s.t.id with
    | none => exact absurd hw (h.live hi)
    | some x =>
      by_cases hr : rc = 0
      · cases x with
        | running fn arg => simp [pjoin, noteErr, hw, hr, hi]
        | finished v => simp [pjoin, noteErr, hw, hr, hi]
      · obtain ⟨d, h1, h2⟩ := strncpy_def (hs rc) h.err
        cases x with
        | running fn arg => simp [pjoin, noteErr, hw, hr, hi, h1, h2]
        | finished v => simp [pjoin, noteErr, hw, hr, hi, h1, h2]

/-- A failed `pthread_create` that stores nothing. -/
def Env.tidy (env : Env) : Prop := ∀ old new, env.junk old new → new = old

/-- Every step is one the specification allows. -/
theorem step_spec {env : Env} (hs : Texts env.strerror) (hj : env.tidy) {s s' : State} {e : Event} (h : OK s)
    (st : Step env s e s') : OK s' ∧ Spec.Step s.spec e s'.spec := by
  cases st with
  | @started o fn arg w t ha hst =>
    obtain ⟨rc, w', t', h1, h2, h3⟩ := start_ok hs (o := o) (fn := fn) (arg := arg) h
    rw [hst] at h1
    simp only [Res.ok.injEq, Prod.mk.injEq] at h1
    obtain ⟨rfl, rfl, rfl⟩ := h1
    rcases h3 with ⟨-, h4, -⟩ | ⟨-, h4, h5, -⟩ | ⟨h4, h5, -, rfl, h6, -⟩
    · simp at h4
    · exact absurd h5.symm h4
    · obtain ⟨h7, h8⟩ := (ha h4).1 h5
      refine ⟨⟨h2, fun _ => by simp [h6]⟩, ?_⟩
      have e : State.spec ⟨fun i => if i = o.id then some (.running fn arg) else s.w i, t⟩ =
          { s.spec with cur := some o.id } := by
        unfold State.spec
        simp only [h6, if_neg h7]
        congr 1
        funext i
        by_cases e : i = o.id
        · simp [e, Th.res, h8]
        · simp [e]
      rw [e]
      exact .started o.id fn arg
  | @startFailed o fn arg rc w t ha hst hr =>
    obtain ⟨rc', w', t', h1, h2, h3⟩ := start_ok hs (o := o) (fn := fn) (arg := arg) h
    rw [hst] at h1
    simp only [Res.ok.injEq, Prod.mk.injEq] at h1
    obtain ⟨rfl, rfl, rfl⟩ := h1
    have key : w = s.w ∧ t.id = s.t.id := by
      rcases h3 with ⟨-, -, h4, h5⟩ | ⟨h4, h5, -, h6, h7⟩ | ⟨-, -, h4, -⟩
      · exact ⟨h4, h5⟩
      · exact ⟨h6, by rw [h7]; exact hj _ _ ((ha h4).2 h5)⟩
      · exact absurd h4 hr
    obtain ⟨rfl, k⟩ := key
    refine ⟨⟨h2, fun hi => ?_⟩, ?_⟩
    · rw [k]; exact h.live (by rw [← k]; exact hi)
    · have e : State.spec ⟨s.w, t⟩ = s.spec := by unfold State.spec; simp only [k]
      rw [e]
      exact .startFailed rc hr
  | @finished id v fn arg hw =>
    refine ⟨⟨h.err, fun hi => ?_⟩, ?_⟩
    · show (if s.t.id = id then _ else _) ≠ none
      split
      · simp
      · exact h.live hi
    · have e : State.spec { s with w := fun i => if i = id then some (.finished v) else s.w i } =
          { s.spec with res := fun i => if i = id then some v else s.spec.res i } := by
        unfold State.spec
        congr 1
        funext i
        by_cases e : i = id <;> simp [e, Th.res]
      rw [e]
      exact .finished id v (by simp [State.spec, hw, Th.res])
  | @joined rc v w t hjn =>
    obtain ⟨r, h1, h2, h3, h4, h5⟩ := join_ok hs (rc := rc) h
    rw [hjn] at h1
    simp only [Res.ok.injEq] at h1
    subst h1
    by_cases hi : s.t.id = 0
    · have := h2 hi
      simp only [Option.some.injEq, Prod.mk.injEq, true_and] at this
      obtain ⟨rfl, rfl, rfl⟩ := this
      exact ⟨h, .nothing (by simp [State.spec, hi])⟩
    · by_cases hr : rc = 0
      · cases hw : s.w s.t.id with
        | none => exact absurd hw (h.live hi)
        | some x =>
          cases x with
          | running fn arg => have := h3 hi fn arg hw hr; cases this
          | finished v' =>
            have := h4 hi v' hw hr
            simp only [Option.some.injEq, Prod.mk.injEq, true_and] at this
            obtain ⟨rfl, rfl, rfl⟩ := this
            refine ⟨⟨h.err, fun h => absurd rfl h⟩, ?_⟩
            have e : State.spec ⟨fun i => if i = s.t.id then none else s.w i, { s.t with id := 0 }⟩ =
                ⟨none, fun i => if i = s.t.id then none else s.spec.res i⟩ := by
              unfold State.spec
              congr 1
              funext i
              by_cases e : i = s.t.id <;> simp [e]
            rw [e]
            exact .joined (id := s.t.id) (by simp [State.spec, hi]) (by simp [State.spec, hw, Th.res])
      · obtain ⟨t', h6, -⟩ := h5 hi hr
        simp only [Option.some.injEq, Prod.mk.injEq] at h6
        exact absurd h6.1.symm hr
  | @joinFailed rc rc' v w t hjn hr =>
    obtain ⟨r, h1, h2, h3, h4, h5⟩ := join_ok hs (rc := rc) h
    rw [hjn] at h1
    simp only [Res.ok.injEq] at h1
    subst h1
    by_cases hi : s.t.id = 0
    · have := h2 hi
      simp only [Option.some.injEq, Prod.mk.injEq] at this
      exact absurd this.1 hr
    · by_cases hc : rc = 0
      · cases hw : s.w s.t.id with
        | none => exact absurd hw (h.live hi)
        | some x =>
          cases x with
          | running fn arg => have := h3 hi fn arg hw hc; cases this
          | finished v' =>
            have := h4 hi v' hw hc
            simp only [Option.some.injEq, Prod.mk.injEq] at this
            exact absurd this.1 hr
      · obtain ⟨t', h6, h7, h8⟩ := h5 hi hc
        simp only [Option.some.injEq, Prod.mk.injEq] at h6
        obtain ⟨rfl, -, rfl, rfl⟩ := h6
        refine ⟨⟨h8, fun h => absurd h7 h⟩, ?_⟩
        have e : State.spec ⟨s.w, t⟩ = { s.spec with cur := none } := by
          unfold State.spec; simp [h7]
        rw [e]
        exact .joinFailed (id := s.t.id) _ (by simp [State.spec, hi]) hr

/-- Before anything has been started; `id` and `err` are whatever was there. -/
def State.fresh (id : Nat) (err : List UInt8) : State := ⟨fun _ => none, init ⟨id, err⟩⟩

theorem run_spec {env : Env} (hs : Texts env.strerror) (hj : env.tidy) {id : Nat} {err : List UInt8} (he : err.length = 128)
    {es : List Event} {s : State} (r : Run env (.fresh id err) es s) : OK s ∧ Spec.Run .init es s.spec := by
  generalize hf : State.fresh id err = s₀ at r
  induction r with
  | refl => subst hf; exact ⟨⟨he, fun h => absurd rfl h⟩, .refl⟩
  | step r st ih =>
    obtain ⟨h1, h2⟩ := ih
    obtain ⟨h3, h4⟩ := step_spec hs hj h1 st
    exact ⟨h3, .step h2 h4⟩

/-- **C66.** Whatever the program does with the object, joins return the value of the thread that
was started last, once, and 0 at once when there is none. Missing: a `pthread_create` that fails and
stores something. -/
theorem join_history_partial {env : Env} (hs : Texts env.strerror) (hj : env.tidy) {id : Nat} {err : List UInt8}
    (he : err.length = 128) {es : List Event} {s : State} (r : Run env (.fresh id err) es s) :
    ∃ x, Spec.Run .init es x := ⟨_, (run_spec hs hj he r).2⟩

/-- **C66.** And nothing undefined happens: in each state it can reach, start and join are defined,
and join waits just for a thread that is running. -/
theorem no_ub_partial {env : Env} (hs : Texts env.strerror) (hj : env.tidy) {id : Nat} {err : List UInt8}
    (he : err.length = 128) {es : List Event} {s : State} (r : Run env (.fresh id err) es s) (o : StartOut) (fn arg : Nat)
    (rc : Int) : (∃ x, start env.strerror o fn arg s.w s.t = .ok x) ∧
      ∃ x, join env.strerror rc s.w s.t = .ok x ∧ (x = none → ∃ fn arg, s.w s.t.id = some (.running fn arg)) := by
  obtain ⟨h, -⟩ := run_spec hs hj he r
  constructor
  · obtain ⟨a, b, c, h1, -⟩ := start_ok hs (o := o) (fn := fn) (arg := arg) h
    exact ⟨_, h1⟩
  · obtain ⟨x, h1, h2, h3, h4, h5⟩ := join_ok hs (rc := rc) h
    refine ⟨x, h1, fun hx => ?_⟩
    subst hx
    by_cases hi : s.t.id = 0
    · cases h2 hi
    · by_cases hr : rc = 0
      · cases hw : s.w s.t.id with
        | none => exact absurd hw (h.live hi)
        | some y =>
          cases y with
          | running fn arg => exact ⟨fn, arg, rfl⟩
          | finished v => cases h4 hi v hw hr
      · obtain ⟨t, h6, -⟩ := h5 hi hr
        cases h6

/-- **C66.** A second join returns 0 without a value and changes nothing, whatever the first
returned and whatever the library would do. -/
theorem join_again {strerror : Int → List UInt8} {rc rc' : Int} {w w' : World} {t t' : Obj} {r : Int} {v : Nat}
    (h : join strerror rc w t = .ok (some (r, v, w', t'))) : join strerror rc' w' t' = .ok (some (0, 0, w', t')) := by
  have : t'.id = 0 := by
    unfold join at h
    by_cases hi : t.id = 0
    · rw [if_pos hi] at h
      simp only [Res.ok.injEq, Option.some.injEq, Prod.mk.injEq] at h
      rw [← h.2.2.2]; exact hi
    · rw [if_neg hi, Res.bind_eq_ok] at h
      obtain ⟨x, -, h⟩ := h
      cases x with
      | none => cases h
      | some x =>
        obtain ⟨val, w₁⟩ := x
        simp only [Res.bind_eq_ok] at h
        obtain ⟨y, -, h⟩ := h
        simp only [Res.ok.injEq, Option.some.injEq, Prod.mk.injEq] at h
        rw [← h.2.2.2]
  unfold join
  rw [if_pos this]

/-- A buffer filled with a byte. -/
def buf (c : UInt8) (n : Nat) : List UInt8 := List.replicate n c

theorem buf_ne {b : UInt8} {n : Nat} (h : b ∈ buf 120 n) : b ≠ 0 := by
  rw [List.eq_of_mem_replicate h]; decide

/-- **C66, violated.** If `pthread_create` fails, the number is unspecified, and the object keeps
it: a join, or `sc_thread_term`, then joins something that is not a thread. -/
theorem join_after_failed_start_violated : ∃ (strerror : Int → List UInt8) (o : StartOut) (w : World) (t t' : Obj),
    Texts strerror ∧ w = (fun _ => none) ∧ t.id = 0 ∧ start strerror o 1 2 w t = .ok (11, w, t') ∧
      join strerror 0 w t' = .ub := by
  refine ⟨fun _ => [0], ⟨0, 11, 4096⟩, fun _ => none, ⟨0, buf 0 128⟩, ⟨4096, buf 0 128⟩, ?_, rfl, rfl, ?_, ?_⟩
  · exact fun _ => ⟨[], CStr.self (s := []) (by simp)⟩
  · have : strncpy (buf 0 128) [0] 0 127 = .ok (buf 0 128) := by decide +kernel
    simp [start, this]
  · simp [join, pjoin]

/-- **C66, violated.** A failed join forgets the thread: it can never be joined again. -/
theorem failed_join_leaks_violated : ∃ (strerror : Int → List UInt8) (w w' : World) (t t' : Obj),
    Texts strerror ∧ t.id ≠ 0 ∧ join strerror 35 w t = .ok (some (35, 0, w', t')) ∧ w' t.id ≠ none ∧ t'.id = 0 := by
  refine ⟨fun _ => [0], fun i => if i = 1 then some (.running 0 0) else none, fun i => if i = 1 then some (.running 0 0) else none,
    ⟨1, buf 0 128⟩, ⟨0, buf 0 128⟩, ?_, by simp, ?_, by simp, rfl⟩
  · exact fun _ => ⟨[], CStr.self (s := []) (by simp)⟩
  · have : strncpy (buf 0 128) [0] 0 127 = .ok (buf 0 128) := by decide +kernel
    simp [join, pjoin, noteErr, this]

/-- **C66, defect.** Errors of `pthread_create` are returned as they are, not as -1 as the header
says. -/
theorem start_result_defect : ∃ (strerror : Int → List UInt8) (o : StartOut) (w : World) (t : Obj) (x : World × Obj),
    start strerror o 1 2 w t = .ok (11, x) := by
  obtain ⟨a, b, c, d, e, -, -, -, h, -⟩ := join_after_failed_start_violated
  exact ⟨a, b, c, d, _, h⟩

/-! ## The error text -/

/-- **C89.** After a failed start or join `sc_thread_err` yields the text of the error, if it has
fewer than 127 bytes. -/
theorem err_text_partial {strerror : Int → List UInt8} {t : Obj} (ht : t.err.length = 128) {w : World} :
    (∀ {o : StartOut} {fn arg : Nat} {rc : Int} {w' : World} {t' : Obj} {s : List UInt8},
      start strerror o fn arg w t = .ok (rc, w', t') → rc ≠ 0 →
      CStr (strerror (if o.attr ≠ 0 then o.attr else o.create)) 0 s → s.length < 127 → CStr t'.err 0 s) ∧
    (∀ {rc r : Int} {v : Nat} {w' : World} {t' : Obj} {s : List UInt8},
      join strerror rc w t = .ok (some (r, v, w', t')) → r ≠ 0 →
      CStr (strerror rc) 0 s → s.length < 127 → CStr t'.err 0 s) := by
  constructor
  · intro o fn arg rc w' t' s h hr hc hl
    obtain ⟨d, h1, h2, -⟩ := strncpy_short hc (n := 127) (dst := t.err) (by omega) hl
    unfold start at h
    by_cases ha : o.attr = 0
    · rw [if_neg (by simpa using ha)] at h h1
      by_cases hk : o.create = 0
      · rw [if_neg (by simpa using hk)] at h
        simp only [Res.ok.injEq, Prod.mk.injEq] at h
        exact absurd (h.1 ▸ hk) hr
      · rw [if_pos (by simpa using hk)] at h
        simp only [Nat.reduceSub, h1, Res.ok_bind, Res.ok.injEq, Prod.mk.injEq] at h
        rw [← h.2.2]; exact h2
    · rw [if_pos (by simpa using ha)] at h h1
      simp only [Nat.reduceSub, h1, Res.ok_bind, Res.ok.injEq, Prod.mk.injEq] at h
      rw [← h.2.2]; exact h2
  · intro rc r v w' t' s h hr hc hl
    obtain ⟨d, h1, h2, -⟩ := strncpy_short hc (n := 127) (dst := t.err) (by omega) hl
    unfold join at h
    by_cases hi : t.id = 0
    · rw [if_pos hi] at h
      simp only [Res.ok.injEq, Option.some.injEq, Prod.mk.injEq] at h
      exact absurd h.1.symm hr
    · rw [if_neg hi, Res.bind_eq_ok] at h
      obtain ⟨x, -, h⟩ := h
      cases x with
      | none => cases h
      | some x =>
        obtain ⟨val, w₁⟩ := x
        simp only [noteErr] at h
        by_cases hk : rc = 0
        · rw [if_neg (by simpa using hk)] at h
          simp only [Res.ok_bind, Res.ok.injEq, Option.some.injEq, Prod.mk.injEq] at h
          exact absurd (h.1 ▸ hk) hr
        · rw [if_pos (by simpa using hk)] at h
          simp only [Nat.reduceSub, h1, Res.ok_bind, Res.ok.injEq, Option.some.injEq, Prod.mk.injEq] at h
          rw [← h.2.2.2]; exact h2

/-- **C89, violated.** Nothing initialises the text: before the first error, and after an error with
a text of 127 bytes or more, `sc_thread_err` may not yield a string. -/
theorem err_text_violated :
    (∃ t : Obj, t.err.length = 128 ∧ (init t).err = buf 120 128 ∧ ∀ s, ¬ CStr (init t).err 0 s) ∧
    ∃ (strerror : Int → List UInt8) (o : StartOut) (w : World) (t t' : Obj), Texts strerror ∧ t.err.length = 128 ∧
      start strerror o 1 2 w t = .ok (-1, w, t') ∧ ∀ s, ¬ CStr t'.err 0 s := by
  have no : ∀ s, ¬ CStr (buf 120 128) 0 s := by
    intro s h
    have := h.nul
    rw [buf, List.getElem?_replicate] at this
    split at this <;> simp at this
  refine ⟨⟨⟨0, buf 120 128⟩, by simp [buf], rfl, no⟩, ?_⟩
  refine ⟨fun _ => buf 120 200 ++ [0], ⟨12, 0, 0⟩, fun _ => none, ⟨0, buf 120 128⟩,
    ⟨0, buf 120 128⟩, fun _ => ⟨buf 120 200, CStr.self (fun _ => buf_ne)⟩, by simp [buf], ?_, no⟩
  have : strncpy (buf 120 128) (buf 120 200 ++ [0]) 0 127 = .ok (buf 120 128) := by
    decide +kernel
  simp [start, this]

/-! ## Windows -/

/-- **C66.** On Windows a join after the thread has ended yields its value and closes the handle; the
next returns 0 at once and does not touch the thread. -/
theorem win_join {h fn arg v : Nat} (hh : h ≠ 0) {msg : Option (List UInt8)} {t : WObj} :
    ∃ t₁ t₂, winStart h msg fn arg t = .ok (0, t₁) ∧ t₁.id = h ∧
      winJoin true true msg (winBody v t₁) = .ok (0, v, t₂) ∧ t₂.id = 0 ∧
      ∀ a b, winJoin a b msg t₂ = .ok (0, v, t₂) := by
  refine ⟨⟨h, fn, arg, t.ret, t.err⟩, ⟨0, fn, arg, v, t.err⟩, by simp [winStart, hh], rfl, ?_, rfl, ?_⟩
  · simp [winJoin, winBody, hh]
  · intro a b; simp [winJoin]

/-- **C66.** On Windows a join returns 0 if waiting and closing succeed, or if there is nothing to join, and -1
otherwise, as the header says; a start returns 0 or -1 likewise. -/
theorem win_result {msg : Option (List UInt8)} {t t' : WObj} {rc : Int} {v : Nat} :
    (∀ {wok cok : Bool}, winJoin wok cok msg t = .ok (rc, v, t') → v = t.ret ∧ t'.id = 0 ∧
      rc = if t.id = 0 ∨ (wok = true ∧ cok = true) then 0 else -1) ∧
    (∀ {h fn arg : Nat}, winStart h msg fn arg t = .ok (rc, t') → t'.id = h ∧ t'.fn = fn ∧ t'.arg = arg ∧
      rc = if h ≠ 0 then 0 else -1) := by
  have he : ∀ {x y : WObj}, errstr msg x = .ok y → y.ret = x.ret ∧ y.id = x.id ∧ y.fn = x.fn ∧ y.arg = x.arg := by
    intro x y h
    unfold errstr at h
    cases msg with
    | none => cases h; exact ⟨rfl, rfl, rfl, rfl⟩
    | some m =>
      obtain ⟨e, -, h⟩ := Res.bind_eq_ok.1 h
      cases h; exact ⟨rfl, rfl, rfl, rfl⟩
  constructor
  · intro wok cok h
    unfold winJoin at h
    by_cases h0 : t.id = 0
    · rw [if_pos h0] at h; cases h; exact ⟨rfl, h0, by simp [h0]⟩
    · rw [if_neg h0] at h
      cases wok <;> cases cok <;> simp only [Bool.false_eq_true, not_false_eq_true, if_true, not_true, if_false, Res.ok_bind] at h
      · obtain ⟨x, hx, h⟩ := Res.bind_eq_ok.1 h
        obtain ⟨y, hy, h⟩ := Res.bind_eq_ok.1 h
        cases h
        exact ⟨(he hy).1.trans (he hx).1, rfl, by simp [h0]⟩
      · obtain ⟨x, hx, h⟩ := Res.bind_eq_ok.1 h
        cases h
        exact ⟨(he hx).1, rfl, by simp [h0]⟩
      · obtain ⟨x, hx, h⟩ := Res.bind_eq_ok.1 h
        cases h
        exact ⟨(he hx).1, rfl, by simp [h0]⟩
      · cases h
        exact ⟨rfl, rfl, by simp⟩
  · intro i fn arg h
    unfold winStart at h
    simp only at h
    by_cases h0 : i = 0
    · rw [if_pos h0] at h
      obtain ⟨x, hx, h⟩ := Res.bind_eq_ok.1 h
      cases h
      obtain ⟨-, h2, h3, h4⟩ := he hx
      exact ⟨h2, h3, h4, by simp [h0]⟩
    · rw [if_neg h0] at h; cases h; exact ⟨rfl, rfl, rfl, by simp [h0]⟩

/-- **C66, defect.** On Windows a join before anything was started yields what was in memory. -/
theorem win_join_unstarted_defect (v : Nat) : ∃ t : WObj, t.id = 0 ∧ winJoin true true none t = .ok (0, v, t) :=
  ⟨⟨0, 0, 0, v, []⟩, rfl, rfl⟩

/-- **C89 (part).** On Windows too `sc_thread_err` yields the text of the error after a failed start or join, if it has fewer than 63
bytes and the system has one. -/
theorem win_err_partial {t : WObj} (ht : t.err.length = 64) {m s : List UInt8} (hm : CStr m 0 s) (hs : s.length < 63) :
    (∀ {h fn arg : Nat} {rc : Int} {t' : WObj}, winStart h (some m) fn arg t = .ok (rc, t') → rc ≠ 0 → CStr t'.err 0 s) ∧
    (∀ {wok cok : Bool} {rc : Int} {v : Nat} {t' : WObj}, winJoin wok cok (some m) t = .ok (rc, v, t') → rc ≠ 0 → CStr t'.err 0 s) := by
  have he : ∀ {x : WObj}, x.err.length = 64 → ∃ d, errstr (some m) x = .ok { x with err := d } ∧ CStr d 0 s ∧ d.length = 64 := by
    intro x hx
    obtain ⟨d, h1, h2, h3⟩ := strncpy_short hm (n := 63) (dst := x.err) (by omega) hs
    refine ⟨d, ?_, h2, by omega⟩
    simp only [errstr, Nat.reduceSub, h1, Res.ok_bind]
  constructor
  · intro h fn arg rc t' hr hn
    unfold winStart at hr
    simp only at hr
    by_cases hh : h = 0
    · obtain ⟨d, h1, h2, -⟩ := he (x := { t with fn := fn, arg := arg, id := h }) ht
      rw [if_pos hh, h1] at hr
      cases hr
      exact h2
    · rw [if_neg hh] at hr
      cases hr
      exact absurd rfl hn
  · intro wok cok rc v t' hr hn
    unfold winJoin at hr
    by_cases hi : t.id = 0
    · rw [if_pos hi] at hr
      cases hr
      exact absurd rfl hn
    · rw [if_neg hi] at hr
      obtain ⟨d, h1, h2, h3⟩ := he (x := t) ht
      obtain ⟨d', h1', h2', -⟩ := he (x := { t with err := d }) h3
      cases wok <;> cases cok <;> simp [h1, h1'] at hr
      · rw [← hr.2.2]; exact h2'
      · rw [← hr.2.2]; exact h2
      · rw [← hr.2.2]; exact h2
      · exact absurd hr.1.symm hn

/-- **C89, violated.** On Windows a text of 63 bytes or more leaves the buffer without a terminator
if there was none. -/
theorem win_err_violated : ∃ (t t' : WObj) (msg s : List UInt8), t.err.length = 64 ∧ CStr msg 0 s ∧ s.length = 63 ∧
    winStart 0 (some msg) 1 2 t = .ok (-1, t') ∧ ∀ s, ¬ CStr t'.err 0 s := by
  refine ⟨⟨0, 0, 0, 0, buf 120 64⟩, ⟨0, 1, 2, 0, buf 120 64⟩, buf 120 63 ++ [0],
    buf 120 63, by simp [buf], CStr.self (fun _ => buf_ne), by simp [buf], ?_, ?_⟩
  · have : strncpy (buf 120 64) (buf 120 63 ++ [0]) 0 63 = .ok (buf 120 64) := by
      decide +kernel
    simp [winStart, errstr, this]
  · intro s h
    have := h.nul
    rw [buf, List.getElem?_replicate] at this
    split at this <;> simp at this

/-! ## Examples -/

/-- A library with short texts that stores nothing on failure. -/
def env : Env := ⟨fun _ => [69, 0], fun old new => new = old⟩

/-- A thread is started, ends with 7, is joined, and joined again. -/
example : ∃ s, Run env (.fresh 9 (buf 0 128)) [.started 5 1 2, .finished 5 7, .joined 7, .joined 0] s := by
  have r0 : Run env (.fresh 9 (buf 0 128)) [] (.fresh 9 (buf 0 128)) := .refl
  have r1 := r0.step (.started (o := ⟨0, 0, 5⟩) (fn := 1) (arg := 2) (fun _ => ⟨fun _ => ⟨by decide, rfl⟩, fun h => absurd rfl h⟩) rfl)
  have r2 := r1.step (.finished 5 7 (fn := 1) (arg := 2) rfl)
  have r3 := r2.step (.joined (rc := 0) rfl)
  have r4 := r3.step (.joined (rc := 0) rfl)
  exact ⟨_, r4⟩

example : Texts env.strerror ∧ env.tidy :=
  ⟨fun _ => ⟨[69], CStr.self (s := [69]) (by simp)⟩, fun _ _ h => h⟩

end Verif.Thread
