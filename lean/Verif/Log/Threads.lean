import Verif.Log.Props

/-! # Several threads that use the logger -/

namespace Verif.Log

open Spec

/-! ## Calls take effect one after the other -/

/-- What the logger has become when the functions that have returned ran one after the other, in the
order in which they returned, each from its beginning to its end. -/
inductive Seq : Shared → List Event → Shared → Prop
  | nil {s} : Seq s [] s
  | done {s s' s'' es t name op outs loc} : Seq s es s' → exec name op (start op) outs s' = .ok (loc, s'') →
      loc.pc = .unlock → Seq s (es ++ [.done t name op outs loc]) s''
  | other {s s' es e} : Seq s es s' → (∀ t name op outs loc, e ≠ .done t name op outs loc) →
      Seq s (es ++ [e]) s'

theorem set_th (s : State) (t i : Nat) (x : Status) :
    ((s.set t x).th i).st = (if i = t then x else (s.th i).st) ∧ ((s.set t x).th i).name = (s.th i).name := by
  unfold State.set
  by_cases h : i = t <;> simp [h]

/-- The mutex keeps calls apart. -/
structure Apart (s0 : Shared) (es : List Event) (s : State) (σ : Shared) : Prop where
  seq : Seq s0 es σ
  free : s.lock = none → s.sh = σ
  inside : ∀ t op loc outs, (s.th t).st = .inside op loc outs →
    s.lock = some t ∧ exec (s.th t).name op (start op) outs σ = .ok (loc, s.sh)
  held : ∀ t, s.lock = some t → ∃ op loc outs, (s.th t).st = .inside op loc outs

theorem Apart.other {s0 : Shared} {es : List Event} {s : State} {σ : Shared} (h : Apart s0 es s σ)
    {e : Option Event} {s' : State} (h1 : s'.lock = s.lock) (h2 : s'.sh = s.sh)
    (h3 : ∀ t, (s.th t).st = (s'.th t).st ∧ (s.th t).name = (s'.th t).name ∨
      (∀ op loc outs, (s.th t).st ≠ .inside op loc outs) ∧ ∀ op loc outs, (s'.th t).st ≠ .inside op loc outs)
    (h4 : ∀ x, e = some x → ∀ t name op outs loc, x ≠ .done t name op outs loc) :
    Apart s0 (es ++ e.toList) s' σ := by
  refine ⟨?_, ?_, ?_, ?_⟩
  · cases e with
    | none => rw [Option.toList_none, List.append_nil]; exact h.seq
    | some x => exact .other h.seq (h4 x rfl)
  · intro hl
    rw [h2]
    exact h.free (h1 ▸ hl)
  · intro t op loc outs ht
    rcases h3 t with ⟨ha, hb⟩ | ⟨-, hb⟩
    · obtain ⟨x, y⟩ := h.inside t op loc outs (ha.trans ht)
      exact ⟨h1.trans x, by rw [← hb, h2]; exact y⟩
    · exact absurd ht (hb _ _ _)
  · intro t ht
    obtain ⟨op, loc, outs, hi⟩ := h.held t (h1 ▸ ht)
    rcases h3 t with ⟨ha, -⟩ | ⟨ha, -⟩
    · exact ⟨op, loc, outs, ha.symm.trans hi⟩
    · exact absurd hi (ha _ _ _)

theorem apart {s s' : State} {es : List Event} (h : Run s es s') (hl : s.lock = none)
    (hi : ∀ t op loc outs, (s.th t).st ≠ .inside op loc outs) : ∃ σ, Apart s.sh es s' σ := by
  induction h with
  | refl => exact ⟨s.sh, .nil, fun _ => rfl, fun t op loc outs h => absurd h (hi t op loc outs), fun t h => by rw [hl] at h; cases h⟩
  | @step s1 s2 e es hr hst ih =>
    obtain ⟨σ, ih⟩ := ih
    clear hr
    cases hst with
    | call t op ht =>
      refine ⟨σ, ih.other rfl rfl (fun i => ?_) (by rintro x ⟨⟩ <;> simp)⟩
      obtain ⟨a, b⟩ := set_th s1 t i op.entry
      by_cases hit : i = t
      · subst hit
        right
        rw [a, if_pos rfl, ht]
        refine ⟨by simp, ?_⟩
        cases op <;> simp [Op.entry]
      · left
        rw [a, b, if_neg hit]
        exact ⟨rfl, rfl⟩
    | setLevel t str ht hs =>
      exact ⟨σ, ih.other rfl rfl (fun i => Or.inl ⟨rfl, rfl⟩) (by rintro x ⟨⟩ <;> simp)⟩
    | setName t str ht hs =>
      refine ⟨σ, ih.other rfl rfl (fun i => ?_) (by rintro x ⟨⟩)⟩
      by_cases hit : i = t
      · subst hit
        right
        simp [ht]
      · left
        simp [hit]
    | @skip t l msg ht hlv =>
      refine ⟨σ, ih.other rfl rfl (fun i => ?_) (by rintro x ⟨⟩ <;> simp)⟩
      obtain ⟨a, b⟩ := set_th s1 t i .idle
      by_cases hit : i = t
      · subst hit
        right
        rw [a, if_pos rfl, ht]
        simp
      · left
        rw [a, b, if_neg hit]
        exact ⟨rfl, rfl⟩
    | @pass t l msg ht hlv =>
      refine ⟨σ, ih.other rfl rfl (fun i => ?_) (by rintro x ⟨⟩)⟩
      obtain ⟨a, b⟩ := set_th s1 t i (.waiting (.log l msg))
      by_cases hit : i = t
      · subst hit
        right
        rw [a, if_pos rfl, ht]
        simp
      · left
        rw [a, b, if_neg hit]
        exact ⟨rfl, rfl⟩
    | @lock t op ht hlk =>
      rw [Option.toList_none, List.append_nil]
      refine ⟨σ, ih.seq, (by intro h; cases h), ?_, ?_⟩
      · intro i op' loc outs hin
        obtain ⟨a, b⟩ := set_th s1 t i (.inside op (start op) [])
        have hin : ((s1.set t (.inside op (start op) [])).th i).st = .inside op' loc outs := hin
        rw [a] at hin
        by_cases hit : i = t
        · rw [if_pos hit] at hin
          cases hin
          subst hit
          refine ⟨rfl, ?_⟩
          simp only [exec]
          rw [← ih.free hlk]
          rfl
        · rw [if_neg hit] at hin
          obtain ⟨x, -⟩ := ih.inside _ _ _ _ hin
          rw [hlk] at x
          cases x
      · intro i hil
        obtain rfl : t = i := Option.some.inj hil
        refine ⟨op, start op, [], ?_⟩
        exact ((set_th s1 t t _).1).trans (if_pos rfl)
    | @step t op loc outs loc' sh' o ht hne hs =>
      rw [Option.toList_none, List.append_nil]
      obtain ⟨hlk, hex⟩ := ih.inside _ _ _ _ ht
      refine ⟨σ, ih.seq, ?_, ?_, ?_⟩
      · intro h
        have h : s1.lock = none := h
        rw [hlk] at h
        cases h
      · intro i op' loc2 outs2 hin
        obtain ⟨a, b⟩ := set_th s1 t i (.inside op loc' (outs ++ [o]))
        have hin : ((s1.set t (.inside op loc' (outs ++ [o]))).th i).st = .inside op' loc2 outs2 := hin
        rw [a] at hin
        by_cases hit : i = t
        · rw [if_pos hit] at hin
          cases hin
          refine ⟨hit ▸ hlk, ?_⟩
          show exec ((s1.set t _).th i).name op (start op) (outs ++ [o]) σ = _
          rw [b, hit]
          exact exec_snoc hex hne hs
        · rw [if_neg hit] at hin
          obtain ⟨x, -⟩ := ih.inside _ _ _ _ hin
          rw [hlk] at x
          exact absurd (Option.some.inj x).symm hit
      · intro i hil
        have hil : s1.lock = some i := hil
        rw [hlk] at hil
        obtain rfl : t = i := Option.some.inj hil
        exact ⟨op, loc', outs ++ [o], ((set_th s1 t t _).1).trans (if_pos rfl)⟩
    | @unlock t op loc outs ht hu =>
      obtain ⟨hlk, hex⟩ := ih.inside _ _ _ _ ht
      refine ⟨s1.sh, .done ih.seq hex hu, fun _ => rfl, ?_, fun i h => by cases h⟩
      intro i op' loc2 outs2 hin
      obtain ⟨a, b⟩ := set_th s1 t i .idle
      have hin : ((s1.set t .idle).th i).st = .inside op' loc2 outs2 := hin
      rw [a] at hin
      by_cases hit : i = t
      · rw [if_pos hit] at hin; cases hin
      · rw [if_neg hit] at hin
        obtain ⟨x, -⟩ := ih.inside _ _ _ _ hin
        rw [hlk] at x
        exact absurd (Option.some.inj x).symm hit

/-- However threads interleave, when the mutex is free the logger, the streams and the files are as if the
calls had run one after the other. -/
theorem atomic {s s' : State} {es : List Event} (h : Run s es s') (hl : s.lock = none)
    (hi : ∀ t, (s.th t).st = .idle) (hf : s'.lock = none) : Seq s.sh es s'.sh := by
  obtain ⟨σ, h⟩ := apart h hl (fun t op loc outs => by rw [hi]; simp)
  rw [h.free hf]
  exact h.seq

/-- At most one thread is inside, and it holds the mutex. -/
theorem exclusive {s s' : State} {es : List Event} (h : Run s es s') (hl : s.lock = none)
    (hi : ∀ t, (s.th t).st = .idle) {t t' : Nat} {op op' : Op} {loc loc' : Loc} {outs outs' : List Out}
    (h1 : (s'.th t).st = .inside op loc outs) (h2 : (s'.th t').st = .inside op' loc' outs') : t = t' := by
  obtain ⟨σ, h⟩ := apart h hl (fun t op loc outs => by rw [hi]; simp)
  obtain ⟨a, -⟩ := h.inside _ _ _ _ h1
  obtain ⟨b, -⟩ := h.inside _ _ _ _ h2
  rw [a] at b
  exact Option.some.inj b

/-! ## Each call takes effect once, in the order of its thread -/

/-- The functions a thread has called. -/
def issued (t : Nat) : List Event → List Op
  | [] => []
  | .call i op :: es => if i = t then op :: issued t es else issued t es
  | _ :: es => issued t es

/-- The functions that have returned to a thread. -/
def answered (t : Nat) : List Event → List Op
  | [] => []
  | .skip i l msg _ :: es => if i = t then .log l msg :: answered t es else answered t es
  | .done i _ op _ _ :: es => if i = t then op :: answered t es else answered t es
  | _ :: es => answered t es

/-- The function a thread is in. -/
def pending : Status → List Op
  | .idle => []
  | .check l msg => [.log l msg]
  | .waiting op => [op]
  | .inside op _ _ => [op]

theorem issued_append (t : Nat) (a b : List Event) : issued t (a ++ b) = issued t a ++ issued t b := by
  induction a with
  | nil => rfl
  | cons e a ih => cases e <;> simp only [List.cons_append, issued, ih] <;> split <;> simp

theorem answered_append (t : Nat) (a b : List Event) : answered t (a ++ b) = answered t a ++ answered t b := by
  induction a with
  | nil => rfl
  | cons e a ih => cases e <;> simp only [List.cons_append, answered, ih] <;> split <;> simp

/-- What a thread has called has returned to it, in this order, but for the last call if it is still
running. -/
theorem program_order {s s' : State} {es : List Event} (h : Run s es s') (hi : ∀ t, (s.th t).st = .idle) (t : Nat) :
    issued t es = answered t es ++ pending (s'.th t).st := by
  induction h with
  | refl => rw [hi]; rfl
  | @step s1 s2 e es hr hst ih =>
    rw [issued_append, answered_append, ih]
    clear hr
    cases hst with
    | call i op ht =>
      rw [(set_th ..).1]
      by_cases hit : t = i
      · subst hit
        rw [ht, if_pos rfl]
        cases op <;> simp [issued, answered, pending, Op.entry]
      · have : i ≠ t := fun h => hit h.symm
        rw [if_neg hit]
        simp [issued, answered, this]
    | setLevel i str ht hs => simp [issued, answered]
    | setName i str ht hs =>
      simp only [Option.toList_none, issued, answered, List.append_nil]
      by_cases hit : t = i <;> simp [hit]
    | @skip i l msg ht hlv =>
      rw [(set_th ..).1]
      by_cases hit : t = i
      · subst hit
        rw [ht, if_pos rfl]
        simp [issued, answered, pending]
      · have : i ≠ t := fun h => hit h.symm
        rw [if_neg hit]
        simp [issued, answered, this]
    | @pass i l msg ht hlv =>
      simp only [Option.toList_none, issued, answered, List.append_nil]
      rw [(set_th ..).1]
      by_cases hit : t = i
      · subst hit
        rw [ht, if_pos rfl]
        rfl
      · rw [if_neg hit]
    | @lock i op ht hlk =>
      simp only [Option.toList_none, issued, answered, List.append_nil]
      rw [(set_th ..).1]
      by_cases hit : t = i
      · subst hit
        rw [ht, if_pos rfl]
        rfl
      · rw [if_neg hit]
    | @step i op loc outs loc' sh' o ht hne hs =>
      simp only [Option.toList_none, issued, answered, List.append_nil]
      rw [(set_th ..).1]
      by_cases hit : t = i
      · subst hit
        rw [ht, if_pos rfl]
        rfl
      · rw [if_neg hit]
    | @unlock i op loc outs ht hu =>
      rw [(set_th ..).1]
      by_cases hit : t = i
      · subst hit
        rw [ht, if_pos rfl]
        simp [issued, answered, pending]
      · have : i ≠ t := fun h => hit h.symm
        rw [if_neg hit]
        simp [issued, answered, this]

/-! ## The level decides -/

/-- The level that was set last. -/
def lastLevel (l0 : Level) : List Event → Level
  | [] => l0
  | .level l _ :: es => lastLevel l es
  | _ :: es => lastLevel l0 es

/-- An event that belongs to a thread. -/
def Event.of (t : Nat) : Event → Prop
  | .call i _ => i = t
  | .level .. => False
  | .skip i .. => i = t
  | .done i .. => i = t

/-- No events of a thread. -/
def Quiet (t : Nat) (es : List Event) : Prop := ∀ e ∈ es, ¬ e.of t

theorem lastLevel_append (l0 : Level) (a b : List Event) :
    lastLevel l0 (a ++ b) = lastLevel (lastLevel l0 a) b := by
  induction a generalizing l0 with
  | nil => rfl
  | cons e a ih => cases e <;> simp only [List.cons_append, lastLevel, ih]

theorem quiet_append {t : Nat} {a b : List Event} (h1 : Quiet t a) (h2 : Quiet t b) : Quiet t (a ++ b) := by
  intro e he
  rcases List.mem_append.1 he with h | h
  · exact h1 e h
  · exact h2 e h

/-- A call of `sc_log_log` that has not looked at the level yet. -/
def Asked (es : List Event) (t : Nat) (l : Level) (msg : List UInt8) : Prop :=
  ∃ a b, es = a ++ .call t (.log l msg) :: b ∧ Quiet t b

/-- A call of `sc_log_log` during which the level was at most that of the message. -/
def Passed (l0 : Level) (es : List Event) (t : Nat) (l : Level) (msg : List UInt8) : Prop :=
  ∃ a b c, es = a ++ .call t (.log l msg) :: b ++ c ∧ Quiet t b ∧ Quiet t c ∧
    (lastLevel l0 (a ++ .call t (.log l msg) :: b)).rank ≤ l.rank

theorem Asked.more {es es' : List Event} {t : Nat} {l : Level} {msg : List UInt8} (h : Asked es t l msg)
    (hq : Quiet t es') : Asked (es ++ es') t l msg := by
  obtain ⟨a, b, rfl, hb⟩ := h
  exact ⟨a, b ++ es', by simp, quiet_append hb hq⟩

theorem Passed.more {l0 : Level} {es es' : List Event} {t : Nat} {l : Level} {msg : List UInt8}
    (h : Passed l0 es t l msg) (hq : Quiet t es') : Passed l0 (es ++ es') t l msg := by
  obtain ⟨a, b, c, rfl, hb, hc, hl⟩ := h
  exact ⟨a, b, c ++ es', by simp, hb, quiet_append hc hq, hl⟩

/-- What is known about a thread. -/
def Known (l0 : Level) (es : List Event) (t : Nat) : Status → Prop
  | .check l msg => Asked es t l msg
  | .waiting (.log l msg) => Passed l0 es t l msg
  | .inside (.log l msg) _ _ => Passed l0 es t l msg
  | _ => True

theorem Known.more {l0 : Level} {es es' : List Event} {t : Nat} {x : Status} (h : Known l0 es t x)
    (hq : Quiet t es') : Known l0 (es ++ es') t x := by
  cases x with
  | idle => trivial
  | check l msg => exact Asked.more h hq
  | waiting op => cases op <;> first | trivial | exact Passed.more h hq
  | inside op loc outs => cases op <;> first | trivial | exact Passed.more h hq

theorem level_known {s s' : State} {es : List Event} (h : Run s es s') (hi : ∀ t, (s.th t).st = .idle) :
    s'.level = lastLevel s.level es ∧ ∀ t, Known s.level es t (s'.th t).st := by
  induction h with
  | refl => exact ⟨rfl, fun t => by rw [hi]; trivial⟩
  | @step s1 s2 e es hr hst ih =>
    obtain ⟨hl, ih⟩ := ih
    clear hr
    have q0 : ∀ t, Quiet t [] := fun t e he => by cases he
    cases hst with
    | call i op ht =>
      refine ⟨?_, fun t => ?_⟩
      · rw [lastLevel_append, ← hl]; rfl
      · rw [(set_th ..).1]
        by_cases hit : t = i
        · subst hit
          rw [if_pos rfl]
          cases op <;> first | trivial | exact ⟨es, [], rfl, q0 t⟩
        · rw [if_neg hit]
          refine (ih t).more ?_
          intro e he
          rw [Option.toList_some, List.mem_singleton] at he
          subst he
          exact fun h => hit (Eq.symm h)
    | setLevel i str ht hs =>
      refine ⟨?_, fun t => ?_⟩
      · rw [lastLevel_append]; rfl
      · refine (ih t).more ?_
        intro e he
        rw [Option.toList_some, List.mem_singleton] at he
        subst he
        exact id
    | setName i str ht hs =>
      simp only [Option.toList_none, List.append_nil]
      refine ⟨hl, fun t => ?_⟩
      have := ih t
      by_cases hit : t = i
      · simp only [hit, if_true]; rw [hit] at this; exact this
      · simp only [hit, if_false]; exact this
    | @skip i l msg ht hlv =>
      refine ⟨?_, fun t => ?_⟩
      · rw [lastLevel_append, ← hl]; rfl
      · rw [(set_th ..).1]
        by_cases hit : t = i
        · rw [if_pos hit]; trivial
        · rw [if_neg hit]
          refine (ih t).more ?_
          intro e he
          rw [Option.toList_some, List.mem_singleton] at he
          subst he
          exact fun h => hit (Eq.symm h)
    | @pass i l msg ht hlv =>
      simp only [Option.toList_none, List.append_nil]
      refine ⟨hl, fun t => ?_⟩
      rw [(set_th ..).1]
      by_cases hit : t = i
      · subst hit
        rw [if_pos rfl]
        have := ih t
        rw [ht] at this
        obtain ⟨a, b, rfl, hb⟩ := this
        exact ⟨a, b, [], by simp, hb, q0 t, by rw [← hl]; omega⟩
      · rw [if_neg hit]; exact ih t
    | @lock i op ht hlk =>
      simp only [Option.toList_none, List.append_nil]
      refine ⟨hl, fun t => ?_⟩
      rw [(set_th ..).1]
      by_cases hit : t = i
      · subst hit
        rw [if_pos rfl]
        have := ih t
        rw [ht] at this
        cases op <;> exact this
      · rw [if_neg hit]; exact ih t
    | @step i op loc outs loc' sh' o ht hne hs =>
      simp only [Option.toList_none, List.append_nil]
      refine ⟨hl, fun t => ?_⟩
      rw [(set_th ..).1]
      by_cases hit : t = i
      · subst hit
        rw [if_pos rfl]
        have := ih t
        rw [ht] at this
        cases op <;> exact this
      · rw [if_neg hit]; exact ih t
    | @unlock i op loc outs ht hu =>
      refine ⟨?_, fun t => ?_⟩
      · rw [lastLevel_append, ← hl]; rfl
      · rw [(set_th ..).1]
        by_cases hit : t = i
        · rw [if_pos hit]; trivial
        · rw [if_neg hit]
          refine (ih t).more ?_
          intro e he
          rw [Option.toList_some, List.mem_singleton] at he
          subst he
          exact fun h => hit (Eq.symm h)

theorem split_last {es es1 es2 : List Event} {e : Option Event} {x : Event} (h : es ++ e.toList = es1 ++ x :: es2) :
    (e = some x ∧ es = es1) ∨ ∃ es3, es = es1 ++ x :: es3 := by
  cases e with
  | none => exact Or.inr ⟨es2, by simpa using h⟩
  | some y =>
    rw [Option.toList_some] at h
    rcases List.append_eq_append_iff.1 h with ⟨c, h1, h2⟩ | ⟨c, h1, h2⟩
    · cases c with
      | nil => simp at h1 h2; exact Or.inl ⟨by rw [h2.1], h1.symm⟩
      | cons z c => simp at h2
    · cases c with
      | nil => simp at h1 h2; exact Or.inl ⟨by rw [h2.1], h1⟩
      | cons z c =>
        simp only [List.cons_append, List.cons.injEq] at h2
        exact Or.inr ⟨c, by rw [h1, h2.1]⟩

/-- A message is only written if the level was at most its own at some moment of the call. -/
theorem written_level {s s' : State} {es : List Event} (h : Run s es s') (hi : ∀ t, (s.th t).st = .idle)
    {es1 es2 : List Event} {t : Nat} {name msg : List UInt8} {l : Level} {outs : List Out} {loc : Loc}
    (he : es = es1 ++ .done t name (.log l msg) outs loc :: es2) :
    ∃ a b c, es1 = a ++ .call t (.log l msg) :: b ++ c ∧ Quiet t b ∧ Quiet t c ∧
      (lastLevel s.level (a ++ .call t (.log l msg) :: b)).rank ≤ l.rank := by
  induction h generalizing es2 with
  | refl => simp at he
  | @step s1 s2 e es hr hst ih =>
    rcases split_last he with ⟨rfl, rfl⟩ | ⟨es3, h⟩
    · cases hst with
      | unlock ht hu =>
        have := (level_known hr hi).2 t
        rw [ht] at this
        exact this
    · exact ih h

/-- A message is only dropped if the level was above its own at some moment of the call. -/
theorem dropped_level {s s' : State} {es : List Event} (h : Run s es s') (hi : ∀ t, (s.th t).st = .idle)
    {es1 es2 : List Event} {t : Nat} {msg : List UInt8} {l lv : Level}
    (he : es = es1 ++ .skip t l msg lv :: es2) :
    (∃ a b, es1 = a ++ .call t (.log l msg) :: b ∧ Quiet t b) ∧ lv = lastLevel s.level es1 ∧ l.rank < lv.rank := by
  induction h generalizing es2 with
  | refl => simp at he
  | @step s1 s2 e es hr hst ih =>
    rcases split_last he with ⟨rfl, rfl⟩ | ⟨es3, h⟩
    · cases hst with
      | skip ht hlt =>
        obtain ⟨hl, hk⟩ := level_known hr hi
        have := hk t
        rw [ht] at this
        exact ⟨this, hl, hlt⟩
    · exact ih h

/-! ## Nothing undefined, no deadlock, no stream left open -/

/-- Arguments that are strings. -/
def Op.valid : Op → Prop
  | .setFile (some (p, c)) => (∃ x, CStr p 0 x) ∧ ∃ y, CStr c 0 y
  | _ => True

/-- The names of the files are strings. -/
structure Fine (s : Shared) : Prop where
  cur : ∃ x, Arr s.cur 255 x
  prev : ∃ x, Arr s.prev 255 x

/-- The positions of a critical section, and the number of open streams at each of them. -/
def At : Op → Pc → Shared → Prop
  | .log .., .out1, s | .log .., .out2, s | .log .., .file1, s | .log .., .callback, s | .log .., .unlock, s =>
    s.streams = if s.fp then 1 else 0
  | .log .., .file2, s | .log .., .rotClose, s => s.fp = true ∧ s.streams = 1
  | .log .., .rotRename, s | .log .., .rotOpen, s => s.fp = true ∧ s.streams = 0
  | .setStdout _, .assign, s | .setStdout _, .unlock, s => s.streams = if s.fp then 1 else 0
  | .setCallback _, .assign, s | .setCallback _, .unlock, s => s.streams = if s.fp then 1 else 0
  | .setFile _, .close, s | .setFile _, .unlock, s => s.streams = if s.fp then 1 else 0
  | .setFile _, .names, s => s.fp = false ∧ s.streams = 0
  | .setFile _, .open, s => s.fp = false ∧ s.streams = 0
  | .setFile _, .newline, s | .setFile _, .tell, s | .setFile _, .failed, s => s.fp = false ∧ s.streams = 1
  | _, _, _ => False

/-- The number of steps left, at most. -/
def Pc.left : Pc → Nat
  | .out1 => 8 | .out2 => 7 | .file1 => 6 | .file2 => 5 | .rotClose => 4 | .rotRename => 3 | .rotOpen => 2
  | .callback => 1 | .assign => 1 | .close => 6 | .names => 5 | .open => 4 | .newline => 3 | .tell => 2
  | .failed => 1 | .unlock => 0

theorem arr_wr0 {arr x : List UInt8} (h : Arr arr 255 x) : ∃ arr', wr arr 0 0 = .ok arr' ∧ Arr arr' 255 [] := by
  have hl := h.len
  refine ⟨arr.set 0 0, ?_, ⟨by simpa using hl, ?_, by simp, ?_⟩⟩
  · rw [wr_lt (by omega)]
  · intro i hi; simp at hi
  · simp [hl]

theorem arr_memcpy {arr x src y : List UInt8} (h : Arr arr 255 x) (hs : CStr src 0 y) (hl : y.length < 255) :
    ∃ arr', memcpy arr 0 src 0 (y.length + 1) = .ok arr' ∧ Arr arr' 255 y := by
  have h1 := h.len
  have h2 := hs.lt
  have h3 : (slice src 0 (y.length + 1)).length = y.length + 1 := length_slice (by omega)
  refine ⟨_, memcpy_ok (by omega) (by omega), by rw [length_splice (by omega)]; exact h1, ?_, hs.nonzero, ?_⟩
  · intro i hi
    rw [splice_getElem? (by omega), h3]
    have := hs.bytes i hi
    simp only [slice_getElem?]
    grind
  · rw [splice_getElem? (by omega), h3]
    have := hs.nul
    simp only [slice_getElem?]
    grind

theorem emit_fine {s : Shared} (h : Fine s) (l : Level) (b : List UInt8) : Fine (s.emit l b) := by
  obtain ⟨-, h1, h2, -⟩ := emit_frame s l b
  exact ⟨h1 ▸ h.cur, h2 ▸ h.prev⟩

set_option linter.unusedSimpArgs false in
/-- One step inside a critical section is defined, whatever it meets. -/
theorem step_fine {name nm : List UInt8} {op : Op} {loc : Loc} {s : Shared} (hn : CStr name 0 nm) (hv : op.valid)
    (hf : Fine s) (ha : At op loc.pc s) (hu : loc.pc ≠ .unlock) (o : Out) :
    ∃ loc' s', step name op loc o s = .ok (loc', s') ∧ Fine s' ∧ At op loc'.pc s' ∧ loc'.pc.left < loc.pc.left := by
  obtain ⟨cp, hc⟩ := hf.cur
  obtain ⟨pp, hp⟩ := hf.prev
  cases loc with
  | mk pc rc errno =>
  cases op with
  | setStdout b => cases pc <;> simp only [At] at ha <;> first | exact absurd rfl hu | exact ⟨_, _, rfl, ⟨⟨_, hc⟩, ⟨_, hp⟩⟩, ha, by simp [Loc.fail, Pc.left]⟩
  | setCallback b => cases pc <;> simp only [At] at ha <;> first | exact absurd rfl hu | exact ⟨_, _, rfl, ⟨⟨_, hc⟩, ⟨_, hp⟩⟩, ha, by simp [Loc.fail, Pc.left]⟩
  | log l msg =>
    cases pc <;> simp only [At] at ha <;> simp only [step, stepLog]
    case unlock => exact absurd rfl hu
    case out1 =>
      split
      · cases o.tm with
        | none => exact ⟨_, _, rfl, hf, ha, by simp [Loc.fail, Pc.left]⟩
        | some tm =>
          simp only [cstr_eq hn, Res.ok_bind]
          obtain ⟨f1, f2, f3, f4, f5, f6, f7, f8, f9⟩ := emit_frame s l (o.put (header tm l nm))
          cases o.ok <;> exact ⟨_, _, rfl, emit_fine hf _ _, by simp only [Loc.fail, if_true, if_false, At, f9, f1, ha, Bool.false_eq_true], by simp [Loc.fail, Pc.left]⟩
      · exact ⟨_, _, rfl, hf, ha, by simp [Loc.fail, Pc.left]⟩
    case out2 =>
      obtain ⟨f1, f2, f3, f4, f5, f6, f7, f8, f9⟩ := emit_frame s l (o.put msg)
      cases o.ok <;> exact ⟨_, _, rfl, emit_fine hf _ _, by simp only [Loc.fail, if_true, if_false, At, f9, f1, ha, Bool.false_eq_true], by simp [Loc.fail, Pc.left]⟩
    case file1 =>
      split
      · next hfp =>
        rw [hfp] at ha
        cases o.tm with
        | none => exact ⟨_, _, rfl, hf, by simp [Loc.fail, At, hfp, ha], by simp [Loc.fail, Pc.left]⟩
        | some tm =>
          simp only [cstr_eq hn, cstr_eq hc.str, Res.ok_bind]
          cases o.ok <;> exact ⟨_, _, rfl, ⟨⟨_, hc⟩, ⟨_, hp⟩⟩, by simp [Loc.fail, At, hfp, ha, Shared.append, Shared.file], by simp [Loc.fail, Pc.left]⟩
      · exact ⟨_, _, rfl, hf, ha, by simp [Loc.fail, Pc.left]⟩
    case file2 =>
      simp only [cstr_eq hc.str, Res.ok_bind]
      split
      · refine ⟨_, _, rfl, ⟨⟨_, hc⟩, ⟨_, hp⟩⟩, ?_, ?_⟩
        · simp only
          split
          · exact ha
          · simp [At, Shared.append, Shared.file, ha]
        · simp only
          split <;> simp [Pc.left]
      · exact ⟨_, _, rfl, ⟨⟨_, hc⟩, ⟨_, hp⟩⟩, by simp [Loc.fail, At, ha, Shared.append, Shared.file], by simp [Loc.fail, Pc.left]⟩
    case rotClose => exact ⟨_, _, rfl, ⟨⟨_, hc⟩, ⟨_, hp⟩⟩, ⟨ha.1, by simp [ha.2]⟩, by simp [Loc.fail, Pc.left]⟩
    case rotRename =>
      simp only [cstr_eq hc.str, cstr_eq hp.str, Res.ok_bind]
      split <;> exact ⟨_, _, rfl, ⟨⟨_, hc⟩, ⟨_, hp⟩⟩, ha, by simp [Loc.fail, Pc.left]⟩
    case rotOpen =>
      simp only [cstr_eq hc.str, Res.ok_bind]
      split
      · exact ⟨_, _, rfl, ⟨⟨_, hc⟩, ⟨_, hp⟩⟩, by simp [At, ha.2], by simp [Loc.fail, Pc.left]⟩
      · exact ⟨_, _, rfl, ⟨⟨_, hc⟩, ⟨_, hp⟩⟩, by simp [Loc.fail, At, ha.2], by simp [Loc.fail, Pc.left]⟩
    case callback =>
      cases s.cb <;> exact ⟨_, _, rfl, ⟨⟨_, hc⟩, ⟨_, hp⟩⟩, ha, by simp [Loc.fail, Pc.left]⟩
  | setFile names =>
    cases pc <;> simp only [At] at ha <;> simp only [step, stepFile]
    case unlock => exact absurd rfl hu
    case close =>
      obtain ⟨p', e1, h1⟩ := arr_wr0 hp
      obtain ⟨c', e2, h2⟩ := arr_wr0 hc
      simp only [e1, e2, Res.ok_bind]
      refine ⟨_, _, rfl, ⟨⟨_, h2⟩, ⟨_, h1⟩⟩, ⟨rfl, ?_⟩, by simp [Loc.fail, Pc.left]⟩
      simp only [ha]
      cases s.fp <;> rfl
    case names =>
      cases names with
      | none => exact ⟨_, _, rfl, ⟨⟨_, hc⟩, ⟨_, hp⟩⟩, by simp [At, ha], by simp [Loc.fail, Pc.left]⟩
      | some q =>
        obtain ⟨p, c⟩ := q
        obtain ⟨⟨x, hx⟩, y, hy⟩ := hv
        simp only [strlen_eq hx, strlen_eq hy, Res.ok_bind]
        split
        · exact ⟨_, _, rfl, ⟨⟨_, hc⟩, ⟨_, hp⟩⟩, by simp [At, ha], by show 0 < 5; decide⟩
        · next hlen =>
          obtain ⟨p', e1, h1⟩ := arr_memcpy hp hx (by omega)
          obtain ⟨c', e2, h2⟩ := arr_memcpy hc hy (by omega)
          simp only [e1, e2, Res.ok_bind]
          exact ⟨_, _, rfl, ⟨⟨_, h2⟩, ⟨_, h1⟩⟩, ha, by simp [Loc.fail, Pc.left]⟩
    case «open» =>
      simp only [cstr_eq hc.str, Res.ok_bind]
      split
      · exact ⟨_, _, rfl, ⟨⟨_, hc⟩, ⟨_, hp⟩⟩, by simp [At, ha, Shared.append, Shared.file], by simp [Loc.fail, Pc.left]⟩
      · exact ⟨_, _, rfl, ⟨⟨_, hc⟩, ⟨_, hp⟩⟩, by simp [At, ha], by show 0 < 4; decide⟩
    case newline =>
      simp only [cstr_eq hc.str, Res.ok_bind]
      split
      · exact ⟨_, _, rfl, ⟨⟨_, hc⟩, ⟨_, hp⟩⟩, by simp [At, ha, Shared.append, Shared.file], by simp [Loc.fail, Pc.left]⟩
      · exact ⟨_, _, rfl, ⟨⟨_, hc⟩, ⟨_, hp⟩⟩, by simp [At, ha, Shared.append, Shared.file], by show 1 < 3; decide⟩
    case tell =>
      simp only [cstr_eq hc.str, Res.ok_bind]
      split
      · exact ⟨_, _, rfl, ⟨⟨_, hc⟩, ⟨_, hp⟩⟩, by simp [At, ha], by simp [Loc.fail, Pc.left]⟩
      · exact ⟨_, _, rfl, ⟨⟨_, hc⟩, ⟨_, hp⟩⟩, by simp [At, ha], by show 1 < 2; decide⟩
    case failed =>
      exact ⟨_, _, rfl, ⟨⟨_, hc⟩, ⟨_, hp⟩⟩, by simp [At, ha], by simp [Loc.fail, Pc.left]⟩

end Verif.Log
