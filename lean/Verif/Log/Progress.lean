import Verif.Log.Threads

/-! # The logger has no undefined behaviour, never deadlocks and leaves no stream open -/

namespace Verif.Log

open Spec

theorem strlenFrom_ok {mem : List UInt8} {p : Nat} : ∀ (fuel i n : Nat), strlenFrom mem p fuel i = .ok n →
    i ≤ n ∧ mem[p + n]? = some 0 ∧ ∀ j, i ≤ j → j < n → ∃ b, b ≠ 0 ∧ mem[p + j]? = some b := by
  intro fuel
  induction fuel with
  | zero => intro i n h; cases h
  | succ fuel ih =>
    intro i n h
    simp only [strlenFrom] at h
    obtain ⟨b, hb, h⟩ := Res.bind_eq_ok.1 h
    rw [rd_eq_ok] at hb
    split at h
    · next h0 =>
      cases h
      exact ⟨Nat.le_refl _, h0 ▸ hb, fun j h1 h2 => by omega⟩
    · next h0 =>
      obtain ⟨a1, a2, a3⟩ := ih _ _ h
      refine ⟨by omega, a2, fun j h1 h2 => ?_⟩
      by_cases hj : j = i
      · exact ⟨b, h0, hj ▸ hb⟩
      · exact a3 j (by omega) h2

theorem cstr_ok {mem s : List UInt8} {p : Nat} (h : cstr mem p = .ok s) : CStr mem p s := by
  obtain ⟨n, hn, h⟩ := Res.bind_eq_ok.1 h
  obtain ⟨-, h1, h2⟩ := strlenFrom_ok _ _ _ hn
  obtain rfl := Res.ok.inj h
  have hlen : p + n < mem.length := (List.getElem?_eq_some_iff.1 h1).1
  have hl : (slice mem p n).length = n := length_slice (by omega)
  refine ⟨?_, ?_, ?_⟩
  · intro i hi
    have : (slice mem p n)[i]? = mem[p + i]? := by rw [slice_getElem?, if_pos (by omega)]
    rw [← this, List.getElem?_eq_getElem hi]
  · intro b hb
    obtain ⟨i, hi, rfl⟩ := List.getElem_of_mem hb
    have : (slice mem p n)[i]? = mem[p + i]? := by rw [slice_getElem?, if_pos (by omega)]
    obtain ⟨b, hb0, hb1⟩ := h2 i (by omega) (by omega)
    rw [hb1, List.getElem?_eq_getElem hi] at this
    exact Option.some.inj this ▸ hb0
  · rw [hl]; exact h1

/-- What holds at all times. -/
structure WF (s : State) : Prop where
  fine : Fine s.sh
  name : ∀ t, ∃ nm, Arr (s.th t).name 31 nm ∧ (s.th t).name[31]? = some 0
  valid : ∀ t, ∀ op ∈ pending (s.th t).st, op.valid
  pos : ∀ t op loc outs, (s.th t).st = .inside op loc outs → s.lock = some t ∧ At op loc.pc s.sh
  free : s.lock = none → s.sh.streams = if s.sh.fp then 1 else 0
  held : ∀ t, s.lock = some t → ∃ op loc outs, (s.th t).st = .inside op loc outs

/-- A process after `sc_log_init`: the level is INFO, the threads have the default name. -/
def begun (fs : List UInt8 → Option (List UInt8)) (out err : List UInt8) : State :=
  { level := .info, lock := none, sh := init fs out err, th := fun _ => ⟨name0, .idle⟩ }

theorem begun_wf (fs : List UInt8 → Option (List UInt8)) (out err : List UInt8) : WF (begun fs out err) := by
  have ha : Arr (List.replicate 256 0) 255 [] := ⟨List.length_replicate .., fun i hi => by simp at hi, by simp, by rw [List.getElem?_replicate]; rfl⟩
  refine ⟨⟨⟨_, ha⟩, ⟨_, ha⟩⟩, fun t => ⟨_, name0_ok⟩, ?_, ?_, fun _ => rfl, ?_⟩
  · intro t op h; cases h
  · intro t op loc outs h; cases h
  · intro t h; cases h

theorem start_at (op : Op) {s : Shared} (h : s.streams = if s.fp then 1 else 0) : At op (start op).pc s := by
  cases op <;> exact h

theorem unlock_at {op : Op} {s : Shared} (h : At op .unlock s) : s.streams = if s.fp then 1 else 0 := by
  cases op <;> exact h

/-- Changing what a thread does outside of the critical sections. -/
theorem WF.other {s s' : State} (h : WF s) (t : Nat) (h1 : s'.lock = s.lock) (h2 : s'.sh = s.sh)
    (h3 : ∀ i, i ≠ t → s'.th i = s.th i) (h4 : ∃ nm, Arr (s'.th t).name 31 nm ∧ (s'.th t).name[31]? = some 0)
    (h5 : ∀ op ∈ pending (s'.th t).st, op.valid) (h6 : ∀ op loc outs, (s.th t).st ≠ .inside op loc outs)
    (h7 : ∀ op loc outs, (s'.th t).st ≠ .inside op loc outs) : WF s' := by
  refine ⟨h2 ▸ h.fine, ?_, ?_, ?_, ?_, ?_⟩
  · intro i
    by_cases hit : i = t
    · subst hit; exact h4
    · rw [h3 i hit]; exact h.name i
  · intro i
    by_cases hit : i = t
    · subst hit; exact h5
    · rw [h3 i hit]; exact h.valid i
  · intro i op loc outs hi
    by_cases hit : i = t
    · subst hit; exact absurd hi (h7 _ _ _)
    · rw [h3 i hit] at hi; rw [h1, h2]; exact h.pos _ _ _ _ hi
  · rw [h1, h2]; exact h.free
  · intro i hi
    rw [h1] at hi
    obtain ⟨op, loc, outs, hx⟩ := h.held i hi
    by_cases hit : i = t
    · subst hit; exact absurd hx (h6 _ _ _)
    · exact ⟨op, loc, outs, by rw [h3 i hit]; exact hx⟩

theorem set_other (s : State) (t i : Nat) (x : Status) (h : i ≠ t) : (s.set t x).th i = s.th i := by
  simp [State.set, h]

/-- It holds at all times. -/
theorem WF.run {s s' : State} {es : List Event} (h : Run s es s') (hw : WF s)
    (hv : ∀ t op, .call t op ∈ es → op.valid) : WF s' := by
  induction h with
  | refl => exact hw
  | @step s1 s2 e es hr hst ih =>
    have ih := ih fun t op h => hv t op (by simp [h])
    clear hr
    cases hst with
    | call i op ht =>
      refine ih.other i rfl rfl (fun j => set_other s1 i j _) ?_ ?_ (by rw [ht]; simp) ?_
      · rw [(set_th ..).2]; exact ih.name i
      · rw [(set_th ..).1, if_pos rfl]
        have := hv i op (by simp)
        cases op <;> simpa [pending, Op.entry] using this
      · rw [(set_th ..).1, if_pos rfl]
        cases op <;> simp [Op.entry]
    | setLevel i str ht hs => exact ⟨ih.fine, ih.name, ih.valid, ih.pos, ih.free, ih.held⟩
    | @setName name i str ht hs =>
      refine ih.other i rfl rfl (fun j hj => by simp [hj]) ?_ ?_ (by rw [ht]; simp) ?_
      · obtain ⟨old, ha, hl⟩ := ih.name i
        obtain ⟨q, hq, -⟩ := Res.bind_eq_ok.1 hs
        obtain ⟨name', e, h1, h2⟩ := setName_eq ha hl (cstr_ok hq)
        rw [hs] at e
        obtain rfl := Res.ok.inj e
        simp only [if_true]
        exact ⟨_, h1, h2⟩
      · simp [ht, pending]
      · simp [ht]
    | @skip i l msg ht hlv =>
      refine ih.other i rfl rfl (fun j => set_other s1 i j _) ?_ ?_ (by rw [ht]; simp) ?_
      · rw [(set_th ..).2]; exact ih.name i
      · rw [(set_th ..).1, if_pos rfl]; simp [pending]
      · rw [(set_th ..).1, if_pos rfl]; simp
    | @pass i l msg ht hlv =>
      refine ih.other i rfl rfl (fun j => set_other s1 i j _) ?_ ?_ (by rw [ht]; simp) ?_
      · rw [(set_th ..).2]; exact ih.name i
      · rw [(set_th ..).1, if_pos rfl]; simp [pending, Op.valid]
      · rw [(set_th ..).1, if_pos rfl]; simp
    | @lock i op ht hlk =>
      refine ⟨ih.fine, ?_, ?_, ?_, (by intro h; cases h), ?_⟩
      · intro j
        rw [(set_th ..).2]; exact ih.name j
      · intro j
        rw [(set_th ..).1]
        have := ih.valid j
        by_cases hj : j = i
        · subst hj
          rw [ht] at this
          rw [if_pos rfl]
          exact this
        · rw [if_neg hj]; exact this
      · intro j op' loc outs hin
        have hin : ((s1.set i (.inside op (start op) [])).th j).st = .inside op' loc outs := hin
        rw [(set_th ..).1] at hin
        by_cases hj : j = i
        · rw [if_pos hj] at hin
          cases hin
          exact ⟨by rw [hj], start_at op (ih.free hlk)⟩
        · rw [if_neg hj] at hin
          obtain ⟨x, -⟩ := ih.pos _ _ _ _ hin
          rw [hlk] at x
          cases x
      · intro j hj
        obtain rfl : i = j := Option.some.inj hj
        exact ⟨op, start op, [], ((set_th s1 i i _).1).trans (if_pos rfl)⟩
    | @step i op loc outs loc' sh' o ht hne hs =>
      obtain ⟨hlk, hat⟩ := ih.pos _ _ _ _ ht
      obtain ⟨nm, hnm, -⟩ := ih.name i
      have hval : op.valid := ih.valid i op (by rw [ht]; simp [pending])
      obtain ⟨loc2, sh2, e, hf2, ha2, -⟩ := step_fine hnm.str hval ih.fine hat hne o
      rw [hs] at e
      obtain ⟨rfl, rfl⟩ := Prod.mk.inj (Res.ok.inj e)
      refine ⟨hf2, ?_, ?_, ?_, ?_, ?_⟩
      · intro j
        show ∃ nm, Arr ((s1.set i _).th j).name 31 nm ∧ ((s1.set i _).th j).name[31]? = some 0
        rw [(set_th ..).2]; exact ih.name j
      · intro j
        show ∀ op ∈ pending ((s1.set i _).th j).st, op.valid
        rw [(set_th ..).1]
        have := ih.valid j
        by_cases hj : j = i
        · subst hj
          rw [ht] at this
          rw [if_pos rfl]
          exact this
        · rw [if_neg hj]; exact this
      · intro j op' loc2 outs2 hin
        have hin : ((s1.set i (.inside op loc' (outs ++ [o]))).th j).st = .inside op' loc2 outs2 := hin
        rw [(set_th ..).1] at hin
        by_cases hj : j = i
        · rw [if_pos hj] at hin
          cases hin
          exact ⟨hj ▸ hlk, ha2⟩
        · rw [if_neg hj] at hin
          obtain ⟨x, -⟩ := ih.pos _ _ _ _ hin
          rw [hlk] at x
          exact absurd (Option.some.inj x).symm hj
      · intro h
        have h : s1.lock = none := h
        rw [hlk] at h
        cases h
      · intro j hj
        have hj : s1.lock = some j := hj
        rw [hlk] at hj
        obtain rfl : i = j := Option.some.inj hj
        exact ⟨op, loc', outs ++ [o], ((set_th s1 i i _).1).trans (if_pos rfl)⟩
    | @unlock i op loc outs ht hu =>
      obtain ⟨hlk, hat⟩ := ih.pos _ _ _ _ ht
      refine ⟨ih.fine, ?_, ?_, ?_, ?_, fun j h => by cases h⟩
      · intro j
        rw [(set_th ..).2]; exact ih.name j
      · intro j
        rw [(set_th ..).1]
        by_cases hj : j = i
        · rw [if_pos hj]; simp [pending]
        · rw [if_neg hj]; exact ih.valid j
      · intro j op' loc2 outs2 hin
        have hin : ((s1.set i .idle).th j).st = .inside op' loc2 outs2 := hin
        rw [(set_th ..).1] at hin
        by_cases hj : j = i
        · rw [if_pos hj] at hin; cases hin
        · rw [if_neg hj] at hin
          obtain ⟨x, -⟩ := ih.pos _ _ _ _ hin
          rw [hlk] at x
          exact absurd (Option.some.inj x).symm hj
      · intro _
        rw [hu] at hat
        exact unlock_at hat

/-- Whatever a thread meets inside, its next step is defined, and the mutex is released after eight
steps at most. -/
theorem no_ub {fs : List UInt8 → Option (List UInt8)} {out err : List UInt8} {es : List Event} {s : State}
    (h : Run (begun fs out err) es s) (hv : ∀ t op, .call t op ∈ es → op.valid) {t : Nat} {op : Op} {loc : Loc}
    {outs : List Out} (ht : (s.th t).st = .inside op loc outs) :
    loc.pc.left ≤ 8 ∧ (loc.pc.left = 0 → loc.pc = .unlock) ∧
    (loc.pc ≠ .unlock → ∀ o, ∃ loc' sh', step (s.th t).name op loc o s.sh = .ok (loc', sh') ∧
      loc'.pc.left < loc.pc.left) := by
  have hw := (begun_wf fs out err).run h hv
  refine ⟨by cases loc.pc <;> decide, by cases loc.pc <;> simp [Pc.left], fun hne o => ?_⟩
  obtain ⟨-, hat⟩ := hw.pos _ _ _ _ ht
  obtain ⟨nm, hnm, -⟩ := hw.name t
  obtain ⟨loc', sh', e, -, -, hl⟩ := step_fine hnm.str (hw.valid t op (by rw [ht]; simp [pending])) hw.fine hat hne o
  exact ⟨loc', sh', e, hl⟩

/-! ## Threads can always finish -/

theorem Run.trans {s1 s2 s3 : State} {e1 e2 : List Event} (h1 : Run s1 e1 s2) (h2 : Run s2 e2 s3) :
    Run s1 (e1 ++ e2) s3 := by
  induction h2 with
  | refl => rw [List.append_nil]; exact h1
  | step _ hs ih => rw [← List.append_assoc]; exact ih.step hs

/-- A run without further calls in which only one thread does something. -/
def Alone (t : Nat) (s s' : State) : Prop :=
  ∃ es, Run s es s' ∧ (∀ i op, .call i op ∉ es) ∧ ∀ i, i ≠ t → s'.th i = s.th i

theorem Alone.trans {t : Nat} {s1 s2 s3 : State} (h1 : Alone t s1 s2) (h2 : Alone t s2 s3) : Alone t s1 s3 := by
  obtain ⟨e1, r1, c1, o1⟩ := h1
  obtain ⟨e2, r2, c2, o2⟩ := h2
  refine ⟨e1 ++ e2, r1.trans r2, ?_, fun i hi => (o2 i hi).trans (o1 i hi)⟩
  intro i op h
  rcases List.mem_append.1 h with h | h
  · exact c1 i op h
  · exact c2 i op h

theorem Alone.one {t : Nat} {s s' : State} {e : Option Event} (h : Step s e s') (hc : ∀ i op, e ≠ some (.call i op))
    (ho : ∀ i, i ≠ t → s'.th i = s.th i) : Alone t s s' := by
  refine ⟨[] ++ e.toList, Run.refl.step h, ?_, ho⟩
  intro i op h
  cases e with
  | none => simp at h
  | some x => simp at h; exact hc i op (by rw [h])

theorem finish_inside : ∀ (n : Nat) {s : State} {t : Nat} {op : Op} {loc : Loc} {outs : List Out}, WF s →
    (s.th t).st = .inside op loc outs → loc.pc.left ≤ n →
    ∃ s', Alone t s s' ∧ WF s' ∧ s'.lock = none ∧ (s'.th t).st = .idle := by
  intro n
  induction n with
  | zero =>
    intro s t op loc outs hw ht hn
    have hu : loc.pc = .unlock := by
      revert hn
      cases loc.pc <;> simp [Pc.left]
    have hst := Step.unlock ht hu
    refine ⟨_, .one hst (by simp) (fun i => set_other s t i _), hw.run (Run.refl.step hst) (by simp), rfl, ?_⟩
    exact ((set_th s t t _).1).trans (if_pos rfl)
  | succ n ih =>
    intro s t op loc outs hw ht hn
    by_cases hu : loc.pc = .unlock
    · have hst := Step.unlock ht hu
      refine ⟨_, .one hst (by simp) (fun i => set_other s t i _), hw.run (Run.refl.step hst) (by simp), rfl, ?_⟩
      exact ((set_th s t t _).1).trans (if_pos rfl)
    · obtain ⟨-, hat⟩ := hw.pos _ _ _ _ ht
      obtain ⟨nm, hnm, -⟩ := hw.name t
      obtain ⟨loc', sh', e, -, -, hl⟩ := step_fine hnm.str (hw.valid t op (by rw [ht]; simp [pending])) hw.fine hat hu
        { ok := true }
      have hst := Step.step _ ht hu e
      obtain ⟨s', h1, h2, h3, h4⟩ := ih (t := t) (hw.run (Run.refl.step hst) (by simp))
        (((set_th s t t _).1).trans (if_pos rfl)) (by omega)
      exact ⟨s', (Alone.one hst (by simp) (fun i => set_other s t i _)).trans h1, h2, h3, h4⟩

theorem finish_waiting {s : State} {t : Nat} {op : Op} (hw : WF s) (hl : s.lock = none)
    (ht : (s.th t).st = .waiting op) : ∃ s', Alone t s s' ∧ WF s' ∧ s'.lock = none ∧ (s'.th t).st = .idle := by
  have hst := Step.lock ht hl
  obtain ⟨s', h1, h2, h3, h4⟩ := finish_inside _ (t := t) (hw.run (Run.refl.step hst) (by simp))
    (((set_th s t t _).1).trans (if_pos rfl)) (Nat.le_refl _)
  exact ⟨s', (Alone.one hst (by simp) (fun i => set_other s t i _)).trans h1, h2, h3, h4⟩

theorem finish_one {s : State} (t : Nat) (hw : WF s) (hl : s.lock = none) :
    ∃ s', Alone t s s' ∧ WF s' ∧ s'.lock = none ∧ (s'.th t).st = .idle := by
  cases ht : (s.th t).st with
  | idle => exact ⟨s, ⟨[], .refl, by simp, fun _ _ => rfl⟩, hw, hl, ht⟩
  | inside op loc outs => exact finish_inside _ hw ht (Nat.le_refl _)
  | waiting op => exact finish_waiting hw hl ht
  | check l msg =>
    by_cases hlv : l.rank < s.level.rank
    · have hst := Step.skip ht hlv
      refine ⟨_, .one hst (by simp) (fun i => set_other s t i _), hw.run (Run.refl.step hst) (by simp), hl, ?_⟩
      exact ((set_th s t t _).1).trans (if_pos rfl)
    · have hst := Step.pass ht hlv
      obtain ⟨s', h1, h2, h3, h4⟩ := finish_waiting (t := t) (hw.run (Run.refl.step hst) (by simp))
        (by exact hl) (((set_th s t t _).1).trans (if_pos rfl))
      exact ⟨s', (Alone.one hst (by simp) (fun i => set_other s t i _)).trans h1, h2, h3, h4⟩

theorem finish_below : ∀ (n : Nat) {s : State}, WF s → s.lock = none →
    ∃ es s', Run s es s' ∧ (∀ i op, .call i op ∉ es) ∧ WF s' ∧ s'.lock = none ∧ (∀ t, t < n → (s'.th t).st = .idle) ∧
      ∀ t, n ≤ t → s'.th t = s.th t := by
  intro n
  induction n with
  | zero => intro s hw hl; exact ⟨[], s, .refl, by simp, hw, hl, by simp, fun _ _ => rfl⟩
  | succ n ih =>
    intro s hw hl
    obtain ⟨es, s1, r1, c1, w1, l1, d1, o1⟩ := ih hw hl
    obtain ⟨s2, ⟨es2, r2, c2, o2⟩, w2, l2, d2⟩ := finish_one n w1 l1
    refine ⟨es ++ es2, s2, r1.trans r2, ?_, w2, l2, ?_, ?_⟩
    · intro i op h
      rcases List.mem_append.1 h with h | h
      · exact c1 i op h
      · exact c2 i op h
    · intro t ht
      by_cases htn : t = n
      · exact htn ▸ d2
      · rw [o2 t htn]; exact d1 t (by omega)
    · intro t ht
      rw [o2 t (by omega)]; exact o1 t (by omega)

theorem issued_none : ∀ es : List Event, ∃ n, ∀ t, n ≤ t → issued t es = [] := by
  intro es
  induction es with
  | nil => exact ⟨0, fun _ _ => rfl⟩
  | cons e es ih =>
    obtain ⟨n, hn⟩ := ih
    cases e with
    | call i op => exact ⟨max n (i + 1), fun t ht => by simp only [issued]; rw [if_neg (by omega)]; exact hn t (by omega)⟩
    | level => exact ⟨n, hn⟩
    | skip => exact ⟨n, hn⟩
    | done => exact ⟨n, hn⟩

/-- There is no deadlock: from every state that can be reached all the calls can return. -/
theorem no_deadlock {fs : List UInt8 → Option (List UInt8)} {out err : List UInt8} {es : List Event} {s : State}
    (h : Run (begun fs out err) es s) (hv : ∀ t op, .call t op ∈ es → op.valid) :
    ∃ es' s', Run s es' s' ∧ (∀ i op, .call i op ∉ es') ∧ s'.lock = none ∧ ∀ t, (s'.th t).st = .idle := by
  have hw := (begun_wf fs out err).run h hv
  obtain ⟨n, hn⟩ := issued_none es
  have hidle : ∀ t, n ≤ t → (s.th t).st = .idle := by
    intro t ht
    have := program_order h (fun _ => rfl) t
    rw [hn t ht] at this
    have := (List.append_eq_nil_iff.1 this.symm).2
    cases hs : (s.th t).st <;> rw [hs] at this <;> simp [pending] at this ⊢
  have main : ∀ s1 : State, WF s1 → s1.lock = none → (∀ t, n ≤ t → (s1.th t).st = .idle) →
      ∃ es' s', Run s1 es' s' ∧ (∀ i op, .call i op ∉ es') ∧ s'.lock = none ∧ ∀ t, (s'.th t).st = .idle := by
    intro s1 w1 l1 i1
    obtain ⟨es2, s2, r2, c2, -, l2, d2, o2⟩ := finish_below n w1 l1
    refine ⟨es2, s2, r2, c2, l2, fun t => ?_⟩
    by_cases ht : t < n
    · exact d2 t ht
    · rw [o2 t (by omega)]; exact i1 t (by omega)
  cases hl : s.lock with
  | none => exact main s hw hl hidle
  | some t =>
    obtain ⟨op, loc, outs, ht⟩ := hw.held t hl
    obtain ⟨s1, ⟨es1, r1, c1, o1⟩, w1, l1, d1⟩ := finish_inside _ hw ht (Nat.le_refl _)
    obtain ⟨es2, s2, r2, c2, l2, d2⟩ := main s1 w1 l1 (fun i hi => by
      by_cases hit : i = t
      · exact hit ▸ d1
      · rw [o1 i hit]; exact hidle i hi)
    refine ⟨es1 ++ es2, s2, r1.trans r2, ?_, l2, d2⟩
    intro i op h
    rcases List.mem_append.1 h with h | h
    · exact c1 i op h
    · exact c2 i op h

/-- Whenever the mutex is free, the only stream that is open is that of the log file, and `sc_log_term`
closes it. -/
theorem no_leak {fs : List UInt8 → Option (List UInt8)} {out err : List UInt8} {es : List Event} {s : State}
    (h : Run (begun fs out err) es s) (hv : ∀ t op, .call t op ∈ es → op.valid) (hl : s.lock = none) (o : Out) :
    s.sh.streams = (if s.sh.fp then 1 else 0) ∧ (term s.sh o).1 = 0 ∧
      ((term s.sh o).2 = 0 ∨ (term s.sh o).2 = -1 ∧ s.sh.fp = true ∧ o.ok = false) := by
  have := ((begun_wf fs out err).run h hv).free hl
  refine ⟨this, ?_, ?_⟩
  · unfold term
    rw [this]
    cases s.sh.fp <;> rfl
  · unfold term
    cases s.sh.fp <;> cases o.ok <;> simp

end Verif.Log
