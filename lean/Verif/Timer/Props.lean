import Verif.Timer.Runs

/-! # Properties C22 – C26 of `sc_timer` -/

namespace Verif.Timer

open Spec

/-! ## Reading a trace -/

/-- The time after the events: the last one given to a `sc_timer_timeout` that moved the
wheel. -/
def nowAfter (now : Nat) : List Ev → Nat
  | [] => now
  | .now ts :: es => nowAfter ts es
  | _ :: es => nowAfter now es

theorem Spec.Trace.now_eq {S S' : State} {es : List Ev} (h : Trace S es S') :
    S'.now = nowAfter S.now es := by
  induction h <;> simp_all [nowAfter]

theorem Spec.Trace.split {es1 es2 : List Ev} : ∀ {S S' : State}, Trace S (es1 ++ es2) S' →
    ∃ S1, Trace S es1 S1 ∧ Trace S1 es2 S' := by
  induction es1 with
  | nil => intro S S' h; exact ⟨S, .nil _, h⟩
  | cons e es1 ih =>
    intro S S' h
    rw [List.cons_append] at h
    cases h with
    | add a b h => obtain ⟨S1, h1, h2⟩ := ih h; exact ⟨S1, .add a b h1, h2⟩
    | addFail h => obtain ⟨S1, h1, h2⟩ := ih h; exact ⟨S1, .addFail h1, h2⟩
    | cancel h => obtain ⟨S1, h1, h2⟩ := ih h; exact ⟨S1, .cancel h1, h2⟩
    | clear h => obtain ⟨S1, h1, h2⟩ := ih h; exact ⟨S1, .clear h1, h2⟩
    | now a h => obtain ⟨S1, h1, h2⟩ := ih h; exact ⟨S1, .now a h1, h2⟩
    | fire a b h => obtain ⟨S1, h1, h2⟩ := ih h; exact ⟨S1, .fire a b h1, h2⟩

theorem not_resolved_append {es es' : List Ev} {id : Nat} (h : ¬ Resolved es id)
    (h' : ¬ Resolved es' id) : ¬ Resolved (es ++ es') id := by
  rintro (⟨d, ty, dat, hm⟩ | hm | hm)
  · rcases List.mem_append.1 hm with hm | hm
    · exact h (Or.inl ⟨d, ty, dat, hm⟩)
    · exact h' (Or.inl ⟨d, ty, dat, hm⟩)
  · rcases List.mem_append.1 hm with hm | hm
    · exact h (Or.inr (Or.inl hm))
    · exact h' (Or.inr (Or.inl hm))
  · rcases List.mem_append.1 hm with hm | hm
    · exact h (Or.inr (Or.inr hm))
    · exact h' (Or.inr (Or.inr hm))

/-- Where a pending timer comes from: it was pending before, or it was added; and it was not
dealt with since. -/
theorem Spec.Trace.origin {S S' : State} {es : List Ev} (h : Trace S es S') {id : Nat} {e : Entry}
    (hl : S'.live id = some e) :
    (S.live id = some e ∧ ¬ Resolved es id) ∨
    ∃ es1 es2 timeout, es = es1 ++ .add timeout e.type e.data id :: es2 ∧ ¬ Resolved es2 id ∧
      e.deadline = nowAfter S.now es1 + timeout := by
  induction h with
  | nil S => exact Or.inl ⟨hl, by simp [Resolved]⟩
  | @add S timeout type data id' es S' h1 h2 _ ih =>
    rcases ih hl with ⟨h, hn⟩ | ⟨es1, es2, T, rfl, hn, hd⟩
    · simp only [upd] at h
      by_cases hid : id = id'
      · subst hid
        simp only [if_true, Option.some.injEq] at h; subst h
        exact Or.inr ⟨[], es, timeout, rfl, hn, rfl⟩
      · rw [if_neg hid] at h
        refine Or.inl ⟨h, ?_⟩
        exact not_resolved_append (es := [_]) (by simp [Resolved]) hn
    · exact Or.inr ⟨_ :: es1, es2, T, rfl, hn, by simpa [nowAfter] using hd⟩
  | @addFail S es S' _ ih =>
    rcases ih hl with ⟨h, hn⟩ | ⟨es1, es2, T, rfl, hn, hd⟩
    · exact Or.inl ⟨h, not_resolved_append (es := [_]) (by simp [Resolved]) hn⟩
    · exact Or.inr ⟨_ :: es1, es2, T, rfl, hn, by simpa [nowAfter] using hd⟩
  | @cancel S id' es S' _ ih =>
    rcases ih hl with ⟨h, hn⟩ | ⟨es1, es2, T, rfl, hn, hd⟩
    · simp only [upd] at h
      by_cases hid : id = id'
      · subst hid; simp at h
      · rw [if_neg hid] at h
        refine Or.inl ⟨h, ?_⟩
        exact not_resolved_append (es := [_]) (by simp [Resolved, hid]) hn
    · exact Or.inr ⟨_ :: es1, es2, T, rfl, hn, by simpa [nowAfter] using hd⟩
  | @clear S es S' _ ih =>
    rcases ih hl with ⟨h, hn⟩ | ⟨es1, es2, T, rfl, hn, hd⟩
    · simp at h
    · exact Or.inr ⟨_ :: es1, es2, T, rfl, hn, by simpa [nowAfter] using hd⟩
  | @now S ts es S' _ _ ih =>
    rcases ih hl with ⟨h, hn⟩ | ⟨es1, es2, T, rfl, hn, hd⟩
    · exact Or.inl ⟨h, not_resolved_append (es := [_]) (by simp [Resolved]) hn⟩
    · exact Or.inr ⟨_ :: es1, es2, T, rfl, hn, by simpa [nowAfter] using hd⟩
  | @fire S id' e' es S' _ _ _ ih =>
    rcases ih hl with ⟨h, hn⟩ | ⟨es1, es2, T, rfl, hn, hd⟩
    · simp only [upd] at h
      by_cases hid : id = id'
      · subst hid; simp at h
      · rw [if_neg hid] at h
        refine Or.inl ⟨h, ?_⟩
        exact not_resolved_append (es := [_]) (by simp [Resolved, hid]) hn
    · exact Or.inr ⟨_ :: es1, es2, T, rfl, hn, by simpa [nowAfter] using hd⟩

/-! ## Histories -/

theorem repC_init {ts : Nat} (h : ts < INVALID) : RepC ⟨init ts, []⟩ (fun _ => none) :=
  ⟨⟨rfl, by simp [init], by simp [init], h, fun p s _ hs => by simp [init] at hs,
    fun id h => by simp at h⟩, fun id h => by simp at h⟩

theorem step_spec (cb : σ → Nat → Nat → Nat → Prog σ) {c : Cfg} {live : Nat → Option Entry} {s : σ}
    (r : RepC c live) (op : Op σ) :
    ∃ o, step cb c s op = .ok o ∧ ∀ c' s' es, o = some (c', s', es) → ∃ live',
      Trace ⟨live, c.t.timestamp⟩ es ⟨live', c'.t.timestamp⟩ ∧ RepC c' live' := by
  cases op with
  | call p =>
    obtain ⟨o, ho, hg⟩ := exec_spec (p s) r
    refine ⟨o, ho, ?_⟩
    intro c' s' es h
    obtain ⟨live', g⟩ := hg _ _ _ h
    exact ⟨live', g.tr, g.rep⟩
  | timeout ts =>
    rw [step]
    by_cases hg : c.t.timestamp ≤ ts ∧ ts < INVALID
    · rw [if_pos hg]
      obtain ⟨o, ret, ho, _, _, hg⟩ := timeout_spec cb (s := s) r hg.1 hg.2
      rw [ho]
      refine ⟨o, rfl, ?_⟩
      intro c' s' es h
      obtain ⟨live', h1, h2, _⟩ := hg _ _ _ h
      exact ⟨live', h1, h2⟩
    · rw [if_neg hg]
      exact ⟨none, rfl, fun _ _ _ h => nomatch h⟩
  | term =>
    refine ⟨_, rfl, ?_⟩
    intro c' s' es h
    cases h
    refine ⟨fun _ => none, .clear (.nil _), ⟨⟨rfl, by simp [term], by simp [term], r.rep.ts, ?_, ?_⟩, ?_⟩⟩
    · intro p s _ hs; simp [term] at hs
    · intro id h; simp at h
    · intro id h; simp at h

theorem run_spec (cb : σ → Nat → Nat → Nat → Prog σ) (ops : List (Op σ)) :
    ∀ {c : Cfg} {live : Nat → Option Entry} {s : σ}, RepC c live →
    ∃ o, run cb ops c s = .ok o ∧ ∀ c' s' es, o = some (c', s', es) → ∃ live',
      Trace ⟨live, c.t.timestamp⟩ es ⟨live', c'.t.timestamp⟩ ∧ RepC c' live' := by
  induction ops with
  | nil =>
    intro c live s r
    refine ⟨_, rfl, ?_⟩
    intro c' s' es h; cases h; exact ⟨live, .nil _, r⟩
  | cons op ops ih =>
    intro c live s r
    obtain ⟨o, ho, hg⟩ := step_spec cb (s := s) r op
    rw [run, ho, Res.ok_bind]
    cases o with
    | none => exact ⟨none, rfl, fun _ _ _ h => nomatch h⟩
    | some v =>
      obtain ⟨c1, s1, es1⟩ := v
      obtain ⟨live1, t1, r1⟩ := hg _ _ _ rfl
      obtain ⟨o2, ho2, hg2⟩ := ih (s := s1) r1
      simp only
      rw [ho2, pre_eq]
      refine ⟨_, rfl, ?_⟩
      intro c' s' es h
      cases o2 with
      | none => cases h
      | some v2 =>
        obtain ⟨c2, s2, es2⟩ := v2
        cases h
        obtain ⟨live2, t2, r2⟩ := hg2 _ _ _ rfl
        exact ⟨live2, t1.append t2, r2⟩

/-- **C22, C23, C25.** For every client (any callback, any history of calls outside and
inside the callback, any allocator behaviour), the library never does anything undefined,
and if the client keeps the rules of the API, what happens is a trace of the specification:
ids of new timers differ from those of all pending ones, only pending timers that have
reached their deadline fire, with their own values, and then are not pending any more. -/
theorem timer_refines_spec (cb : σ → Nat → Nat → Nat → Prog σ) (ops : List (Op σ)) (ts0 : Nat)
    (h0 : ts0 < INVALID) (s0 : σ) :
    ∃ o, run cb ops ⟨init ts0, []⟩ s0 = .ok o ∧
      ∀ c s es, o = some (c, s, es) → ∃ S, Trace ⟨fun _ => none, ts0⟩ es S := by
  obtain ⟨o, ho, hg⟩ := run_spec cb ops (s := s0) (repC_init h0)
  refine ⟨o, ho, ?_⟩
  intro c s es h
  obtain ⟨live, h1, _⟩ := hg _ _ _ h
  exact ⟨_, h1⟩

/-- **C22, C23.** Whenever a callback runs with values `D`, `ty`, `d`, in any history: the
time given to `sc_timer_timeout` has reached `D`; the timer was added before with `ty`, `d`
and a timeout `T` such that `D` is the timestamp at that time plus `T`; and since then it
neither fired nor was cancelled or cleared. -/
theorem timer_fires_once_not_early (cb : σ → Nat → Nat → Nat → Prog σ) (ops : List (Op σ))
    (ts0 : Nat) (h0 : ts0 < INVALID) (s0 : σ) {c : Cfg} {s : σ} {es : List Ev}
    (hr : run cb ops ⟨init ts0, []⟩ s0 = .ok (some (c, s, es)))
    {es1 es2 : List Ev} {id D ty d : Nat} (hes : es = es1 ++ .fire id D ty d :: es2) :
    D ≤ nowAfter ts0 es1 ∧
    ∃ es3 es4 T, es1 = es3 ++ .add T ty d id :: es4 ∧ D = nowAfter ts0 es3 + T ∧
      ¬ Resolved es4 id := by
  obtain ⟨o, ho, hg⟩ := timer_refines_spec cb ops ts0 h0 s0
  rw [hr] at ho; cases ho
  obtain ⟨S, tr⟩ := hg _ _ _ rfl
  subst hes
  obtain ⟨S1, t1, t2⟩ := tr.split
  cases t2 with
  | @fire S id e es' S' hl hd _ =>
    refine ⟨by rw [t1.now_eq] at hd; exact hd, ?_⟩
    rcases t1.origin hl with ⟨h, _⟩ | ⟨es3, es4, T, h1, h2, h3⟩
    · simp at h
    · exact ⟨es3, es4, T, h1, h3, h2⟩

/-- **C25.** In any history, when `sc_timer_add` returns an id that was returned before, the
timer it belonged to has fired or was cancelled or cleared in between: at no time do two
pending timers have the same id. -/
theorem timer_ids_unique (cb : σ → Nat → Nat → Nat → Prog σ) (ops : List (Op σ))
    (ts0 : Nat) (h0 : ts0 < INVALID) (s0 : σ) {c : Cfg} {s : σ} {es : List Ev}
    (hr : run cb ops ⟨init ts0, []⟩ s0 = .ok (some (c, s, es)))
    {es1 es2 es3 : List Ev} {id T ty d T' ty' d' : Nat}
    (hes : es = es1 ++ .add T ty d id :: (es2 ++ .add T' ty' d' id :: es3)) :
    id ≠ INVALID ∧ Resolved es2 id := by
  obtain ⟨o, ho, hg⟩ := timer_refines_spec cb ops ts0 h0 s0
  rw [hr] at ho; cases ho
  obtain ⟨S, tr⟩ := hg _ _ _ rfl
  subst hes
  obtain ⟨S1, t1, t2⟩ := tr.split
  cases t2 with
  | add hne hl t3 =>
    refine ⟨hne, ?_⟩
    obtain ⟨S2, t4, t5⟩ := t3.split
    rcases t4.persist (id := id) (e := ⟨S1.now + T, ty, d⟩) (by simp [upd]) with h | h
    · exact h
    · cases t5 with
      | add _ hl2 _ => rw [h] at hl2; cases hl2

/-- The configurations that histories reach, with what has happened. -/
def Reachable (cb : σ → Nat → Nat → Nat → Prog σ) (ts0 : Nat) (c : Cfg) (s : σ) (es : List Ev) :
    Prop := ∃ ops s0, ts0 < INVALID ∧ run cb ops ⟨init ts0, []⟩ s0 = .ok (some (c, s, es))

theorem Reachable.rep {cb : σ → Nat → Nat → Nat → Prog σ} {ts0 : Nat} {c : Cfg} {s : σ}
    {es : List Ev} (h : Reachable cb ts0 c s es) : ∃ live, RepC c live ∧
      Trace ⟨fun _ => none, ts0⟩ es ⟨live, c.t.timestamp⟩ := by
  obtain ⟨ops, s0, h0, hr⟩ := h
  obtain ⟨o, ho, hg⟩ := run_spec cb ops (s := s0) (repC_init h0)
  rw [hr] at ho; cases ho
  obtain ⟨live, t, r⟩ := hg _ _ _ rfl
  exact ⟨live, r, t⟩

/-- **C25.** In any reachable configuration, cancelling an id that was handed out is defined
and sets the caller's id to `SC_TIMER_INVALID`. (That it takes away that timer and no other
is `timer_fires_once_not_early` with `timer_fires_when_swept`.) -/
theorem timer_cancel_defined {cb : σ → Nat → Nat → Nat → Prog σ} {ts0 : Nat} {c : Cfg} {s : σ}
    {es : List Ev} (h : Reachable cb ts0 c s es) {id : Nat} (hid : id ∈ c.issued) :
    ∃ t', cancel c.t id = .ok (t', INVALID) := by
  obtain ⟨live, r, _⟩ := h.rep
  obtain ⟨p, q, hp, hq, rfl⟩ := r.issued id hid
  obtain ⟨t', h, _⟩ := cancel_spec r.rep hp hq
  exact ⟨t', h⟩

/-! ## Liveness -/

/-- The number of slots the history sweeps, from the times given to it. -/
def sweeps (now : Nat) : List (Op σ) → Nat
  | [] => 0
  | .timeout ts :: ops =>
    swept now ts + sweeps (if swept now ts = 0 then now else ts) ops
  | _ :: ops => sweeps now ops

/-- A timer that will be due when its slot has been swept in `m + 1` sweeps from now. -/
theorem fires_after (cb : σ → Nat → Nat → Nat → Prog σ) (ops : List (Op σ)) :
    ∀ {c : Cfg} {live : Nat → Option Entry} {s : σ} {q m : Nat} {e : Entry}, RepC c live →
      live (mkid q ((c.t.head + m) % 16)) = some e → e.deadline ≤ c.t.timestamp + 16 * (m + 1) →
      m < sweeps c.t.timestamp ops →
      ∀ {c' s' es}, run cb ops c s = .ok (some (c', s', es)) →
        Resolved es (mkid q ((c.t.head + m) % 16)) := by
  induction ops with
  | nil => intro c live s q m e r hl hd hm; simp [sweeps] at hm
  | cons op ops ih =>
    intro c live s q m e r hl hd hm c' s' es hrun
    rw [run] at hrun
    obtain ⟨o, ho, hrun⟩ := Res.bind_eq_ok.1 hrun
    cases o with
    | none => simp at hrun
    | some v =>
      obtain ⟨c1, s1, es1⟩ := v
      simp only at hrun
      have hpre : ∃ es2, run cb ops c1 s1 = .ok (some (c', s', es2)) ∧ es = es1 ++ es2 := by
        unfold pre at hrun
        obtain ⟨o2, ho2, h2⟩ := Res.bind_eq_ok.1 hrun
        cases o2 with
        | none => cases h2
        | some v2 => obtain ⟨a, b, es2⟩ := v2; cases h2; exact ⟨es2, ho2, rfl⟩
      obtain ⟨es2, hr2, rfl⟩ := hpre
      -- it is enough to treat the first operation
      have finish : ∀ {live1 : Nat → Option Entry} {m' : Nat}, RepC c1 live1 →
          Trace ⟨live, c.t.timestamp⟩ es1 ⟨live1, c1.t.timestamp⟩ →
          (.clear ∈ es1 ∨ (c1.t.head + m') % 16 = (c.t.head + m) % 16) →
          e.deadline ≤ c1.t.timestamp + 16 * (m' + 1) → m' < sweeps c1.t.timestamp ops →
          Resolved (es1 ++ es2) (mkid q ((c.t.head + m) % 16)) := by
        intro live1 m' r1 t1 hh hd1 hm1
        rcases hh with hh | hh
        · exact Resolved.left (Or.inr (Or.inr hh))
        · rcases t1.persist hl with h | h
          · exact h.left
          · have h' : live1 (mkid q ((c1.t.head + m') % 16)) = some e := by rw [hh]; exact h
            have := ih r1 h' hd1 hm1 hr2
            rw [hh] at this
            exact this.right
      cases op with
      | call p =>
        obtain ⟨o', ho', hg⟩ := exec_spec (p s) r
        rw [step, ho'] at ho; cases ho
        obtain ⟨live1, g⟩ := hg _ _ _ rfl
        refine finish g.rep g.tr (m' := m) ?_ (by rw [g.ts]; exact hd) (by rw [g.ts]; exact hm)
        rcases g.head with h | h
        · exact Or.inl h
        · exact Or.inr (by rw [h])
      | term =>
        rw [step] at ho; cases ho
        exact Resolved.left (Or.inr (Or.inr (by simp)))
      | timeout ts =>
        rw [step] at ho
        split at ho
        · next hg =>
          obtain ⟨o', ret, ho', _, _, hg'⟩ := timeout_spec cb (s := s) r hg.1 hg.2
          rw [ho'] at ho; cases ho
          obtain ⟨live1, t1, r1, hts, hhead, hres⟩ := hg' _ _ _ rfl
          rw [sweeps] at hm
          have hsw : 16 * swept c.t.timestamp ts ≤ ts - c.t.timestamp := by unfold swept; omega
          by_cases hw : m < swept c.t.timestamp ts
          · exact (hres m q e hw hl (by omega)).left
          · have hts' : c.t.timestamp + 16 * swept c.t.timestamp ts ≤ c1.t.timestamp := by
              rw [hts]; split <;> omega
            refine finish r1 t1 (m' := m - swept c.t.timestamp ts) ?_ (by omega)
              (by rw [hts]; omega)
            rcases hhead with h | h
            · exact Or.inl h
            · exact Or.inr (by rw [h]; omega)
        · cases ho

/-- **C24.** A timer added with timeout `T` in any reachable configuration has fired (or was
cancelled or cleared) in every continuation that sweeps more than `T / 16` slots. -/
theorem timer_fires_when_swept {cb : σ → Nat → Nat → Nat → Prog σ} {ts0 : Nat} {c : Cfg} {s : σ}
    {es0 : List Ev} (h : Reachable cb ts0 c s es0) (al : Alloc Nat) {T ty d id : Nat} {t' : Timer.T}
    (hT : T + c.t.timestamp < INVALID) (hadd : add al c.t T ty d = .ok (t', id))
    (hid : id ≠ INVALID) {ops : List (Op σ)} (hsw : T / 16 < sweeps c.t.timestamp ops)
    {c' : Cfg} {s' : σ} {es : List Ev}
    (hr : run cb ops ⟨t', id :: c.issued⟩ s = .ok (some (c', s', es))) : Resolved es id := by
  obtain ⟨live, r, _⟩ := h.rep
  rcases add_spec r.rep al hT (type := ty) (data := d) with h1 |
    ⟨t1, q, h1, hl, r', hs, hw, hh, hts⟩
  · rw [h1] at hadd; cases hadd; exact absurd rfl hid
  · rw [h1] at hadd; cases hadd
    have rc : RepC ⟨t', mkid q ((T / 16 + c.t.head) % 16) :: c.issued⟩
        (upd live (mkid q ((T / 16 + c.t.head) % 16)) (some ⟨c.t.timestamp + T, ty, d⟩)) := by
      refine ⟨r', ?_⟩
      intro id hid
      rcases List.mem_cons.1 hid with rfl | hid
      · exact ⟨_, q, by omega, hs, rfl⟩
      · obtain ⟨p', s', h1, h2, h3⟩ := r.issued id hid
        exact ⟨p', s', h1, by simp only; omega, h3⟩
    have hpos : (T / 16 + c.t.head) % 16 = (t'.head + T / 16) % 16 := by rw [hh, Nat.add_comm]
    have := fires_after cb ops (q := q) (m := T / 16) (e := ⟨c.t.timestamp + T, ty, d⟩) rc
      (by simp only; rw [← hpos]; simp [upd]) (by simp only; rw [hts]; omega)
      (by simp only; rw [hts]; exact hsw) hr
    simp only at this
    rw [← hpos] at this
    exact this

/-- **C24.** A pending timer whose deadline has been reached has fired (or was cancelled or
cleared) in every continuation that sweeps one revolution. -/
theorem timer_due_fires_in_a_revolution {cb : σ → Nat → Nat → Nat → Prog σ} {ts0 : Nat} {c : Cfg}
    {s : σ} {es1 es2 : List Ev} {T ty d id : Nat}
    (h : Reachable cb ts0 c s (es1 ++ .add T ty d id :: es2)) (hpend : ¬ Resolved es2 id)
    (hdue : nowAfter ts0 es1 + T ≤ c.t.timestamp) {ops : List (Op σ)}
    (hsw : 16 ≤ sweeps c.t.timestamp ops) {c' : Cfg} {s' : σ} {es : List Ev}
    (hr : run cb ops c s = .ok (some (c', s', es))) : Resolved es id := by
  obtain ⟨live, r, t⟩ := h.rep
  obtain ⟨S1, t1, t2⟩ := t.split
  cases t2 with
  | add hne hl t3 =>
    rcases t3.persist (id := id) (e := ⟨S1.now + T, ty, d⟩) (by simp [upd]) with h | h
    · exact absurd h hpend
    · simp only at h
      obtain ⟨p, q, hp, hq, rfl⟩ := r.rep.dom id (by rw [h]; simp)
      have hh := r.rep.head
      have hm : ∃ m, m < 16 ∧ p = (c.t.head + m) % 16 :=
        ⟨(p + 16 - c.t.head) % 16, by omega, by omega⟩
      obtain ⟨m, hm1, rfl⟩ := hm
      refine fires_after cb ops r h ?_ (by omega) hr
      simp only
      rw [t1.now_eq]
      simp only
      omega

/-- **C24.** One call that is a revolution (256 ms) or more after the last movement of the
wheel deals with every pending timer whose deadline is not after the given time. -/
theorem timer_full_revolution {cb : σ → Nat → Nat → Nat → Prog σ} {ts0 : Nat} {c : Cfg}
    {s : σ} {es1 es2 : List Ev} {T ty d id ts : Nat}
    (h : Reachable cb ts0 c s (es1 ++ .add T ty d id :: es2)) (hpend : ¬ Resolved es2 id)
    (hdue : nowAfter ts0 es1 + T ≤ ts) (hts : c.t.timestamp + 256 ≤ ts) (hi : ts < INVALID)
    {c' : Cfg} {s' : σ} {es : List Ev} {ret : Nat}
    (hr : timeout cb ts c s = .ok (some (c', s', es), ret)) : Resolved es id := by
  obtain ⟨live, r, t⟩ := h.rep
  obtain ⟨S1, t1, t2⟩ := t.split
  cases t2 with
  | add hne hl t3 =>
    rcases t3.persist (id := id) (e := ⟨S1.now + T, ty, d⟩) (by simp [upd]) with h | h
    · exact absurd h hpend
    · simp only at h
      obtain ⟨p, q, hp, hq, rfl⟩ := r.rep.dom id (by rw [h]; simp)
      have hh := r.rep.head
      have hm : ∃ m, m < 16 ∧ p = (c.t.head + m) % 16 :=
        ⟨(p + 16 - c.t.head) % 16, by omega, by omega⟩
      obtain ⟨m, hm1, rfl⟩ := hm
      obtain ⟨o, ret', ho, _, _, hg⟩ := timeout_spec cb (s := s) r (by omega) hi
      rw [hr] at ho; cases ho
      obtain ⟨_, _, _, _, _, hres⟩ := hg _ _ _ rfl
      refine hres m q _ (by unfold swept; omega) h ?_
      simp only
      rw [t1.now_eq]
      simp only
      exact hdue

/-- **C26.** In every reachable configuration and for every time, the value
`sc_timer_timeout` returns is at most one tick (16), and waiting that long never goes past
the next movement of the wheel, which is 16 after the timestamp the timer holds after the
call. -/
theorem timer_hint_bounded {cb : σ → Nat → Nat → Nat → Prog σ} {ts0 : Nat} {c : Cfg}
    {s : σ} {es : List Ev} (h : Reachable cb ts0 c s es) {ts : Nat} (h1 : c.t.timestamp ≤ ts)
    (h2 : ts < INVALID) :
    ∃ o ret, timeout cb ts c s = .ok (o, ret) ∧ ret ≤ 16 ∧
      ∀ c' s' es', o = some (c', s', es') → ts + ret ≤ c'.t.timestamp + 16 := by
  obtain ⟨live, r, _⟩ := h.rep
  obtain ⟨o, ret, ho, hret, hb, hg⟩ := timeout_spec cb (s := s) r h1 h2
  refine ⟨o, ret, ho, hret, ?_⟩
  intro c' s' es' h
  obtain ⟨_, _, _, hts, _⟩ := hg _ _ _ h
  rw [hts]; exact hb

/-! ## What the rules are for, and what the code does not promise -/

/-- A callback that does nothing. -/
def noop : Unit → Nat → Nat → Nat → Prog Unit := fun _ _ _ _ => .ret ()

/-- The events of a run. -/
def events : Res (Out σ) → Option (List Ev)
  | .ok (some (_, _, es)) => some es
  | _ => none

/-- The id a `sc_timer_add` returned and the cell of the table at `i`. -/
def added (i : Nat) : Res (T × Nat) → Option (Nat × Option Cell)
  | .ok (t, id) => some (id, t.list[i]?)
  | _ => none

/-- **C22**, outside the rules: if the deadline does not fit in 64 bits it wraps around. A
timer with the largest timeout, added at time 1000, gets deadline 999. -/
theorem timer_deadline_wraps_defect :
    added 60 (add (some fun _ => 0) (init 1000) INVALID 7 8) =
      some (15, some ⟨999, 7, 8⟩) := by
  decide +kernel

/-- **C25**, outside the rules: a deadline equal to `SC_TIMER_INVALID` makes the cell look
free, and the next timer gets the same id. -/
theorem timer_deadline_invalid_defect :
    added 0 (add (some fun _ => 0) (init 1023) (INVALID - 1023) 7 8) =
      some (0, some ⟨INVALID, 7, 8⟩) ∧
    added 0 (do
      let (t, _) ← add (some fun _ => 0) (init 1023) (INVALID - 1023) 7 8
      add none t (INVALID - 1023) 9 9) = some (0, some ⟨INVALID, 9, 9⟩) := by
  decide +kernel

/-- **C24.** A timer that is due need not fire in the first call after its deadline: with
timeout 16, called at time 31, the sweep covers one slot and the timer is in the next one. -/
theorem timer_due_not_fired_defect :
    events (run noop [.call fun s => .add (some fun _ => 0) 16 7 8 fun _ => .ret s,
      .timeout 31] ⟨init 0, []⟩ ()) = some [.add 16 7 8 1, .now 31] := by
  decide +kernel

/-- **C25.** Ids are reused: after a timer has fired, cancelling by its id hits the timer that
got the same id. -/
theorem timer_stale_id_defect :
    events (run noop [
        .call fun s => .add (some fun _ => 0) 0 7 8 fun _ => .ret s,
        .timeout 16,
        .call fun s => .add none 240 9 10 fun _ => .ret s,
        .call fun s => .cancel 0 (.ret s),
        .timeout 1000] ⟨init 0, []⟩ ()) =
      some [.add 0 7 8 0, .now 16, .fire 0 0 7 8, .add 240 9 10 0, .cancel 0, .now 1000] := by
  decide +kernel

/-! ## The hypotheses are met -/

/-- A callback that re-adds its timer with timeout 32 as often as its state says. -/
def again : Nat → Nat → Nat → Nat → Prog Nat := fun n _ ty d =>
  if n = 0 then .ret 0 else .add (some fun _ => 0) 32 ty d fun _ => .ret (n - 1)

example : events (run again [
      .call fun s => .add (some fun _ => 0) 5 1 2 fun _ => .ret s,
      .call fun s => .add none 40 3 4 fun _ => .ret s,
      .timeout 20, .timeout 400, .timeout 800] ⟨init 0, []⟩ 2) =
    some [.add 5 1 2 0, .add 40 3 4 2, .now 20, .fire 0 5 1 2, .add 32 1 2 3, .now 400,
      .fire 2 40 3 4, .add 32 3 4 (mkid 1 3), .fire 3 52 1 2, .now 800,
      .fire (mkid 1 3) 432 3 4] := by
  decide +kernel

end Verif.Timer
