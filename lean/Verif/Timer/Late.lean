import Verif.Timer.Props

/-! # How late and how early a timer fires, in terms of the times given to `sc_timer_timeout`

The timer keeps the time of the last call that moved the wheel, not the latest time it was given. -/

namespace Verif.Timer

open Spec

/-- The latest time given to the timer -/
def latest (l : Nat) : List (Op σ) → Nat
  | [] => l
  | .timeout ts :: ops => latest ts ops
  | _ :: ops => latest l ops

/-- The time between calls that move the wheel that is not a whole number of ticks, or more than a revolution -/
def lost (now : Nat) : List (Op σ) → Nat
  | [] => 0
  | .timeout ts :: ops =>
    if swept now ts = 0 then lost now ops else (ts - now - 16 * swept now ts) + lost ts ops
  | _ :: ops => lost now ops

/-- Every call comes at most `g` after the one before. -/
def Often (g l : Nat) : List (Op σ) → Prop
  | [] => True
  | .timeout ts :: ops => ts ≤ l + g ∧ Often g ts ops
  | _ :: ops => Often g l ops

/-- The first operation of a run, and the others -/
theorem run_cons {cb : σ → Nat → Nat → Nat → Prog σ} {op : Op σ} {ops : List (Op σ)} {c c' : Cfg} {s s' : σ} {es : List Ev}
    (h : run cb (op :: ops) c s = .ok (some (c', s', es))) :
    ∃ c1 s1 es1 es2, step cb c s op = .ok (some (c1, s1, es1)) ∧ run cb ops c1 s1 = .ok (some (c', s', es2)) ∧ es = es1 ++ es2 := by
  rw [run] at h
  obtain ⟨o, ho, h⟩ := Res.bind_eq_ok.1 h
  cases o with
  | none => simp at h
  | some v =>
    obtain ⟨c1, s1, es1⟩ := v
    simp only at h
    unfold pre at h
    obtain ⟨o2, ho2, h2⟩ := Res.bind_eq_ok.1 h
    cases o2 with
    | none => cases h2
    | some v2 => obtain ⟨a, b, es2⟩ := v2; cases h2; exact ⟨c1, s1, es1, es2, ho, ho2, rfl⟩

/-- What an operation does to the time that is kept -/
theorem step_stamp {cb : σ → Nat → Nat → Nat → Prog σ} {op : Op σ} {c c' : Cfg} {live : Nat → Option Entry} {s s' : σ} {es : List Ev}
    (r : RepC c live) (h : step cb c s op = .ok (some (c', s', es))) :
    (∃ live', RepC c' live') ∧
    ((∃ ts, op = .timeout ts ∧ c.t.timestamp ≤ ts ∧
      c'.t.timestamp = if swept c.t.timestamp ts = 0 then c.t.timestamp else ts) ∨
     ((∀ ts, op ≠ .timeout ts) ∧ c'.t.timestamp = c.t.timestamp)) := by
  obtain ⟨o, ho, hg⟩ := step_spec cb (s := s) r op
  rw [h] at ho; cases ho
  obtain ⟨live', _, r'⟩ := hg _ _ _ rfl
  refine ⟨⟨live', r'⟩, ?_⟩
  cases op with
  | call p =>
    obtain ⟨o', ho', hg⟩ := exec_spec (p s) r
    rw [step, ho'] at h; cases h
    obtain ⟨live1, g⟩ := hg _ _ _ rfl
    exact Or.inr ⟨by simp, g.ts⟩
  | term => rw [step] at h; cases h; exact Or.inr ⟨by simp, rfl⟩
  | timeout ts =>
    rw [step] at h
    split at h
    · next hg =>
      obtain ⟨o', ret, ho', _, _, hg'⟩ := timeout_spec cb (s := s) r hg.1 hg.2
      rw [ho'] at h; cases h
      obtain ⟨live1, t1, r1, hts, _⟩ := hg' _ _ _ rfl
      exact Or.inl ⟨ts, rfl, hg.1, hts⟩
    · cases h

/-- The time that is kept is less than a tick behind the latest time. -/
theorem run_lag {cb : σ → Nat → Nat → Nat → Prog σ} (ops : List (Op σ)) : ∀ {c c' : Cfg} {live : Nat → Option Entry} {s s' : σ} {es : List Ev}
    {l : Nat}, RepC c live → run cb ops c s = .ok (some (c', s', es)) → c.t.timestamp ≤ l → l < c.t.timestamp + 16 →
    c'.t.timestamp ≤ latest l ops ∧ latest l ops < c'.t.timestamp + 16 := by
  induction ops with
  | nil => intro c c' live s s' es l _ h h1 h2; rw [run] at h; cases h; exact ⟨h1, h2⟩
  | cons op ops ih =>
    intro c c' live s s' es l r h h1 h2
    obtain ⟨c1, s1, es1, es2, hs, hr, rfl⟩ := run_cons h
    obtain ⟨⟨live', r'⟩, hst⟩ := step_stamp r hs
    rcases hst with ⟨ts, rfl, h3, h4⟩ | ⟨hne, h4⟩
    · rw [latest]
      refine ih r' hr ?_ ?_ <;> rw [h4] <;> unfold swept <;> split <;> omega
    · have : latest l (op :: ops) = latest l ops := by
        cases op with
        | timeout ts => exact absurd rfl (hne ts)
        | _ => rfl
      rw [this]
      exact ih r' hr (by omega) (by omega)

/-- The time that is kept has moved by the ticks that were swept and the time that was lost. -/
theorem run_lost {cb : σ → Nat → Nat → Nat → Prog σ} (ops : List (Op σ)) : ∀ {c c' : Cfg} {live : Nat → Option Entry} {s s' : σ} {es : List Ev},
    RepC c live → run cb ops c s = .ok (some (c', s', es)) →
    c'.t.timestamp = c.t.timestamp + 16 * sweeps c.t.timestamp ops + lost c.t.timestamp ops := by
  induction ops with
  | nil => intro c c' live s s' es _ h; rw [run] at h; cases h; simp [sweeps, lost]
  | cons op ops ih =>
    intro c c' live s s' es r h
    obtain ⟨c1, s1, es1, es2, hs, hr, rfl⟩ := run_cons h
    obtain ⟨⟨live', r'⟩, hst⟩ := step_stamp r hs
    have := ih r' hr
    rcases hst with ⟨ts, rfl, h3, h4⟩ | ⟨hne, h4⟩
    · rw [sweeps, lost]
      have hsw : 16 * swept c.t.timestamp ts ≤ ts - c.t.timestamp := by unfold swept; omega
      by_cases h0 : swept c.t.timestamp ts = 0
      · rw [if_pos h0] at h4
        rw [if_pos h0, if_pos h0, h0]
        rw [h4] at this
        omega
      · rw [if_neg h0] at h4
        rw [if_neg h0, if_neg h0]
        rw [h4] at this
        omega
    · have e1 : sweeps c.t.timestamp (op :: ops) = sweeps c.t.timestamp ops := by
        cases op with
        | timeout ts => exact absurd rfl (hne ts)
        | _ => rfl
      have e2 : lost c.t.timestamp (op :: ops) = lost c.t.timestamp ops := by
        cases op with
        | timeout ts => exact absurd rfl (hne ts)
        | _ => rfl
      rw [e1, e2, ← h4]
      exact this

/-- If calls are made often, a sweep does not take long. -/
theorem run_often {cb : σ → Nat → Nat → Nat → Prog σ} {g : Nat} (ops : List (Op σ)) : ∀ {c c' : Cfg} {live : Nat → Option Entry} {s s' : σ}
    {es : List Ev} {l : Nat}, RepC c live → run cb ops c s = .ok (some (c', s', es)) → c.t.timestamp ≤ l → l < c.t.timestamp + 16 →
    Often g l ops → c'.t.timestamp ≤ c.t.timestamp + (g + 15) * sweeps c.t.timestamp ops := by
  induction ops with
  | nil => intro c c' live s s' es l _ h _ _ _; rw [run] at h; cases h; simp [sweeps]
  | cons op ops ih =>
    intro c c' live s s' es l r h h1 h2 ho
    obtain ⟨c1, s1, es1, es2, hs, hr, rfl⟩ := run_cons h
    obtain ⟨⟨live', r'⟩, hst⟩ := step_stamp r hs
    rcases hst with ⟨ts, rfl, h3, h4⟩ | ⟨hne, h4⟩
    · rw [sweeps]
      by_cases h0 : swept c.t.timestamp ts = 0
      · rw [if_pos h0] at h4
        rw [if_pos h0, h0, Nat.zero_add]
        have := ih r' hr (l := ts) (by omega) (by unfold swept at h0; omega) ho.2
        rw [h4] at this
        exact this
      · rw [if_neg h0] at h4
        rw [if_neg h0]
        have := ih r' hr (l := ts) (by omega) (by omega) ho.2
        rw [h4] at this
        have h5 := ho.1
        have h6 : g + 15 ≤ (g + 15) * swept c.t.timestamp ts := Nat.le_mul_of_pos_right _ (by omega)
        rw [Nat.mul_add]
        omega
    · have e1 : sweeps c.t.timestamp (op :: ops) = sweeps c.t.timestamp ops := by
        cases op with
        | timeout ts => exact absurd rfl (hne ts)
        | _ => rfl
      have e2 : Often g l ops := by
        cases op with
        | timeout ts => exact absurd rfl (hne ts)
        | _ => exact ho
      rw [e1, ← h4]
      exact ih r' hr (by omega) (by omega) e2

/-- Time does not go back. -/
theorem Spec.Trace.mono {S S' : State} {es : List Ev} (h : Trace S es S') : S.now ≤ S'.now := by
  induction h <;> simp_all
  omega

/-- **C126 (part).** The time a timeout counts from is at most 15 ms before the latest time given to the timer, and not after it.
Missing: that it is the latest time. -/
theorem timer_base_partial {cb : σ → Nat → Nat → Nat → Prog σ} {ts0 : Nat} (h0 : ts0 < INVALID) {ops : List (Op σ)} {c : Cfg} {s0 s : σ}
    {es : List Ev} (hr : run cb ops ⟨init ts0, []⟩ s0 = .ok (some (c, s, es))) {p : σ → Prog σ} {c' : Cfg} {s' : σ} {es' : List Ev}
    (hp : step cb c s (.call p) = .ok (some (c', s', es'))) {es1 es2 : List Ev} {T ty d id : Nat} (he : es' = es1 ++ .add T ty d id :: es2)
    (hn : ¬ Resolved es2 id) {ops' : List (Op σ)} {c'' : Cfg} {s'' : σ} {es'' : List Ev}
    (hr' : run cb ops' c' s' = .ok (some (c'', s'', es''))) {es3 es4 : List Ev} {D ty' d' : Nat}
    (hf : es'' = es3 ++ .fire id D ty' d' :: es4) (hn3 : ¬ Resolved es3 id) :
    D ≤ latest ts0 ops + T ∧ latest ts0 ops + T ≤ D + 15 ∧ ty' = ty ∧ d' = d ∧ D ≤ nowAfter c'.t.timestamp es3 := by
  obtain ⟨o, ho, hg⟩ := run_spec cb ops (s := s0) (repC_init h0)
  rw [hr] at ho; cases ho
  obtain ⟨live, _, r⟩ := hg _ _ _ rfl
  have hlag := run_lag ops (repC_init h0) hr (l := ts0) (Nat.le_refl _) (by simp [init])
  rw [step] at hp
  obtain ⟨o', ho', hg'⟩ := exec_spec (p s) r
  rw [hp] at ho'; cases ho'
  obtain ⟨live1, g⟩ := hg' _ _ _ rfl
  subst he
  obtain ⟨S1, t1, t2⟩ := g.tr.split
  have hnow : S1.now = c.t.timestamp := by
    have h1 := t1.mono
    have h2 := t2.mono
    have h3 := g.ts
    simp only at h1 h2
    omega
  cases t2 with
  | add hne hl t3 =>
    rcases t3.persist (id := id) (e := ⟨S1.now + T, ty, d⟩) (by simp [upd]) with h | h
    · exact absurd h hn
    · simp only at h
      obtain ⟨o2, ho2, hg2⟩ := run_spec cb ops' (s := s') g.rep
      rw [hr'] at ho2; cases ho2
      obtain ⟨live2, t4, _⟩ := hg2 _ _ _ rfl
      subst hf
      obtain ⟨S2, t5, t6⟩ := t4.split
      rcases t5.persist h with h' | h'
      · exact absurd h' hn3
      · have hnow2 := t5.now_eq
        cases t6 with
        | fire h7 h8 _ =>
          rw [h'] at h7
          cases h7
          simp only at h8 hnow2 ⊢
          rw [hnow2] at h8
          refine ⟨?_, ?_, trivial, trivial, h8⟩ <;> omega

/-- **C126 is violated**: the timer is given the time 15 and then a timeout of 15, and the callback runs at 16. -/
theorem timer_base_violated :
    events (run noop [.timeout 15, .call fun s => .add (some fun _ => 0) 15 7 8 fun _ => .ret s, .timeout 16] ⟨init 0, []⟩ ()) =
      some [.add 15 7 8 0, .now 16, .fire 0 15 7 8] := by
  decide +kernel

/-- A timer that was added -/
theorem added_rep {c : Cfg} {live : Nat → Option Entry} (r : RepC c live) {al : Alloc Nat} {T ty d id : Nat} {t' : Timer.T}
    (hT : T + c.t.timestamp < INVALID) (hadd : add al c.t T ty d = .ok (t', id)) (hid : id ≠ INVALID) :
    t'.timestamp = c.t.timestamp ∧ ∃ live', RepC ⟨t', id :: c.issued⟩ live' ∧ live' id = some ⟨c.t.timestamp + T, ty, d⟩ := by
  rcases add_spec r.rep al hT (type := ty) (data := d) with h1 | ⟨t1, q, h1, hl, r', hs, hw, hh, hts⟩
  · rw [h1] at hadd; cases hadd; exact absurd rfl hid
  · rw [h1] at hadd; cases hadd
    refine ⟨hts, upd live (mkid q ((T / 16 + c.t.head) % 16)) (some ⟨c.t.timestamp + T, ty, d⟩), ⟨r', ?_⟩, by simp [upd]⟩
    intro id hid
    rcases List.mem_cons.1 hid with rfl | hid
    · exact ⟨_, q, by omega, hs, rfl⟩
    · obtain ⟨p', s', h1, h2, h3⟩ := r.issued id hid
      exact ⟨p', s', h1, by simp only; omega, h3⟩

/-- **C125 (part).** A timer has been dealt with once a time has been given to `sc_timer_timeout` that is a tick and the time
that calls have lost after its deadline: if the program always calls a whole number of ticks, at most 16, after the call before, it is less
than a tick late. Missing: calls that come at other times. -/
theorem timer_late_partial {cb : σ → Nat → Nat → Nat → Prog σ} {ts0 : Nat} (h0 : ts0 < INVALID) {ops0 : List (Op σ)} {c : Cfg} {s0 s : σ}
    {es0 : List Ev} (hr0 : run cb ops0 ⟨init ts0, []⟩ s0 = .ok (some (c, s, es0))) {al : Alloc Nat} {T ty d id : Nat} {t' : Timer.T}
    (hT : T + c.t.timestamp < INVALID) (hadd : add al c.t T ty d = .ok (t', id)) (hid : id ≠ INVALID) {ops : List (Op σ)}
    {c' : Cfg} {s' : σ} {es : List Ev} (hr : run cb ops ⟨t', id :: c.issued⟩ s = .ok (some (c', s', es)))
    (hl : c.t.timestamp + T + lost c.t.timestamp ops + 16 ≤ latest (latest ts0 ops0) ops) : Resolved es id := by
  obtain ⟨o, ho, hg⟩ := run_spec cb ops0 (s := s0) (repC_init h0)
  rw [hr0] at ho; cases ho
  obtain ⟨live, _, r⟩ := hg _ _ _ rfl
  have hlag := run_lag ops0 (repC_init h0) hr0 (l := ts0) (Nat.le_refl _) (by simp [init])
  obtain ⟨hts, live', r', _⟩ := added_rep r hT hadd hid
  have h1 := run_lag ops r' hr (l := latest ts0 ops0) (by simp only; omega) (by simp only; omega)
  have h2 := run_lost ops r' hr
  simp only [hts] at h2
  exact timer_fires_when_swept ⟨ops0, s0, h0, hr0⟩ al hT hadd hid (ops := ops) (by omega) hr

/-- If calls are made often, a pending timer fires in a bounded time. -/
theorem due_often {cb : σ → Nat → Nat → Nat → Prog σ} {g : Nat} (ops : List (Op σ)) : ∀ {c c' : Cfg} {live : Nat → Option Entry} {s s' : σ}
    {es : List Ev} {l id : Nat} {e : Entry}, RepC c live → run cb ops c s = .ok (some (c', s', es)) → c.t.timestamp ≤ l →
    l < c.t.timestamp + 16 → Often g l ops → live id = some e → c.t.timestamp ≤ e.deadline + g + 14 →
    e.deadline + 16 * (g + 16) ≤ latest l ops → Resolved es id := by
  induction ops with
  | nil => intro c c' live s s' es l id e _ h h1 h2 ho hl hc hd; rw [latest] at hd; omega
  | cons op ops ih =>
    intro c c' live s s' es l id e r h h1 h2 ho hl hc hd
    by_cases hdue : e.deadline ≤ c.t.timestamp
    · have h3 := run_lag _ r h h1 h2
      have h4 := run_often _ r h h1 h2 ho
      obtain ⟨p, q, hp, hq, rfl⟩ := r.rep.dom id (by rw [hl]; simp)
      have hh := r.rep.head
      have hm : ∃ m, m < 16 ∧ p = (c.t.head + m) % 16 := ⟨(p + 16 - c.t.head) % 16, by omega, by omega⟩
      obtain ⟨m, hm1, rfl⟩ := hm
      refine fires_after cb _ r hl (by omega) (Nat.lt_of_lt_of_le hm1 ?_) h
      generalize sweeps c.t.timestamp (op :: ops) = n at h4
      by_cases hn : 16 ≤ n
      · exact hn
      · have : (g + 15) * n ≤ (g + 15) * 15 := Nat.mul_le_mul_left _ (by omega)
        omega
    · obtain ⟨c1, s1, es1, es2, hs, hr, rfl⟩ := run_cons h
      obtain ⟨o, ho', hg⟩ := step_spec cb (s := s) r op
      rw [hs] at ho'; cases ho'
      obtain ⟨live', t1, r'⟩ := hg _ _ _ rfl
      obtain ⟨_, hst⟩ := step_stamp r hs
      rcases t1.persist hl with h5 | h5
      · exact h5.left
      · simp only at h5
        refine Resolved.right ?_
        rcases hst with ⟨ts, rfl, h3, h4⟩ | ⟨hne, h4⟩
        · have h6 := ho.1
          rw [latest] at hd
          refine ih r' hr ?_ ?_ ho.2 h5 ?_ hd <;> rw [h4] <;> unfold swept <;> split <;> omega
        · have e1 : latest l (op :: ops) = latest l ops := by
            cases op with
            | timeout ts => exact absurd rfl (hne ts)
            | _ => rfl
          have e2 : Often g l ops := by
            cases op with
            | timeout ts => exact absurd rfl (hne ts)
            | _ => exact ho
          rw [e1] at hd
          exact ih r' hr (by omega) (by omega) e2 h5 (by omega) hd

/-- **C125 (part).** If every call comes at most `g` after the one before, a timer has been dealt with when a time has been given that is
`16 * (g + 16)` after its deadline. -/
theorem timer_late_bound_partial {cb : σ → Nat → Nat → Nat → Prog σ} {ts0 : Nat} (h0 : ts0 < INVALID) {ops0 : List (Op σ)} {c : Cfg} {s0 s : σ}
    {es0 : List Ev} (hr0 : run cb ops0 ⟨init ts0, []⟩ s0 = .ok (some (c, s, es0))) {al : Alloc Nat} {T ty d id : Nat} {t' : Timer.T}
    (hT : T + c.t.timestamp < INVALID) (hadd : add al c.t T ty d = .ok (t', id)) (hid : id ≠ INVALID) {ops : List (Op σ)}
    {c' : Cfg} {s' : σ} {es : List Ev} (hr : run cb ops ⟨t', id :: c.issued⟩ s = .ok (some (c', s', es))) {g : Nat}
    (ho : Often g (latest ts0 ops0) ops) (hl : c.t.timestamp + T + 16 * (g + 16) ≤ latest (latest ts0 ops0) ops) : Resolved es id := by
  obtain ⟨o, ho', hg⟩ := run_spec cb ops0 (s := s0) (repC_init h0)
  rw [hr0] at ho'; cases ho'
  obtain ⟨live, _, r⟩ := hg _ _ _ rfl
  have hlag := run_lag ops0 (repC_init h0) hr0 (l := ts0) (Nat.le_refl _) (by simp [init])
  obtain ⟨hts, live', r', hlive⟩ := added_rep r hT hadd hid
  exact due_often ops r' hr (by simp only; omega) (by simp only; omega) ho hlive (by simp only; omega) hl

/-- Calls at the multiples of 31 -/
def every31 (n : Nat) : List (Op Unit) := (List.range n).map fun i => .timeout (31 * (i + 1))

/-- **C125 is violated**: if the program calls every 31 ms, a timer of 240 ms that is due in the eighth call fires in the sixteenth,
256 ms late. -/
theorem timer_late_violated :
    (∃ es, events (run noop ((.call fun s => .add (some fun _ => 0) 240 7 8 fun _ => .ret s) :: every31 15) ⟨init 0, []⟩ ()) = some es ∧
      latest 0 (every31 15) = 465 ∧ ¬ Resolved es 15) ∧
    ∃ es, events (run noop ((.call fun s => .add (some fun _ => 0) 240 7 8 fun _ => .ret s) :: every31 16) ⟨init 0, []⟩ ()) =
      some (es ++ [.now 496, .fire 15 240 7 8]) := by
  refine ⟨⟨.add 240 7 8 15 :: (List.range 15).map fun i => .now (31 * (i + 1)), by decide +kernel, by decide +kernel, ?_⟩,
    ⟨.add 240 7 8 15 :: (List.range 15).map fun i => .now (31 * (i + 1)), by decide +kernel⟩⟩
  rintro (⟨d, ty, dat, h⟩ | h | h) <;> simp at h

/-! ## An example

Calls every 16 ms lose no time. -/

example : lost 0 ((List.range 20).map fun i => (.timeout (16 * (i + 1)) : Op Unit)) = 0 := by decide +kernel

example : lost 0 (every31 15) = 225 ∧ Often 31 0 (every31 15) := by
  refine ⟨by decide +kernel, ?_⟩
  simp [every31, Often, List.range, List.range.loop]

/-- The timer of 240 ms fires at 256 then. -/
example : ∃ es, events (run noop ((.call fun s => .add (some fun _ => 0) 240 7 8 fun _ => .ret s) ::
    (List.range 16).map fun i => .timeout (16 * (i + 1))) ⟨init 0, []⟩ ()) = some (es ++ [.now 256, .fire 15 240 7 8]) :=
  ⟨.add 240 7 8 15 :: (List.range 15).map fun i => .now (16 * (i + 1)), by decide +kernel⟩

end Verif.Timer
