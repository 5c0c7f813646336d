import Verif.Timer.Late

/-! # An event loop that waits as long as the timer says

The use `sc_timer.h` has in mind: the program waits in `poll` for the number of milliseconds `sc_timer_timeout` returned, works, and calls
`sc_timer_timeout` again. -/

namespace Verif.Timer

open Spec

/-- An event loop. `w` is the time until which it was told to wait: the time of the last call of `sc_timer_timeout` and what that call returned.
`R w ts` says when the next call comes; the first call, before which there
is none, may be waited for a tick. Between the calls the program adds and cancels timers as it likes. -/
inductive Loop (cb : σ → Nat → Nat → Nat → Prog σ) (R : Nat → Nat → Prop) :
    Cfg → σ → Nat → List (Op σ) → Cfg → σ → Nat → List Ev → Prop
  | stop {c : Cfg} {s : σ} {w : Nat} : Loop cb R c s w [] c s w []
  | work {c c1 c' : Cfg} {s s1 s' : σ} {w w' : Nat} {ops : List (Op σ)} {es1 es : List Ev} {p : σ → Prog σ} :
    exec (p s) c = .ok (some (c1, s1, es1)) → Loop cb R c1 s1 w ops c' s' w' es → Loop cb R c s w (.call p :: ops) c' s' w' (es1 ++ es)
  | wake {c c1 c' : Cfg} {s s1 s' : σ} {w w' : Nat} {ops : List (Op σ)} {es1 es : List Ev} {ts ret : Nat} :
    c.t.timestamp ≤ ts → ts < INVALID → R w ts → timeout cb ts c s = .ok (some (c1, s1, es1), ret) →
    Loop cb R c1 s1 (ts + ret) ops c' s' w' es → Loop cb R c s w (.timeout ts :: ops) c' s' w' (es1 ++ es)

/-- No wait takes more than `δ` longer than it should: it may also end early, because something else happened. -/
def InTime (δ w ts : Nat) : Prop := ts ≤ w + δ

/-- Every wait is as long as it should be, or longer. -/
def Waited (w ts : Nat) : Prop := w ≤ ts

/-- The first operation in front of a run -/
theorem run_of_cons {cb : σ → Nat → Nat → Nat → Prog σ} {op : Op σ} {ops : List (Op σ)} {c c1 c' : Cfg} {s s1 s' : σ} {es1 es : List Ev}
    (h1 : step cb c s op = .ok (some (c1, s1, es1))) (h2 : run cb ops c1 s1 = .ok (some (c', s', es))) :
    run cb (op :: ops) c s = .ok (some (c', s', es1 ++ es)) := by
  rw [run, h1]
  show pre es1 (run cb ops c1 s1) = _
  rw [h2]; rfl

/-- A loop is a history. -/
theorem Loop.run {cb : σ → Nat → Nat → Nat → Prog σ} {R : Nat → Nat → Prop} {c c' : Cfg} {s s' : σ} {w w' : Nat} {ops : List (Op σ)}
    {es : List Ev} (h : Loop cb R c s w ops c' s' w' es) : run cb ops c s = .ok (some (c', s', es)) := by
  induction h with
  | stop => rfl
  | work h1 _ ih => exact run_of_cons (by rw [step]; exact h1) ih
  | wake h1 h2 _ h4 _ ih => exact run_of_cons (by rw [step, if_pos ⟨h1, h2⟩, h4]; rfl) ih

/-- What a call of `sc_timer_timeout` does to the time that is kept, and what it returns -/
theorem timeout_stamp {cb : σ → Nat → Nat → Nat → Prog σ} {c c' : Cfg} {live : Nat → Option Entry} {s s' : σ} {ts ret : Nat} {es : List Ev}
    (r : RepC c live) (h1 : c.t.timestamp ≤ ts) (h2 : ts < INVALID) (h : timeout cb ts c s = .ok (some (c', s', es), ret)) :
    (∃ live', RepC c' live') ∧ (c'.t.timestamp = if swept c.t.timestamp ts = 0 then c.t.timestamp else ts) ∧
    ts + ret ≤ c'.t.timestamp + 16 ∧ ret = hint (ts - c.t.timestamp) := by
  obtain ⟨o, ret', ho, _, hb, hg⟩ := timeout_spec cb (s := s) r h1 h2
  have ho' := ho
  rw [h] at ho; cases ho
  obtain ⟨live', _, r', hts, _⟩ := hg _ _ _ rfl
  refine ⟨⟨live', r'⟩, hts, by rw [hts]; exact hb, ?_⟩
  have htime : sub64 ts c.t.timestamp = ts - c.t.timestamp := by unfold sub64; omega
  unfold timeout at h
  rw [htime] at h
  simp only at h
  generalize (if (ts - c.t.timestamp) / TICK < WHEEL_COUNT then (ts - c.t.timestamp) / TICK else WHEEL_COUNT) % W32 = n at h
  split at h
  · cases h; rfl
  · obtain ⟨_, _, h⟩ := Res.bind_eq_ok.1 h
    cases h; rfl

/-- The time to which the loop waits is at most a tick after the time that is kept. -/
theorem Loop.wait {cb : σ → Nat → Nat → Nat → Prog σ} {R : Nat → Nat → Prop} {c c' : Cfg} {s s' : σ} {w w' : Nat} {ops : List (Op σ)}
    {es : List Ev} (h : Loop cb R c s w ops c' s' w' es) : ∀ {live : Nat → Option Entry}, RepC c live → w ≤ c.t.timestamp + 16 →
    (∃ live', RepC c' live') ∧ w' ≤ c'.t.timestamp + 16 := by
  induction h with
  | stop => intro live r hw; exact ⟨⟨live, r⟩, hw⟩
  | work h1 _ ih =>
    intro live r hw
    obtain ⟨o, ho, hg⟩ := exec_spec _ r
    rw [h1] at ho; cases ho
    obtain ⟨live1, g⟩ := hg _ _ _ rfl
    exact ih g.rep (by rw [g.ts]; exact hw)
  | wake h1 h2 _ h4 _ ih =>
    intro live r hw
    obtain ⟨⟨live', r'⟩, _, hb, _⟩ := timeout_stamp r h1 h2 h4
    exact ih r' hb

/-- In a loop that is in time, a sweep takes at most a tick and `δ`. -/
theorem Loop.swept {cb : σ → Nat → Nat → Nat → Prog σ} {δ : Nat} {c c' : Cfg} {s s' : σ} {w w' : Nat} {ops : List (Op σ)}
    {es : List Ev} (h : Loop cb (InTime δ) c s w ops c' s' w' es) : ∀ {live : Nat → Option Entry}, RepC c live → w ≤ c.t.timestamp + 16 →
    c'.t.timestamp ≤ c.t.timestamp + (16 + δ) * sweeps c.t.timestamp ops := by
  induction h with
  | stop => intro live r hw; simp [sweeps]
  | work h1 _ ih =>
    intro live r hw
    obtain ⟨o, ho, hg⟩ := exec_spec _ r
    rw [h1] at ho; cases ho
    obtain ⟨live1, g⟩ := hg _ _ _ rfl
    have := ih g.rep (by rw [g.ts]; exact hw)
    rw [← g.ts]
    exact this
  | @wake c c1 c' s s1 s' w w' ops es1 es ts ret h1 h2 h3 h4 _ ih =>
    intro live r hw
    obtain ⟨⟨live', r'⟩, hts, hb, _⟩ := timeout_stamp r h1 h2 h4
    have := ih r' hb
    rw [sweeps, ← hts, Nat.mul_add]
    by_cases h0 : Timer.swept c.t.timestamp ts = 0
    · rw [if_pos h0] at hts; omega
    · rw [if_neg h0] at hts
      have h6 : 16 + δ ≤ (16 + δ) * Timer.swept c.t.timestamp ts := Nat.le_mul_of_pos_right _ (by omega)
      unfold InTime at h3
      omega

/-- A pending timer in a loop that is in time -/
theorem Loop.due {cb : σ → Nat → Nat → Nat → Prog σ} {δ : Nat} {c c' : Cfg} {s s' : σ} {w w' : Nat} {ops : List (Op σ)}
    {es : List Ev} (h : Loop cb (InTime δ) c s w ops c' s' w' es) : ∀ {live : Nat → Option Entry} {l id : Nat} {e : Entry}, RepC c live →
    w ≤ c.t.timestamp + 16 → c.t.timestamp ≤ l → l < c.t.timestamp + 16 → live id = some e → c.t.timestamp ≤ e.deadline + 16 + δ →
    e.deadline + 16 * (17 + δ) ≤ latest l ops → Resolved es id := by
  induction h with
  | stop => intro live l id e r hw h1 h2 hl hc hd; rw [latest] at hd; omega
  | @work c c1 c' s s1 s' w w' ops es1 es p h1 _ ih =>
    intro live l id e r hw h2 h3 hl hc hd
    obtain ⟨o, ho, hg⟩ := exec_spec _ r
    rw [h1] at ho; cases ho
    obtain ⟨live1, g⟩ := hg _ _ _ rfl
    have hts := g.ts
    rcases g.tr.persist hl with h5 | h5
    · exact h5.left
    · exact Resolved.right (ih g.rep (by omega) (by omega) (by omega) h5 (by omega) hd)
  | @wake c c1 c' s s1 s' w w' ops es1 es ts ret h1 h2 h3 h4 hl' ih =>
    intro live l id e r hw h5 h6 hl hc hd
    by_cases hdue : e.deadline ≤ c.t.timestamp
    · have hL := Loop.wake h1 h2 h3 h4 hl'
      have h7 := run_lag _ r hL.run h5 h6
      have h8 := hL.swept r hw
      obtain ⟨p, q, hp, hq, rfl⟩ := r.rep.dom id (by rw [hl]; simp)
      have hh := r.rep.head
      have hm : ∃ m, m < 16 ∧ p = (c.t.head + m) % 16 := ⟨(p + 16 - c.t.head) % 16, by omega, by omega⟩
      obtain ⟨m, hm1, rfl⟩ := hm
      refine fires_after cb _ r hl (by omega) (Nat.lt_of_lt_of_le hm1 ?_) hL.run
      generalize sweeps c.t.timestamp (.timeout ts :: ops) = n at h8
      by_cases hn : 16 ≤ n
      · exact hn
      · have : (16 + δ) * n ≤ (16 + δ) * 15 := Nat.mul_le_mul_left _ (by omega)
        omega
    · obtain ⟨o, ret', ho, _, hb, hg⟩ := timeout_spec cb (s := s) r h1 h2
      rw [h4] at ho; cases ho
      obtain ⟨live', t1, r', hts, _⟩ := hg _ _ _ rfl
      rcases t1.persist hl with h7 | h7
      · exact h7.left
      · unfold InTime at h3
        rw [← hts] at hb
        refine Resolved.right (ih r' hb (l := ts) ?_ ?_ h7 ?_ hd) <;> rw [hts] <;> unfold Timer.swept <;> split <;> omega

/-- **C144 (part).** If no wait takes more than `δ` longer than `sc_timer_timeout` said, a timer that is added with a timeout of `T` has been
dealt with when a time has been given that is a tick, and `δ` for each whole tick of `T`, after its deadline: if the waits are exact, it is at
most a tick late. Missing: that the delays do not add up. -/
theorem timer_loop_partial {cb : σ → Nat → Nat → Nat → Prog σ} {ts0 δ : Nat} (h0 : ts0 < INVALID) {ops0 : List (Op σ)} {c : Cfg} {s0 s : σ}
    {w : Nat} {es0 : List Ev} (hr0 : Loop cb (InTime δ) ⟨init ts0, []⟩ s0 (ts0 + 16) ops0 c s w es0) {al : Alloc Nat} {T ty d id : Nat}
    {t' : Timer.T} (hT : T + c.t.timestamp < INVALID) (hadd : add al c.t T ty d = .ok (t', id)) (hid : id ≠ INVALID) {ops : List (Op σ)}
    {c' : Cfg} {s' : σ} {w' : Nat} {es : List Ev} (hr : Loop cb (InTime δ) ⟨t', id :: c.issued⟩ s w ops c' s' w' es)
    (hl : c.t.timestamp + T + 16 + δ * (T / 16) ≤ latest (latest ts0 ops0) ops) : Resolved es id := by
  obtain ⟨⟨live, r⟩, hw⟩ := hr0.wait (repC_init h0) (by simp [init])
  have hlag := run_lag ops0 (repC_init h0) hr0.run (l := ts0) (Nat.le_refl _) (by simp [init])
  obtain ⟨hts, live', r', _⟩ := added_rep r hT hadd hid
  have h1 := run_lag ops r' hr.run (l := latest ts0 ops0) (by simp only; omega) (by simp only; omega)
  have h2 := hr.swept r' (by simp only; omega)
  simp only [hts] at h2
  refine timer_fires_when_swept ⟨ops0, s0, h0, hr0.run⟩ al hT hadd hid (ops := ops) ?_ hr.run
  by_cases h3 : T / 16 < sweeps c.t.timestamp ops
  · exact h3
  · have h4 : (16 + δ) * sweeps c.t.timestamp ops ≤ (16 + δ) * (T / 16) := Nat.mul_le_mul_left _ (by omega)
    rw [Nat.add_mul (n := 16) (m := δ) (k := T / 16)] at h4
    omega

/-- What is added in an operation is pending after it, if it was not dealt with. -/
theorem Spec.Trace.added {S S' : State} {es1 es2 : List Ev} {T ty d id : Nat} (h : Trace S (es1 ++ .add T ty d id :: es2) S') :
    Resolved es2 id ∨ (S'.live id = some ⟨nowAfter S.now es1 + T, ty, d⟩ ∧ S.now ≤ nowAfter S.now es1) := by
  obtain ⟨S1, t1, t2⟩ := h.split
  have h1 := t1.now_eq
  have h2 := t1.mono
  cases t2 with
  | add hne hl t3 =>
    rcases t3.persist (id := id) (e := ⟨S1.now + T, ty, d⟩) (by simp [upd]) with h | h
    · exact Or.inl h
    · exact Or.inr ⟨by rw [h, h1], by omega⟩

/-- The time after more events -/
theorem nowAfter_append (es1 es2 : List Ev) : ∀ n, nowAfter n (es1 ++ es2) = nowAfter (nowAfter n es1) es2 := by
  induction es1 with
  | nil => intro n; rfl
  | cons e es1 ih => intro n; cases e <;> exact ih _

/-- What is added in a loop, also by a callback -/
theorem Loop.added {cb : σ → Nat → Nat → Nat → Prog σ} {δ : Nat} {c c' : Cfg} {s s' : σ} {w w' : Nat} {ops : List (Op σ)}
    {es : List Ev} (h : Loop cb (InTime δ) c s w ops c' s' w' es) : ∀ {live : Nat → Option Entry} {l T ty d id : Nat} {es1 es2 : List Ev},
    RepC c live → w ≤ c.t.timestamp + 16 → c.t.timestamp ≤ l → l < c.t.timestamp + 16 → es = es1 ++ .add T ty d id :: es2 →
    nowAfter c.t.timestamp es1 + T + 16 * (17 + δ) ≤ latest l ops → Resolved es2 id := by
  induction h with
  | stop => intro live l T ty d id es1 es2 _ _ _ _ he; simp at he
  | @work c c1 c' s s1 s' w w' ops ea es p h1 hl' ih =>
    intro live l T ty d id es1 es2 r hw h2 h3 he hd
    obtain ⟨o, ho, hg⟩ := exec_spec _ r
    rw [h1] at ho; cases ho
    obtain ⟨live1, g⟩ := hg _ _ _ rfl
    have hts := g.ts
    have hnow := g.tr.now_eq
    simp only at hnow
    replace hd : nowAfter c.t.timestamp es1 + T + 16 * (17 + δ) ≤ latest l ops := hd
    rcases List.append_eq_append_iff.1 he with ⟨x, rfl, hx⟩ | ⟨x, rfl, hx⟩
    · exact ih (l := l) g.rep (by omega) (by omega) (by omega) hx (by rwa [nowAfter_append, ← hnow] at hd)
    · rcases List.cons_eq_append_iff.1 hx with ⟨rfl, hx⟩ | ⟨y, rfl, rfl⟩
      · rw [List.append_nil] at hnow
        exact ih (l := l) g.rep (by omega) (by omega) (by omega) (es1 := []) hx.symm (by rw [hnow]; exact hd)
      · rcases g.tr.added with h4 | ⟨h4, h5⟩
        · exact h4.left
        · simp only at h4 h5
          exact Resolved.right (hl'.due g.rep (by omega) (by omega) (by omega) h4 (by simp only; omega) hd)
  | @wake c c1 c' s s1 s' w w' ops ea es ts ret h1 h2 h3 h4 hl' ih =>
    intro live l T ty d id es1 es2 r hw h5 h6 he hd
    obtain ⟨o, ret', ho, _, hb, hg⟩ := timeout_spec cb (s := s) r h1 h2
    rw [h4] at ho; cases ho
    obtain ⟨live', t1, r', hts, _⟩ := hg _ _ _ rfl
    rw [← hts] at hb
    unfold InTime at h3
    have h7 : c1.t.timestamp ≤ ts ∧ ts < c1.t.timestamp + 16 ∧ c1.t.timestamp ≤ c.t.timestamp + 16 + δ := by
      rw [hts]; unfold Timer.swept; split <;> omega
    have hnow := t1.now_eq
    simp only at hnow
    rw [latest] at hd
    rcases List.append_eq_append_iff.1 he with ⟨x, rfl, hx⟩ | ⟨x, rfl, hx⟩
    · exact ih r' hb h7.1 h7.2.1 hx (by rwa [nowAfter_append, ← hnow] at hd)
    · rcases List.cons_eq_append_iff.1 hx with ⟨rfl, hx⟩ | ⟨y, rfl, rfl⟩
      · rw [List.append_nil] at hnow
        exact ih r' hb h7.1 h7.2.1 (es1 := []) hx.symm (by rw [hnow]; exact hd)
      · rcases t1.added with h8 | ⟨h8, h9⟩
        · exact h8.left
        · simp only at h8 h9
          exact Resolved.right (hl'.due r' hb h7.1 h7.2.1 h8 (by simp only; omega) hd)

/-- **C144 (part).** If no wait takes more than `δ` longer than `sc_timer_timeout` said, a timer that is added, also by a callback, has been
dealt with when a time has been given that is `16 * (17 + δ)` after its deadline. -/
theorem timer_loop_bound_partial {cb : σ → Nat → Nat → Nat → Prog σ} {ts0 δ : Nat} (h0 : ts0 < INVALID) {ops : List (Op σ)} {c : Cfg}
    {s0 s : σ} {w : Nat} {es1 es2 : List Ev} {T ty d id : Nat}
    (h : Loop cb (InTime δ) ⟨init ts0, []⟩ s0 (ts0 + 16) ops c s w (es1 ++ .add T ty d id :: es2))
    (hl : nowAfter ts0 es1 + T + 16 * (17 + δ) ≤ latest ts0 ops) : Resolved es2 id :=
  h.added (repC_init h0) (by simp [init]) (by simp [init]) (by simp [init]) rfl hl

/-- The number of calls of `sc_timer_timeout` -/
def polls : List (Op σ) → Nat
  | [] => 0
  | .timeout _ :: ops => polls ops + 1
  | _ :: ops => polls ops

/-- The calls of a loop that waits -/
theorem Loop.polls {cb : σ → Nat → Nat → Nat → Prog σ} {c c' : Cfg} {s s' : σ} {w w' : Nat} {ops : List (Op σ)}
    {es : List Ev} (h : Loop cb Waited c s w ops c' s' w' es) : ∀ {live : Nat → Option Entry}, RepC c live →
    (w = c.t.timestamp + 16 → c.t.timestamp + 8 * Timer.polls ops ≤ c'.t.timestamp) ∧
    (w = c.t.timestamp → c.t.timestamp + 8 * Timer.polls ops ≤ c'.t.timestamp + 8) := by
  induction h with
  | stop => intro live r; simp [Timer.polls]
  | work h1 _ ih =>
    intro live r
    obtain ⟨o, ho, hg⟩ := exec_spec _ r
    rw [h1] at ho; cases ho
    obtain ⟨live1, g⟩ := hg _ _ _ rfl
    have := ih g.rep
    rw [g.ts] at this
    exact this
  | @wake c c1 c' s s1 s' w w' ops es1 es ts ret h1 h2 h3 h4 _ ih =>
    intro live r
    obtain ⟨⟨live', r'⟩, hts, hb, hret⟩ := timeout_stamp r h1 h2 h4
    have h5 := ih r'
    unfold Waited at h3
    rw [Timer.polls]
    have hr : ret = if 1 ≤ ts - c.t.timestamp ∧ ts - c.t.timestamp ≤ 16 then 16 - (ts - c.t.timestamp) else 16 := by
      rw [hret]; unfold hint sub64; split <;> split <;> omega
    unfold Timer.swept at hts
    split at hr <;> split at hts <;> omega

/-- **C145.** A loop that always waits as long as `sc_timer_timeout` said, or longer, calls it at most once in 8 ms on average: the loop does not
spin. -/
theorem timer_loop_quiet {cb : σ → Nat → Nat → Nat → Prog σ} {ts0 : Nat} (h0 : ts0 < INVALID) {ops : List (Op σ)} {c : Cfg}
    {s0 s : σ} {w : Nat} {es : List Ev} (h : Loop cb Waited ⟨init ts0, []⟩ s0 (ts0 + 16) ops c s w es) :
    ts0 + 8 * polls ops ≤ latest ts0 ops := by
  have h1 := (h.polls (repC_init h0)).1 rfl
  have h2 := run_lag ops (repC_init h0) h.run (l := ts0) (Nat.le_refl _) (by simp [init])
  simp only [init] at h1
  omega

/-! ## Examples -/

instance (δ : Nat) : DecidableRel (InTime δ) := fun w ts => inferInstanceAs (Decidable (ts ≤ w + δ))

instance : DecidableRel Waited := fun w ts => inferInstanceAs (Decidable (w ≤ ts))

/-- A call of a loop at `ts`, if it is one -/
def wakeAt (cb : σ → Nat → Nat → Nat → Prog σ) (R : Nat → Nat → Prop) [DecidableRel R] (ts : Nat) (c : Cfg) (s : σ) (w : Nat) : Option (Cfg × σ × Nat × List Ev) :=
  if c.t.timestamp ≤ ts ∧ ts < INVALID ∧ R w ts then
    match timeout cb ts c s with
    | .ok (some (c1, s1, es1), ret) => some (c1, s1, ts + ret, es1)
    | _ => none
  else none

/-- Work between two calls, if it is defined -/
def workAt (p : σ → Prog σ) (c : Cfg) (s : σ) (w : Nat) : Option (Cfg × σ × Nat × List Ev) :=
  match exec (p s) c with
  | .ok (some (c1, s1, es1)) => some (c1, s1, w, es1)
  | _ => none

/-- The loop with the given operations, if it is one: to when it waits then, and what happened -/
def drive (cb : σ → Nat → Nat → Nat → Prog σ) (R : Nat → Nat → Prop) [DecidableRel R] : List (Op σ) → Cfg → σ → Nat → Option (Nat × List Ev)
  | [], _, _, w => some (w, [])
  | op :: ops, c, s, w =>
    (match op with
      | .call p => workAt p c s w
      | .timeout ts => wakeAt cb R ts c s w
      | .term => none).bind fun r => (drive cb R ops r.1 r.2.1 r.2.2.1).map fun (q : Nat × List Ev) => (q.1, r.2.2.2 ++ q.2)

/-- What `drive` finds is a loop. -/
theorem drive_loop {cb : σ → Nat → Nat → Nat → Prog σ} {R : Nat → Nat → Prop} [DecidableRel R] (ops : List (Op σ)) : ∀ {c : Cfg} {s : σ} {w w' : Nat} {es : List Ev},
    drive cb R ops c s w = some (w', es) → ∃ c' s', Loop cb R c s w ops c' s' w' es := by
  induction ops with
  | nil => intro c s w w' es h; rw [drive] at h; cases h; exact ⟨c, s, .stop⟩
  | cons op ops ih =>
    intro c s w w' es h
    unfold drive at h
    obtain ⟨⟨c1, s1, w1, es1⟩, h1, h⟩ := Option.bind_eq_some_iff.1 h
    obtain ⟨⟨w2, es'⟩, h2, h3⟩ := Option.map_eq_some_iff.1 h
    cases h3
    obtain ⟨c', s', h4⟩ := ih h2
    refine ⟨c', s', ?_⟩
    cases op with
    | term => cases h1
    | call p =>
      simp only [workAt] at h1
      generalize h5 : exec (p s) c = o at h1
      rcases o with (_ | ⟨c1, s1, es1⟩) | _ <;> cases h1
      exact .work h5 h4
    | timeout ts =>
      simp only [wakeAt] at h1
      by_cases hg : c.t.timestamp ≤ ts ∧ ts < INVALID ∧ R w ts
      · rw [if_pos hg] at h1
        generalize h5 : timeout cb ts c s = o at h1
        rcases o with ⟨_ | ⟨c1, s1, es1⟩, ret⟩ | _ <;> cases h1
        exact .wake hg.1 hg.2.1 hg.2.2 h5 h4
      · rw [if_neg hg] at h1; cases h1

/-- The program of the examples: it adds a timer of 32 ms. -/
def add32ms : Op Unit := .call fun s => .add (some fun _ => 0) 32 7 8 fun _ => .ret s

/-- **C144 is violated**: no wait takes more than 15 ms longer than it should, and a timer of 32 ms has not fired at 77, which is 45 ms late:
more than a tick and the 15 ms. -/
theorem timer_loop_violated : ∃ c s w es, Loop noop (InTime 15) ⟨init 0, []⟩ () 16 [add32ms, .timeout 31, .timeout 62, .timeout 77] c s w es ∧
    es = [.add 32 7 8 2, .now 31, .now 62] ∧ ¬ Resolved es 2 := by
  obtain ⟨c, s, h⟩ := drive_loop (cb := noop) (R := InTime 15) [add32ms, .timeout 31, .timeout 62, .timeout 77] (c := ⟨init 0, []⟩) (s := ()) (w := 16)
    (w' := 78) (es := [.add 32 7 8 2, .now 31, .now 62]) (by decide +kernel)
  exact ⟨c, s, _, _, h, rfl, by rintro (⟨d, ty, dat, h⟩ | h | h) <;> simp at h⟩

/-- It fires at 32 + 16 + 15 * 2 = 78 then, which is as late as `timer_loop_partial` allows. -/
example : drive noop (InTime 15) [add32ms, .timeout 31, .timeout 62, .timeout 77, .timeout 78] ⟨init 0, []⟩ () 16 =
    some (78, [.add 32 7 8 2, .now 31, .now 62, .now 78, .fire 2 32 7 8]) := by decide +kernel

/-- With exact waits, every second call comes at once: two calls in a tick. The timer fires at 48. -/
example : drive noop (InTime 0) [add32ms, .timeout 16, .timeout 16, .timeout 32, .timeout 32, .timeout 48] ⟨init 0, []⟩ () 16 =
    some (48, [.add 32 7 8 2, .now 16, .now 32, .now 48, .fire 2 32 7 8]) := by decide +kernel

/-- These waits are also long enough: 5 calls in 48 ms. -/
example : drive noop Waited [add32ms, .timeout 16, .timeout 16, .timeout 32, .timeout 32, .timeout 48] ⟨init 0, []⟩ () 16 =
    some (48, [.add 32 7 8 2, .now 16, .now 32, .now 48, .fire 2 32 7 8]) := by decide +kernel

end Verif.Timer
