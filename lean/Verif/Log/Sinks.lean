import Verif.Log.Files

/-! # What several threads write to the streams and the callback -/

namespace Verif.Log

open Spec

theorem exec_fine {name nm : List UInt8} {op : Op} (hn : CStr name 0 nm) (hv : op.valid) :
    ∀ {outs : List Out} {loc loc' : Loc} {s s' : Shared}, exec name op loc outs s = .ok (loc', s') → Fine s →
    At op loc.pc s → Fine s' ∧ At op loc'.pc s' := by
  intro outs
  induction outs with
  | nil =>
    intro loc loc' s s' h hf ha
    simp only [exec] at h
    obtain ⟨rfl, rfl⟩ := Prod.mk.inj (Res.ok.inj h)
    exact ⟨hf, ha⟩
  | cons o outs ih =>
    intro loc loc' s s' h hf ha
    simp only [exec] at h
    split at h
    · cases h
    · next hu =>
      obtain ⟨loc1, s1, e, hf1, ha1, -⟩ := step_fine hn hv hf ha hu o
      rw [e, Res.ok_bind] at h
      exact ih h hf1 ha1

/-- Calls that return were made with valid arguments, and the names of threads are strings. -/
theorem done_valid {s s' : State} {es : List Event} (h : Run s es s') (hw : WF s)
    (hv : ∀ t op, .call t op ∈ es → op.valid) {t : Nat} {name : List UInt8} {op : Op} {outs : List Out} {loc : Loc}
    (hd : .done t name op outs loc ∈ es) : op.valid ∧ ∃ nm, CStr name 0 nm := by
  induction h with
  | refl => simp at hd
  | @step s1 s2 e es hr hst ih =>
    have hv' : ∀ t op, .call t op ∈ es → op.valid := fun t op h => hv t op (by simp [h])
    rcases List.mem_append.1 hd with hd | hd
    · exact ih hv' hd
    · cases hst with
      | unlock ht hu =>
        rw [Option.toList_some, List.mem_singleton] at hd
        cases hd
        have w := hw.run hr hv'
        obtain ⟨nm, h1, h2⟩ := w.name t
        exact ⟨w.valid t op (by rw [ht]; simp [pending]), nm, h1.str⟩
      | _ => simp at hd

/-- The lines of the messages whose level satisfies `P`, one for each, in order. -/
inductive Printed (P : Level → Prop) : List Event → List Line → Prop
  | nil : Printed P [] []
  | line {es ls t name nm l msg outs loc tm h} : Printed P es ls → P l → CStr name 0 nm → Header tm l nm h →
      Printed P (es ++ [.done t name (.log l msg) outs loc]) (ls ++ [⟨h, msg⟩])
  | other {es ls e} : Printed P es ls → (∀ t name l msg outs loc, P l → e ≠ .done t name (.log l msg) outs loc) →
      Printed P (es ++ [e]) ls

/-- The calls of a callback. -/
def calledBack (f : Nat) (es : List Event) : List (Nat × Level × List UInt8) :=
  es.filterMap fun
    | .done _ _ (.log l msg) _ _ => some (f, l, msg)
    | _ => none

theorem calledBack_append (f : Nat) (a b : List Event) : calledBack f (a ++ b) = calledBack f a ++ calledBack f b := by
  unfold calledBack
  rw [List.filterMap_append]

theorem seq_fine {s σ : Shared} {es : List Event} (h : Seq s es σ) (hf : Fine s)
    (hs : s.streams = if s.fp then 1 else 0)
    (hd : ∀ t name op outs loc, .done t name op outs loc ∈ es → op.valid ∧ ∃ nm, CStr name 0 nm) :
    Fine σ ∧ σ.streams = if σ.fp then 1 else 0 := by
  induction h with
  | nil => exact ⟨hf, hs⟩
  | other h hno ih => exact ih fun t name op outs loc h => hd t name op outs loc (by simp [h])
  | @done s2 s3 es t name op outs loc _ he hu ih =>
    obtain ⟨h1, h2⟩ := ih fun t name op outs loc h => hd t name op outs loc (by simp [h])
    obtain ⟨hv, nm, hn⟩ := hd t name op outs loc (by simp)
    obtain ⟨h3, h4⟩ := exec_fine hn hv he h1 (start_at op h2)
    rw [hu] at h4
    exact ⟨h3, unlock_at h4⟩

/-- The standard streams get the lines of concurrent threads whole, one after the other, in the order in
which the calls took effect; errors and nothing else go to the standard error. -/
theorem no_interleaving {s s' : State} {es : List Event} (h : Run s es s') (hw : WF s)
    (hi : ∀ t, (s.th t).st = .idle) (hl : s.lock = none) (hl' : s'.lock = none)
    (hv : ∀ t op, .call t op ∈ es → op.valid) (hso : s.sh.toStdout = true)
    (hd : ∀ t name op outs loc, .done t name op outs loc ∈ es → Good outs ∧ ∀ b, op ≠ .setStdout b) :
    ∃ lo le, Printed (· ≠ .error) es lo ∧ Printed (· = .error) es le ∧ s'.sh.out = s.sh.out ++ bytes lo ∧
      s'.sh.err = s.sh.err ++ bytes le := by
  have hdv : ∀ t name op outs loc, .done t name op outs loc ∈ es → op.valid ∧ ∃ nm, CStr name 0 nm :=
    fun t name op outs loc hm => done_valid h hw hv hm
  have hseq := atomic h hl hi hl'
  have hf := hw.fine
  have hst := hw.free hl
  clear hw hi hl hl' hv h
  generalize s.sh = a at *
  generalize s'.sh = b at *
  have main : b.toStdout = true ∧ ∃ lo le, Printed (· ≠ .error) es lo ∧ Printed (· = .error) es le ∧
      b.out = a.out ++ bytes lo ∧ b.err = a.err ++ bytes le := by
    induction hseq with
    | nil => exact ⟨hso, [], [], .nil, .nil, by simp [bytes], by simp [bytes]⟩
    | @other s2 es e hs hno ih =>
      obtain ⟨h0, lo, le, h1, h2, h3⟩ := ih (fun t name op outs loc h => hd t name op outs loc (by simp [h]))
        (fun t name op outs loc h => hdv t name op outs loc (by simp [h]))
      exact ⟨h0, lo, le, .other h1 (fun t name l msg outs loc _ => hno t name _ outs loc),
        .other h2 (fun t name l msg outs loc _ => hno t name _ outs loc), h3⟩
    | @done s2 s3 es t name op outs loc hs he hu ih =>
      obtain ⟨h0, lo, le, h1, h2, h3, h4⟩ := ih (fun t name op outs loc h => hd t name op outs loc (by simp [h]))
        (fun t name op outs loc h => hdv t name op outs loc (by simp [h]))
      obtain ⟨hf2, hst2⟩ := seq_fine hs hf hst (fun t name op outs loc h => hdv t name op outs loc (by simp [h]))
      obtain ⟨hval, nm, hn⟩ := hdv t name op outs loc (by simp)
      obtain ⟨hg, hnso⟩ := hd t name op outs loc (by simp)
      cases op with
      | setStdout x => exact absurd rfl (hnso x)
      | setCallback x =>
        obtain ⟨o, rest, loc1, s1, rfl, e1, he⟩ := exec_cons he (by simp [start]) hu
        simp only [step, start] at e1
        obtain ⟨rfl, rfl⟩ := Prod.mk.inj (Res.ok.inj e1)
        obtain ⟨rfl, rfl, rfl⟩ := exec_end he rfl
        exact ⟨h0, lo, le, .other h1 (by simp), .other h2 (by simp), h3, h4⟩
      | setFile names =>
        have : Same s2 s3 := by
          cases names with
          | none => exact (set_file_off hf2 he hu).2.2.2.2
          | some q =>
            obtain ⟨p, c⟩ := q
            obtain ⟨⟨x, hx⟩, y, hy⟩ := hval
            exact (set_file_partial hf2 hx hy he hu).2.2
        obtain ⟨e1, e2, -, -, e5⟩ := this
        exact ⟨e5.trans h0, lo, le, .other h1 (by simp), .other h2 (by simp), e1.trans h3, e2.trans h4⟩
      | log l msg =>
        obtain ⟨cp, hcp⟩ := hf2.cur
        obtain ⟨pp, hpp⟩ := hf2.prev
        obtain ⟨s4, s5, w1, r, w2, o, p1, p2, rfl, -, hgood⟩ := log_phases hn hcp.str hpp.str he hu
        obtain ⟨rfl, rfl, rfl⟩ := hgood hg
        have a2 : s5.out = s4.out ∧ s5.err = s4.err ∧ s5.toStdout = s4.toStdout := by
          cases p2 <;> exact ⟨rfl, rfl, rfl⟩
        obtain ⟨c1, c2, c3⟩ := a2
        cases p1 with
        | off hoff => rw [h0] at hoff; cases hoff
        | @line tm h hon hh =>
          refine ⟨c3.trans ((emit_frame ..).2.2.2.2.1.trans h0), ?_⟩
          show ∃ lo le, _ ∧ _ ∧ s5.out = _ ∧ s5.err = _
          rw [c1, c2]
          by_cases hle : l = .error
          · refine ⟨lo, le ++ [⟨h, msg⟩], .other h1 ?_, .line h2 hle hn hh, ?_, ?_⟩
            · rintro t' name' l' msg' outs' loc' hl' e
              injection e with _ _ e
              injection e with e
              exact hl' (e ▸ hle)
            · simp [Shared.emit, hle, h3]
            · simp [Shared.emit, hle, h4, bytes_snoc, Line.bytes]
          · refine ⟨lo ++ [⟨h, msg⟩], le, .line h1 hle hn hh, .other h2 ?_, ?_, ?_⟩
            · rintro t' name' l' msg' outs' loc' hl' e
              injection e with _ _ e
              injection e with e
              exact hle (e ▸ hl')
            · simp [Shared.emit, hle, h3, bytes_snoc, Line.bytes]
            · simp [Shared.emit, hle, h4]
  exact main.2

/-- Whatever fails, the callback is called once for each message, in the order in which the calls took
effect. -/
theorem callback_once {s s' : State} {es : List Event} {f : Nat} (h : Run s es s') (hw : WF s)
    (hi : ∀ t, (s.th t).st = .idle) (hl : s.lock = none) (hl' : s'.lock = none)
    (hv : ∀ t op, .call t op ∈ es → op.valid) (hcb : s.sh.cb = some f)
    (hd : ∀ t name op outs loc, .done t name op outs loc ∈ es → ∀ b, op ≠ .setCallback b) :
    s'.sh.calls = s.sh.calls ++ calledBack f es := by
  have hdv : ∀ t name op outs loc, .done t name op outs loc ∈ es → op.valid ∧ ∃ nm, CStr name 0 nm :=
    fun t name op outs loc hm => done_valid h hw hv hm
  have hseq := atomic h hl hi hl'
  have hf := hw.fine
  have hst := hw.free hl
  clear hw hi hl hl' hv h
  generalize s.sh = a at *
  generalize s'.sh = b at *
  have main : b.cb = some f ∧ b.calls = a.calls ++ calledBack f es := by
    induction hseq with
    | nil => exact ⟨hcb, by simp [calledBack]⟩
    | @other s2 es e hs hno ih =>
      obtain ⟨h0, h1⟩ := ih (fun t name op outs loc h => hd t name op outs loc (by simp [h]))
        (fun t name op outs loc h => hdv t name op outs loc (by simp [h]))
      refine ⟨h0, ?_⟩
      rw [calledBack_append, h1]
      cases e with
      | done t name op outs loc => exact absurd rfl (hno t name op outs loc)
      | _ => simp [calledBack]
    | @done s2 s3 es t name op outs loc hs he hu ih =>
      obtain ⟨h0, h1⟩ := ih (fun t name op outs loc h => hd t name op outs loc (by simp [h]))
        (fun t name op outs loc h => hdv t name op outs loc (by simp [h]))
      obtain ⟨hf2, hst2⟩ := seq_fine hs hf hst (fun t name op outs loc h => hdv t name op outs loc (by simp [h]))
      obtain ⟨hval, nm, hn⟩ := hdv t name op outs loc (by simp)
      have hncb := hd t name op outs loc (by simp)
      rw [calledBack_append]
      cases op with
      | setCallback x => exact absurd rfl (hncb x)
      | setStdout x =>
        obtain ⟨o, rest, loc1, s1, rfl, e1, he⟩ := exec_cons he (by simp [start]) hu
        simp only [step, start] at e1
        obtain ⟨rfl, rfl⟩ := Prod.mk.inj (Res.ok.inj e1)
        obtain ⟨rfl, rfl, rfl⟩ := exec_end he rfl
        exact ⟨h0, by simp [calledBack] at h1 ⊢; exact h1⟩
      | setFile names =>
        have : Same s2 s3 := by
          cases names with
          | none => exact (set_file_off hf2 he hu).2.2.2.2
          | some q =>
            obtain ⟨p, c⟩ := q
            obtain ⟨⟨x, hx⟩, y, hy⟩ := hval
            exact (set_file_partial hf2 hx hy he hu).2.2
        obtain ⟨-, -, e3, e4, -⟩ := this
        exact ⟨e4.trans h0, by rw [e3, h1]; simp [calledBack]⟩
      | log l msg =>
        obtain ⟨cp, hcp⟩ := hf2.cur
        obtain ⟨pp, hpp⟩ := hf2.prev
        obtain ⟨s4, s5, w1, r, w2, o, p1, p2, rfl, -, -⟩ := log_phases hn hcp.str hpp.str he hu
        have a1 : s4.calls = s2.calls ∧ s4.cb = s2.cb := by
          cases p1 with
          | off => exact ⟨rfl, rfl⟩
          | noTime => exact ⟨rfl, rfl⟩
          | line => exact ⟨(emit_frame ..).2.2.2.2.2.2.2.1, (emit_frame ..).2.2.2.2.2.1⟩
          | cut => exact ⟨(emit_frame ..).2.2.2.2.2.2.2.1, (emit_frame ..).2.2.2.2.2.1⟩
        have a2 : s5.calls = s4.calls ∧ s5.cb = s4.cb := by
          cases p2 <;> exact ⟨rfl, rfl⟩
        have hcb5 : s5.cb = some f := (a2.2.trans a1.2).trans h0
        refine ⟨hcb5, ?_⟩
        show s5.calls ++ _ = _
        rw [hcb5, a2.1, a1.1, h1]
        simp [calledBack]
  exact main.2

/-! ## Examples -/

/-- The level is INFO at first: "debug" is accepted in any case, "loud" is not. -/
example : setLevel .info [100, 69, 98, 85, 103, 0] = .ok (.debug, 0) ∧ setLevel .info [108, 111, 117, 100, 0] = .ok (.info, -1) := by
  decide

/-- A header: `[2021-02-03 04:05:06][INFO ][Thread] ` -/
example : header ⟨2021, 2, 3, 4, 5, 6⟩ .info [84, 104, 114, 101, 97, 100] =
    [91, 50, 48, 50, 49, 45, 48, 50, 45, 48, 51, 32, 48, 52, 58, 48, 53, 58, 48, 54, 93, 91, 73, 78, 70, 79, 32, 93, 91,
      84, 104, 114, 101, 97, 100, 93, 32] := by decide +kernel

/-- A thread logs "hi" while another waits for the mutex. -/
example : ∃ es s, Run (begun (fun _ => none) [] []) es s ∧ s.lock = some 0 ∧
    (s.th 1).st = .waiting (.log .error [104, 105]) ∧
    es = [.call 0 (.log .info [104, 105]), .call 1 (.log .error [104, 105])] := by
  have r1 := Run.refl.step (Step.call (s := begun (fun _ => none) [] []) 0 (.log .info [104, 105]) rfl)
  have r2 := r1.step (Step.pass (t := 0) rfl (by decide))
  have r3 := r2.step (Step.lock (t := 0) rfl rfl)
  have r4 := r3.step (Step.call 1 (.log .error [104, 105]) rfl)
  have r5 := r4.step (Step.pass (t := 1) rfl (by decide))
  exact ⟨_, _, r5, rfl, rfl, rfl⟩

/-- The hypotheses of the theorems about files are met after `sc_log_set_file`. -/
example : ∃ es s, Run (begun (fun _ => none) [] []) es s ∧ s.sh.fp = true ∧ CStr s.sh.cur 0 [98] ∧
    CStr s.sh.prev 0 [97] ∧ (∀ t, (s.th t).st = .idle) ∧ s.lock = none ∧ ∃ c, s.sh.fs [98] = some c := by
  obtain ⟨es, s, g⟩ := grown (x := [97]) (y := [98]) (by decide) (by decide) (by decide) (by decide) (by decide) 5
  obtain ⟨c, h, -⟩ := g.file
  exact ⟨es, s, g.run, g.fp, g.cur, g.prev, g.idle, g.free, c, h⟩

end Verif.Log
