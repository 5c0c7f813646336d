import Verif.Log.Sinks

/-! # Messages go where the program last said -/

namespace Verif.Log

open Spec

/-- Whether the standard streams are enabled after the calls that have returned: the last call of `sc_log_set_stdout` decides, and they are
enabled in the beginning. -/
def streamsOn : List Event → Bool → Bool
  | [], b => b
  | .done _ _ (.setStdout b) _ _ :: es, _ => streamsOn es b
  | _ :: es, b => streamsOn es b

/-- The callback after the calls that have returned: the last call of `sc_log_set_callback` decides. -/
def callbackNow : List Event → Option Nat → Option Nat
  | [], f => f
  | .done _ _ (.setCallback f) _ _ :: es, _ => callbackNow es f
  | _ :: es, f => callbackNow es f

/-- What the callbacks should have been given: each message once, to the callback of its time. -/
inductive Given : List Event → List (Nat × Level × List UInt8) → Prop
  | nil : Given [] []
  | to {es cs t name l msg outs loc f} : Given es cs → callbackNow es none = some f →
      Given (es ++ [.done t name (.log l msg) outs loc]) (cs ++ [(f, l, msg)])
  | nobody {es cs t name l msg outs loc} : Given es cs → callbackNow es none = none →
      Given (es ++ [.done t name (.log l msg) outs loc]) cs
  | other {es cs e} : Given es cs → (∀ t name l msg outs loc, e ≠ .done t name (.log l msg) outs loc) → Given (es ++ [e]) cs

/-- What a stream should have been given: the lines of the messages with a level in `P`, that were logged while the streams were enabled. -/
inductive Shown (P : Level → Prop) : List Event → List Line → Prop
  | nil : Shown P [] []
  | line {es ls t name nm l msg outs loc tm h} : Shown P es ls → P l → streamsOn es true = true → CStr name 0 nm → Header tm l nm h →
      Shown P (es ++ [.done t name (.log l msg) outs loc]) (ls ++ [⟨h, msg⟩])
  | off {es ls e} : Shown P es ls → streamsOn es true = false → Shown P (es ++ [e]) ls
  | other {es ls e} : Shown P es ls → (∀ t name l msg outs loc, P l → e ≠ .done t name (.log l msg) outs loc) →
      Shown P (es ++ [e]) ls

theorem streamsOn_snoc (es : List Event) (e : Event) (b : Bool) : streamsOn (es ++ [e]) b = streamsOn [e] (streamsOn es b) := by
  induction es generalizing b with
  | nil => rfl
  | cons x es ih =>
    cases x with
    | done t name op outs loc => cases op <;> exact ih _
    | _ => exact ih _

theorem callbackNow_snoc (es : List Event) (e : Event) (f : Option Nat) :
    callbackNow (es ++ [e]) f = callbackNow [e] (callbackNow es f) := by
  induction es generalizing f with
  | nil => rfl
  | cons x es ih =>
    cases x with
    | done t name op outs loc => cases op <;> exact ih _
    | _ => exact ih _

/-- The switches and the sinks after calls that ran one after the other -/
structure Obeyed (a b : Shared) (es : List Event) : Prop where
  on : b.toStdout = streamsOn es true
  cb : b.cb = callbackNow es none
  calls : ∃ cs, Given es cs ∧ b.calls = a.calls ++ cs
  lines : (∀ t name op outs loc, .done t name op outs loc ∈ es → Good outs) →
    ∃ lo le, Shown (· ≠ .error) es lo ∧ Shown (· = .error) es le ∧ b.out = a.out ++ bytes lo ∧ b.err = a.err ++ bytes le

theorem Obeyed.other {a b b' : Shared} {es : List Event} {e : Event} (h : Obeyed a b es)
    (hn : ∀ t name l msg outs loc, e ≠ .done t name (.log l msg) outs loc)
    (h1 : b'.toStdout = streamsOn [e] b.toStdout) (h2 : b'.cb = callbackNow [e] b.cb) (h3 : b'.calls = b.calls) (h4 : b'.out = b.out)
    (h5 : b'.err = b.err) : Obeyed a b' (es ++ [e]) := by
  obtain ⟨cs, h6, h7⟩ := h.calls
  refine ⟨?_, ?_, ⟨cs, .other h6 hn, h3.trans h7⟩, ?_⟩
  · rw [streamsOn_snoc, h1, h.on]
  · rw [callbackNow_snoc, h2, h.cb]
  · intro hg
    obtain ⟨lo, le, g1, g2, g3, g4⟩ := h.lines (fun t name op outs loc hm => hg t name op outs loc (by simp [hm]))
    exact ⟨lo, le, .other g1 (fun t name l msg outs loc _ => hn t name l msg outs loc),
      .other g2 (fun t name l msg outs loc _ => hn t name l msg outs loc), h4.trans g3, h5.trans g4⟩

theorem obeyed {a b : Shared} {es : List Event} (h : Seq a es b) (hf : Fine a) (hst : a.streams = if a.fp then 1 else 0)
    (hon : a.toStdout = true) (hcb : a.cb = none)
    (hdv : ∀ t name op outs loc, .done t name op outs loc ∈ es → op.valid ∧ ∃ nm, CStr name 0 nm) : Obeyed a b es := by
  induction h with
  | nil => exact ⟨hon, hcb, ⟨[], .nil, by simp⟩, fun _ => ⟨[], [], .nil, .nil, by simp [bytes], by simp [bytes]⟩⟩
  | @other s2 es e hs hno ih =>
    have ih := ih (fun t name op outs loc h => hdv t name op outs loc (by simp [h]))
    cases e with
    | done t name op outs loc => exact absurd rfl (hno t name op outs loc)
    | _ => exact ih.other (by simp) rfl rfl rfl rfl rfl
  | @done s2 s3 es t name op outs loc hs he hu ih =>
    have ih := ih (fun t name op outs loc h => hdv t name op outs loc (by simp [h]))
    obtain ⟨hf2, hst2⟩ := seq_fine hs hf hst (fun t name op outs loc h => hdv t name op outs loc (by simp [h]))
    obtain ⟨hval, nm, hn⟩ := hdv t name op outs loc (by simp)
    cases op with
    | setStdout x =>
      obtain ⟨o, rest, loc1, s1, rfl, e1, he⟩ := exec_cons he (by simp [start]) hu
      simp only [step, start] at e1
      obtain ⟨rfl, rfl⟩ := Prod.mk.inj (Res.ok.inj e1)
      obtain ⟨rfl, rfl, rfl⟩ := exec_end he rfl
      exact ih.other (by simp) rfl rfl rfl rfl rfl
    | setCallback x =>
      obtain ⟨o, rest, loc1, s1, rfl, e1, he⟩ := exec_cons he (by simp [start]) hu
      simp only [step, start] at e1
      obtain ⟨rfl, rfl⟩ := Prod.mk.inj (Res.ok.inj e1)
      obtain ⟨rfl, rfl, rfl⟩ := exec_end he rfl
      exact ih.other (by simp) rfl rfl rfl rfl rfl
    | setFile names =>
      have : Same s2 s3 := by
        cases names with
        | none => exact (set_file_off hf2 he hu).2.2.2.2
        | some q =>
          obtain ⟨p, c⟩ := q
          obtain ⟨⟨x, hx⟩, y, hy⟩ := hval
          exact (set_file_partial hf2 hx hy he hu).2.2
      obtain ⟨e1, e2, e3, e4, e5⟩ := this
      exact ih.other (by simp) e5 e4 e3 e1 e2
    | log l msg =>
      obtain ⟨cp, hcp⟩ := hf2.cur
      obtain ⟨pp, hpp⟩ := hf2.prev
      obtain ⟨s4, s5, w1, r, w2, o, p1, p2, rfl, -, hgood⟩ := log_phases hn hcp.str hpp.str he hu
      have a1 : s4.calls = s2.calls ∧ s4.cb = s2.cb ∧ s4.toStdout = s2.toStdout := by
        cases p1 with
        | off => exact ⟨rfl, rfl, rfl⟩
        | noTime => exact ⟨rfl, rfl, rfl⟩
        | line => exact ⟨(emit_frame ..).2.2.2.2.2.2.2.1, (emit_frame ..).2.2.2.2.2.1, (emit_frame ..).2.2.2.2.1⟩
        | cut => exact ⟨(emit_frame ..).2.2.2.2.2.2.2.1, (emit_frame ..).2.2.2.2.2.1, (emit_frame ..).2.2.2.2.1⟩
      have a2 : s5.calls = s4.calls ∧ s5.cb = s4.cb ∧ s5.toStdout = s4.toStdout ∧ s5.out = s4.out ∧ s5.err = s4.err := by
        cases p2 <;> exact ⟨rfl, rfl, rfl, rfl, rfl⟩
      have a3 : s5.cb = callbackNow es none := (a2.2.1.trans a1.2.1).trans ih.cb
      refine ⟨?_, ?_, ?_, ?_⟩
      · rw [streamsOn_snoc]
        exact (a2.2.2.1.trans a1.2.2).trans ih.on
      · rw [callbackNow_snoc]
        exact a3
      · obtain ⟨cs, h6, h7⟩ := ih.calls
        cases hc : callbackNow es none with
        | none =>
          refine ⟨cs, .nobody h6 hc, ?_⟩
          show s5.calls ++ s5.cb.toList.map _ = _
          rw [a3, hc, a2.1, a1.1, h7]
          simp
        | some f =>
          refine ⟨cs ++ [(f, l, msg)], .to h6 hc, ?_⟩
          show s5.calls ++ s5.cb.toList.map _ = _
          rw [a3, hc, a2.1, a1.1, h7]
          simp
      · intro hg
        obtain ⟨lo, le, g1, g2, g3, g4⟩ := ih.lines (fun t name op outs loc hm => hg t name op outs loc (by simp [hm]))
        obtain ⟨rfl, rfl, rfl⟩ := hgood (hg t name (.log l msg) outs loc (by simp))
        show ∃ lo le, _ ∧ _ ∧ s5.out = _ ∧ s5.err = _
        rw [a2.2.2.2.1, a2.2.2.2.2]
        cases p1 with
        | off hoff =>
          have : streamsOn es true = false := ih.on.symm.trans hoff
          exact ⟨lo, le, .off g1 this, .off g2 this, g3, g4⟩
        | @line tm h hon' hh =>
          have hso : streamsOn es true = true := ih.on.symm.trans hon'
          by_cases hle : l = .error
          · refine ⟨lo, le ++ [⟨h, msg⟩], .other g1 ?_, .line g2 hle hso hn hh, ?_, ?_⟩
            · rintro t' name' l' msg' outs' loc' hl' e
              injection e with _ _ e
              injection e with e
              exact hl' (e ▸ hle)
            · simp [Shared.emit, hle, g3]
            · simp [Shared.emit, hle, g4, bytes_snoc, Line.bytes]
          · refine ⟨lo ++ [⟨h, msg⟩], le, .line g1 hle hso hn hh, .other g2 ?_, ?_, ?_⟩
            · rintro t' name' l' msg' outs' loc' hl' e
              injection e with _ _ e
              injection e with e
              exact hle (e ▸ hl')
            · simp [Shared.emit, hle, g3, bytes_snoc, Line.bytes]
            · simp [Shared.emit, hle, g4]

/-- **C123.** Whatever fails, each message that was written is given once to the callback that was set last, and to no other. -/
theorem callback_obeyed {fs : List UInt8 → Option (List UInt8)} {out err : List UInt8} {es : List Event} {s : State}
    (h : Run (begun fs out err) es s) (hl : s.lock = none) (hv : ∀ t op, .call t op ∈ es → op.valid) : Given es s.sh.calls := by
  have hw := begun_wf fs out err
  have hd := fun t name op outs loc hm => done_valid (t := t) (name := name) (op := op) (outs := outs) (loc := loc) h hw hv hm
  obtain ⟨cs, h1, h2⟩ := (obeyed (atomic h rfl (fun _ => rfl) hl) hw.fine (hw.free rfl) rfl rfl hd).calls
  have : s.sh.calls = cs := h2.trans (List.nil_append _)
  rw [this]
  exact h1

/-- **C123.** While all calls of the system succeed, the standard streams have, whole and in order, the lines of the messages that were logged
while `sc_log_set_stdout` had them enabled, and nothing of the others; errors are on the standard error, all else on the standard output. -/
theorem streams_obeyed {fs : List UInt8 → Option (List UInt8)} {out err : List UInt8} {es : List Event} {s : State}
    (h : Run (begun fs out err) es s) (hl : s.lock = none) (hv : ∀ t op, .call t op ∈ es → op.valid)
    (hg : ∀ t name op outs loc, .done t name op outs loc ∈ es → Good outs) :
    ∃ lo le, Shown (· ≠ .error) es lo ∧ Shown (· = .error) es le ∧ s.sh.out = out ++ bytes lo ∧ s.sh.err = err ++ bytes le := by
  have hw := begun_wf fs out err
  have hd := fun t name op outs loc hm => done_valid (t := t) (name := name) (op := op) (outs := outs) (loc := loc) h hw hv hm
  exact (obeyed (atomic h rfl (fun _ => rfl) hl) hw.fine (hw.free rfl) rfl rfl hd).lines hg

/-- A call of the system that succeeds -/
def fineOut : Out := { ok := true, tm := some ⟨0, 0, 0, 0, 0, 0⟩ }

/-- A thread sets a callback and disables the standard streams, and another logs an error: it is given to the callback alone. -/
example : ∃ s name out1 loc1 out2 loc2 out3 loc3, Run (begun (fun _ => none) [] [])
    [.call 1 (.setCallback (some 7)), .done 1 name (.setCallback (some 7)) out1 loc1,
     .call 1 (.setStdout false), .done 1 name (.setStdout false) out2 loc2,
     .call 2 (.log .error [69]), .done 2 name (.log .error [69]) out3 loc3] s ∧ s.lock = none ∧ Good out3 ∧
    s.sh.calls = [(7, .error, [69])] ∧ s.sh.out = [] ∧ s.sh.err = [] := by
  have r1 := run_one (s := begun (fun _ => none) [] []) (t := 1) (op := .setCallback (some 7)) (outs := [fineOut]) rfl rfl
    (fun _ _ h => by cases h) (sh := { init (fun _ => none) [] [] with cb := some 7 }) (loc := { pc := .unlock }) rfl rfl
  have r2 := r1.trans (run_one (t := 1) (op := .setStdout false) (outs := [fineOut]) rfl rfl
    (fun _ _ h => by cases h) (sh := { init (fun _ => none) [] [] with cb := some 7, toStdout := false }) (loc := { pc := .unlock }) rfl rfl)
  have r3 := r2.trans (run_one (t := 2) (op := .log .error [69]) (outs := [fineOut, fineOut, fineOut]) rfl rfl
    (fun l _ h => by cases h; decide) (loc := { pc := .unlock })
    (sh := { init (fun _ => none) [] [] with cb := some 7, toStdout := false, calls := [(7, .error, [69])] }) rfl rfl)
  exact ⟨_, _, _, _, _, _, _, _, r3, rfl, (fun o ho => by simp at ho; subst ho; exact ⟨rfl, by simp [fineOut]⟩), rfl, rfl, rfl⟩

end Verif.Log
