import Verif.Log.Switch
import Verif.Log.Crash
import Verif.Log.Defaults

/-!
# Cases of the theorems on the logger

A program that meets the hypotheses of the theorems about the logger: it logs to the files `b` and `a`, to a callback and to
its streams, and its file has just reached the limit, so that a message rotates.
-/

namespace Verif.Log

open Spec

/-- A name of one byte in an array of 256, logger/sc_log.c:113-126; not a function of the library. -/
def named (b : UInt8) : List UInt8 := b :: List.replicate 255 0

/-- `sc_log` after `sc_log_set_file("a", "b")` and `sc_log_set_callback(7)`, with `size` bytes counted, logger/sc_log.c:113-126;
not a function of the library. -/
def filed (size : Nat) (base : List UInt8) : Shared :=
  { fp := true, cur := named 98, prev := named 97, size := size, toStdout := true, cb := some 7,
    fs := fun p => if p = [98] then some base else none, out := [], err := [], calls := [], streams := 1 }

/-- The process with that logger, in which no thread logs; not a function of the library. -/
def filing (size : Nat) (base : List UInt8) : State :=
  { level := .info, lock := none, sh := filed size base, th := fun _ => ⟨name0, .idle⟩ }

theorem pad (b : UInt8) (hb : b ≠ 0) : Arr (named b) 255 [b] where
  len := by rw [named, List.length_cons, List.length_replicate]
  str := ⟨fun i hi => by simp at hi; subst hi; rfl, by simpa using hb, by rw [named, List.length_singleton, List.getElem?_cons_succ, List.getElem?_replicate]; rfl⟩

theorem filing_wf (size : Nat) (base : List UInt8) : WF (filing size base) where
  fine := ⟨⟨_, pad 98 (by decide)⟩, ⟨_, pad 97 (by decide)⟩⟩
  name := fun _ => ⟨_, name0_ok⟩
  valid := fun t op h => by cases h
  pos := fun t op loc outs h => by cases h
  free := fun _ => rfl
  held := fun t h => by cases h

/-- What a message that succeeds everywhere does to that logger: it is printed, written and given to the callback, and the file is
renamed and begun again as soon as more than 2 MiB have been counted. -/
theorem message (size : Nat) (base : List UInt8) (hs : size < 2 ^ 63) : ∃ outs loc sh,
    exec name0 (.log .error [69]) (start (.log .error [69])) outs (filed size base) = .ok (loc, sh) ∧ loc.pc = .unlock ∧ Good outs ∧
    sh.fs [98] = some (if size + 1 > LIMIT then [] else base ++ (header ⟨0, 0, 0, 0, 0, 0⟩ .error [84, 104, 114, 101, 97, 100] ++ [69])) ∧
    sh.calls = [(7, .error, [69])] ∧ sh.fp = true ∧ sh.cur = named 98 := by
  have h1 : cstr name0 0 = .ok [84, 104, 114, 101, 97, 100] := cstr_eq name0_ok.1.str
  have h2 : cstr (named 98) 0 = .ok [98] := cstr_eq (pad 98 (by decide)).str
  have h3 : cstr (named 97) 0 = .ok [97] := cstr_eq (pad 97 (by decide)).str
  have h4 : add64 size 1 = size + 1 := Nat.mod_eq_of_lt (by omega)
  by_cases h : size + 1 > LIMIT
  · refine ⟨[fineOut, fineOut, fineOut, fineOut, fineOut, fineOut, fineOut, fineOut], ?_⟩
    simp [exec, step, stepLog, start, filed, fineOut, h1, h2, h3, h4, h, Shared.append, Shared.file, Out.put, Shared.emit, Good]
    exact ⟨_, _, ⟨rfl, rfl⟩, rfl, by simp, rfl, rfl, rfl⟩
  · refine ⟨[fineOut, fineOut, fineOut, fineOut, fineOut], ?_⟩
    simp [exec, step, stepLog, start, filed, fineOut, h1, h2, h4, h, Shared.append, Shared.file, Out.put, Shared.emit, Good]
    exact ⟨_, _, ⟨rfl, rfl⟩, rfl, by simp, rfl, rfl, rfl⟩

/-- The run of a thread that logs that message, alone. -/
theorem filing_run (size : Nat) (base : List UInt8) (hs : size < 2 ^ 63) : ∃ outs loc s,
    Run (filing size base) [.call 3 (.log .error [69]), .done 3 name0 (.log .error [69]) outs loc] s ∧ s.lock = none ∧ Good outs ∧
    s.sh.fs [98] = some (if size + 1 > LIMIT then [] else base ++ (header ⟨0, 0, 0, 0, 0, 0⟩ .error [84, 104, 114, 101, 97, 100] ++ [69])) ∧
    s.sh.calls = [(7, .error, [69])] ∧ s.sh.fp = true ∧ s.sh.cur = named 98 ∧ ∀ t, (s.th t).st = .idle := by
  obtain ⟨outs, loc, sh, h1, h2, h3, h4, h5, h6, h7⟩ := message size base hs
  exact ⟨outs, loc, _, run_one (s := filing size base) (t := 3) rfl rfl (fun l msg h => by cases h; exact (by decide : ¬ Spec.Level.error.rank < Spec.Level.info.rank)) h1 h2, rfl, h3, h4, h5, h6, h7, fun _ => rfl⟩

theorem filing_calls {outs : List Out} {loc : Loc} (P : Op → Prop) (h : P (.log .error [69])) :
    ∀ t op, .call t op ∈ [Event.call 3 (.log .error [69]), .done 3 name0 (.log .error [69]) outs loc] → P op := by
  intro t op hm
  simp at hm
  rw [hm.2]
  exact h

theorem filing_done {outs : List Out} {loc : Loc} (P : Op → List Out → Prop) (h : P (.log .error [69]) outs) :
    ∀ t name op os l, .done t name op os l ∈ [Event.call 3 (.log .error [69]), .done 3 name0 (.log .error [69]) outs loc] → P op os := by
  intro t name op os l hm
  simp at hm
  obtain ⟨-, -, rfl, rfl, -⟩ := hm
  exact h

/-- **C62**: the message that rotates is in the older file, after what was there, and the newer one is empty. -/
example (base : List UInt8) : ∃ es s ls, Run (filing LIMIT base) es s ∧ Logged es ls ∧ s.sh.fs [98] = some [] ∧
    Kept base none ls (s.sh.fs [97]) (s.sh.fs [98]) := by
  obtain ⟨outs, loc, s, h1, h2, h3, h4, h5, -⟩ := filing_run LIMIT base (by decide)
  obtain ⟨ls, h6, h7⟩ := rotation_partial h1 (filing_wf _ _) (fun _ => rfl) rfl h2 (filing_calls Op.valid trivial) (cp := [98]) (pp := [97])
    (by decide) rfl (pad 98 (by decide)).str (pad 97 (by decide)).str rfl
    (filing_done (fun op os => Good os ∧ ∀ f, op ≠ .setFile f) ⟨h3, fun f h => by cases h⟩)
  exact ⟨_, _, _, h1, h6, by rw [h4]; rfl, h7⟩

/-- **C63**: a file of one byte that gets a message. -/
example : ∃ es s ls b c, Run (filing 1 [10]) es s ∧ Logged es ls ∧ s.sh.fs [98] = some (b ++ bytes c) ∧
    ((b = [10] ∧ ls = c) ∨ (b = [] ∧ ∃ a, ls = a ++ c ∧ 1 + msgBytes a > 2 * 1024 * 1024)) := by
  obtain ⟨outs, loc, s, h1, h2, h3, -⟩ := filing_run 1 [10] (by decide)
  obtain ⟨ls, b, c, h6, h7, h8, -⟩ := file_size_partial h1 (filing_wf _ _) (fun _ => rfl) rfl h2 (filing_calls Op.valid trivial) (cp := [98])
    (pp := [97]) (base := [10]) rfl (pad 98 (by decide)).str (pad 97 (by decide)).str rfl rfl (by decide)
    (filing_done (fun op os => Good os ∧ (∀ f, op ≠ .setFile f) ∧ ∀ l msg, op = .log l msg → msg.length < 2 ^ 31)
      ⟨h3, (fun f h => by cases h), fun l msg h => by cases h; decide⟩)
  exact ⟨_, _, ls, b, c, h1, h6, h7, h8⟩

/-- **C81** and **C61**: the stream of errors gets the line, the callback the message. -/
example (base : List UInt8) : ∃ es s lo le, Run (filing LIMIT base) es s ∧ Printed (· ≠ .error) es lo ∧ Printed (· = .error) es le ∧
    s.sh.out = bytes lo ∧ s.sh.err = bytes le ∧ s.sh.calls = calledBack 7 es ∧ calledBack 7 es = [(7, .error, [69])] := by
  obtain ⟨outs, loc, s, h1, h2, h3, h4, h5, -⟩ := filing_run LIMIT base (by decide)
  obtain ⟨lo, le, h6, h7, h8, h9⟩ := no_interleaving h1 (filing_wf _ _) (fun _ => rfl) rfl h2 (filing_calls Op.valid trivial) rfl
    (filing_done (fun op os => Good os ∧ ∀ b, op ≠ .setStdout b) ⟨h3, fun f h => by cases h⟩)
  have h10 := callback_once (f := 7) h1 (filing_wf _ _) (fun _ => rfl) rfl h2 (filing_calls Op.valid trivial) rfl
    (filing_done (fun op _ => ∀ b, op ≠ .setCallback b) (fun f h => by cases h))
  exact ⟨_, _, lo, le, h1, h6, h7, h8, h9, h10, h10.symm.trans h5⟩

/-- **C81**: the thread is answered what it has asked for, and the calls follow one another. -/
example : ∃ es s, Run (filing LIMIT []) es s ∧ Seq (filing LIMIT []).sh es s.sh ∧ issued 3 es = answered 3 es ++ pending (s.th 3).st := by
  obtain ⟨outs, loc, s, h1, h2, -⟩ := filing_run LIMIT [] (by decide)
  exact ⟨_, _, h1, atomic h1 rfl (fun _ => rfl) h2, program_order h1 (fun _ => rfl) 3⟩

/-- **C61**: the level when the message was written was not above that of the message. -/
example : ∃ es1 s outs loc, Run (filing LIMIT []) (es1 ++ .done 3 name0 (.log .error [69]) outs loc :: []) s ∧
    ∃ a b c, es1 = a ++ .call 3 (.log .error [69]) :: b ++ c ∧ (lastLevel .info (a ++ .call 3 (.log .error [69]) :: b)).rank ≤ Spec.Level.error.rank := by
  obtain ⟨outs, loc, s, h1, -⟩ := filing_run LIMIT [] (by decide)
  obtain ⟨a, b, c, h2, -, -, h3⟩ := written_level h1 (fun _ => rfl) (es1 := [.call 3 (.log .error [69])]) (es2 := []) rfl
  exact ⟨[.call 3 (.log .error [69])], s, outs, loc, h1, a, b, c, h2, h3⟩

/-- **C61**: what is below the level is dropped. -/
example : ∃ s, Run (filing LIMIT []) [.call 3 (.log .debug [68]), .skip 3 .debug [68] .info] s ∧ Level.info = lastLevel .info [.call 3 (.log .debug [68])] := by
  have r1 := Run.refl.step (Step.call (s := filing LIMIT []) 3 (.log .debug [68]) rfl)
  have r2 := r1.step (.skip (t := 3) (l := .debug) (msg := [68]) rfl (by decide))
  exact ⟨_, r2, (dropped_level r2 (fun _ => rfl) (es1 := [.call 3 (.log .debug [68])]) (es2 := []) rfl).2.1⟩

/-- **C61**: the message in the sinks, one by one. -/
example (base : List UInt8) : ∃ outs loc sh line, exec name0 (.log .error [69]) (start (.log .error [69])) outs (filed LIMIT base) = .ok (loc, sh) ∧
    IsLine .error [84, 104, 114, 101, 97, 100] [69] line ∧ sh.fs [97] = some (base ++ line) := by
  obtain ⟨outs, loc, sh, h1, h2, h3, h4, -⟩ := message LIMIT base (by decide)
  obtain ⟨-, -, -, -, h5, -⟩ := log_delivers name0_ok.1.str (s := filed LIMIT base) (pad 98 (by decide)).str (pad 97 (by decide)).str (fun _ => by decide) h1 h2 h3
  obtain ⟨line, h6, h7 | h7, -⟩ := h5 rfl
  · rw [h7.1] at h4
    exact absurd (congrArg (fun o => o.map List.length) h4) (by obtain ⟨_, _, -, rfl⟩ := h6; simp)
  · exact ⟨outs, loc, sh, line, h1, h6, h7.1⟩

/-- **C132**: the process is killed after the message, whose last byte had not left its buffer. -/
example : ∃ es s d ls p c, Run (filing 1 [10]) es s ∧ Crash 4096 s d ∧ d [98] ≠ s.sh.fs [98] ∧ Logged es ls ∧ Kept [10] none ls p (some c) ∧
    (Cut 4096 p c (d [97]) (d [98]) ∨ ∃ x, InProgress s x) := by
  obtain ⟨outs, loc, s, h1, h2, h3, h4, h5, h6, h7, h8⟩ := filing_run 1 [10] (by decide)
  have hc : CStr s.sh.cur 0 [98] := by rw [h7]; exact (pad 98 (by decide)).str
  rw [if_neg (by decide), ← List.append_assoc] at h4
  have hd := crash_possible (B := 4096) h6 hc h4 (by decide) (.inl h2)
  obtain ⟨ls, p, c, h9, h10, h11⟩ := crash_partial h1 (filing_wf _ _) (fun _ => rfl) rfl (filing_calls Op.valid trivial) (cp := [98]) (pp := [97])
    (base := [10]) (by decide) rfl (pad 98 (by decide)).str (pad 97 (by decide)).str rfl
    (filing_done (fun op os => Good os ∧ ∀ f, op ≠ .setFile f) ⟨h3, fun f h => by cases h⟩)
    (fun t op loc outs h => by rw [h8 t] at h; cases h) hd
  refine ⟨_, s, _, ls, p, c, h1, hd, ?_, h9, h10, ?_⟩
  · rw [if_pos rfl, h4]
    simp
  · rcases h11 with h | ⟨x, h, -⟩
    · exact .inl h
    · exact .inr ⟨x, h⟩

/-- **C84** and **C113**: nothing stays locked or open, whatever a program has done; here it has just begun. -/
example : ∃ es s, Run (begun (fun _ => none) [] []) es s ∧ (s.th 0).st = .inside (.setStdout false) { pc := .assign } [] ∧
    (∀ o, ∃ loc' sh', step (s.th 0).name (.setStdout false) { pc := .assign } o s.sh = .ok (loc', sh') ∧ loc'.pc.left < Pc.assign.left) ∧
    ∃ es' s', Run s es' s' ∧ s'.lock = none := by
  have r1 := Run.refl.step (Step.call (s := begun (fun _ => none) [] []) 0 (.setStdout false) rfl)
  have r2 := r1.step (Step.lock (t := 0) rfl rfl)
  have hv : ∀ t op, .call t op ∈ [] ++ [Event.call 0 (.setStdout false)] ++ [] → op.valid := fun t op hm => by simp at hm; rw [hm.2]; trivial
  obtain ⟨es', s', h1, -, h2, -⟩ := no_deadlock r2 hv
  exact ⟨_, _, r2, rfl, (no_ub r2 hv (t := 0) rfl).2.2 (by decide), es', s', h1, h2⟩

/-- **C83**: the files are set, or file logging is off. -/
example : ∃ outs loc s, exec name0 (.setFile (some ([97, 0], [98, 0]))) (start (.setFile (some ([97, 0], [98, 0])))) outs (filed LIMIT []) = .ok (loc, s) ∧
    loc.rc = 0 ∧ s.fp = true ∧ s.fs [98] = some [10] := by
  have hx : CStr [97, 0] 0 [97] := .self (s := [97]) (by decide)
  have hy : CStr [98, 0] 0 [98] := .self (s := [98]) (by decide)
  obtain ⟨outs, loc, s, h1, h2, h3, -⟩ := exec_exists (op := .setFile (some ([97, 0], [98, 0]))) name0_ok.1.str ⟨⟨_, hx⟩, ⟨_, hy⟩⟩ fineOut 8 (filing_wf LIMIT []).fine
    (loc := start (.setFile (some ([97, 0], [98, 0])))) (s := filed LIMIT []) rfl (by decide)
  obtain ⟨h4, h5⟩ := set_file_ok (filing_wf LIMIT []).fine hx hy (by decide) (by decide) h1 h2 (fun o ho => by rw [h3 o ho]; rfl)
  obtain ⟨⟨-, -, -, -, -, -, -, h6, -⟩ | ⟨h6, -⟩, -⟩ := set_file_partial (filing_wf LIMIT []).fine hx hy h1 h2
  · exact ⟨outs, loc, s, h1, h4, h5, h6⟩
  · rw [h4] at h6
    exact absurd h6 (by decide)

/-- **C83**: file logging is turned off. -/
example : ∃ outs loc s, exec name0 (.setFile none) (start (.setFile none)) outs (filed LIMIT [65]) = .ok (loc, s) ∧ s.fp = false ∧ s.fs [98] = some [65] := by
  obtain ⟨outs, loc, s, h1, h2, -⟩ := exec_exists (op := .setFile none) name0_ok.1.str trivial fineOut 8 (filing_wf LIMIT [65]).fine
    (loc := start (.setFile none)) (s := filed LIMIT [65]) rfl (by decide)
  obtain ⟨-, -, h3, h4, -⟩ := set_file_off (filing_wf LIMIT [65]).fine h1 h2
  exact ⟨outs, loc, s, h1, h3, by rw [h4]; rfl⟩

/-- **C82**: a long name is cut to 31 bytes. -/
example : ∃ name, setName name0 (List.replicate 40 65 ++ [0]) = .ok name ∧ Arr name 31 (List.replicate 31 65) := by
  obtain ⟨name, h1, h2, -⟩ := thread_name name0_ok.1 name0_ok.2 (CStr.self (s := List.replicate 40 65) (fun b hb => by rw [List.eq_of_mem_replicate hb]; decide))
  exact ⟨name, h1, by rwa [List.take_replicate] at h2⟩

/-- **C61**: settings stay as they are while a program only logs. -/
example : ∃ s, Run (begun (fun _ => none) [] []) [.call 1 (.log .error [69])] s ∧ Plain s := by
  have r1 := Run.refl.step (Step.call (s := begun (fun _ => none) [] []) 1 (.log .error [69]) rfl)
  exact ⟨_, r1, defaults_kept r1 ⟨fun t op h => by simp at h; exact ⟨_, _, h.2⟩, fun l rc h => by simp at h⟩⟩

end Verif.Log
