import Verif.Log.Lemmas

namespace Verif.Log

open Spec

/-! ## C64 -/

/-- Setting the level accepts the names of the levels in any case, and otherwise fails and leaves the
level. Missing: strings with bytes above 127, see `set_level_violated`. -/
theorem set_level_partial {level : Level} {str s : List UInt8} (h : CStr str 0 s) (ha : ∀ c ∈ s, c < 128) :
    ∃ l rc, setLevel level str = .ok (l, rc) ∧
      (rc = 0 ∧ SameLetters s l.name ∨ rc = -1 ∧ l = level ∧ ∀ x : Level, ¬ SameLetters s x.name) := by
  obtain ⟨l, rc, e, h⟩ := setLevelLoop_eq (level := level) h ha [.debug, .info, .warn, .error, .off]
  refine ⟨l, rc, e, ?_⟩
  rcases h with ⟨h1, -, h3⟩ | ⟨h1, h2, h3⟩
  · exact Or.inl ⟨h1, h3⟩
  · exact Or.inr ⟨h1, h2, fun x => h3 x (by cases x <;> simp)⟩

/-- No string names two levels. -/
theorem level_unique {s : List UInt8} {l l' : Level} (h : SameLetters s l.name) (h' : SameLetters s l'.name) :
    l = l' := by
  unfold SameLetters at h h'
  rw [h] at h'
  cases l <;> cases l' <;> first | rfl | (exact absurd h' (by decide))

/-- A byte above 127 is a negative `char`, for which `tolower` is undefined. -/
theorem set_level_violated : setLevel .info [195, 169, 0] = .ub := by decide

/-! ## C82 -/

/-- The name of a thread is what was set, cut to 31 bytes. -/
theorem thread_name {name old str s : List UInt8} (hn : Arr name 31 old) (hl : name[31]? = some 0)
    (h : CStr str 0 s) :
    ∃ name', setName name str = .ok name' ∧ Arr name' 31 (s.take 31) ∧ name'[31]? = some 0 :=
  setName_eq hn hl h

theorem name0_ok : Arr name0 31 [84, 104, 114, 101, 97, 100] ∧ name0[31]? = some 0 := by
  refine ⟨⟨by decide, ?_, ?_, by decide⟩, by decide⟩
  · intro i hi
    have : i < 6 := hi
    match i, this with
    | 0, _ => rfl
    | 1, _ => rfl
    | 2, _ => rfl
    | 3, _ => rfl
    | 4, _ => rfl
    | 5, _ => rfl
  · intro b hb
    simp at hb
    rcases hb with rfl | rfl | rfl | rfl | rfl | rfl <;> decide

/-! ## One call -/

/-- A line for a message. -/
def IsLine (l : Level) (name msg line : List UInt8) : Prop :=
  ∃ tm h, Header tm l name h ∧ line = h ++ msg

theorem log_phases {name nm msg cp pp : List UInt8} {l : Level} {outs : List Out} {loc : Loc} {s s' : Shared}
    (hn : CStr name 0 nm) (hc : CStr s.cur 0 cp) (hv : CStr s.prev 0 pp)
    (h : exec name (.log l msg) (start (.log l msg)) outs s = .ok (loc, s')) (hd : loc.pc = .unlock) :
    ∃ (s1 s2 : Shared) (w1 r w2 : Bool) (o : Out), OutPhase nm l msg s s1 w1 ∧ FilePhase nm cp pp l msg s1 s2 r w2 ∧
      s' = { s2 with calls := s2.calls ++ s2.cb.toList.map fun f => (f, l, msg) } ∧
      loc.rc = (if w1 = true ∧ w2 = true then 0 else -1) ||| (if s2.cb = none then 0 else o.rc) ∧
      (Good outs → w1 = true ∧ r = true ∧ w2 = true) := by
  obtain ⟨s1, w1, loc1, rest1, h1, hp1, hr1, he1, hg1⟩ := out_phase hn h rfl hd
  have hs : s1.cur = s.cur ∧ s1.prev = s.prev := by
    cases h1 with
    | off => exact ⟨rfl, rfl⟩
    | noTime => exact ⟨rfl, rfl⟩
    | line => exact ⟨(emit_frame ..).2.1, (emit_frame ..).2.2.1⟩
    | cut => exact ⟨(emit_frame ..).2.1, (emit_frame ..).2.2.1⟩
  obtain ⟨s2, r, w2, loc2, rest2, h2, hp2, hr2, he2, hg2⟩ :=
    file_phase hn (hs.1 ▸ hc) (hs.2 ▸ hv) he1 hp1 hd
  obtain ⟨o, -, hs3, hr3⟩ := callback_phase he2 hp2 hd
  refine ⟨s1, s2, w1, r, w2, o, h1, h2, hs3, ?_, ?_⟩
  · rw [hr3, hr2, hr1]
    have z : (start (.log l msg)).rc = 0 := rfl
    rw [z]
    have o0 : ∀ x : Int32, x ||| 0 = x := by intro x; simp
    cases w1 <;> cases w2 <;> cases s2.cb <;> simp
  · intro hg
    obtain ⟨a, b⟩ := hg1 hg
    obtain ⟨c, d, -⟩ := hg2 b
    exact ⟨a, c, d⟩

/-- What the standard streams are given. -/
def streamText (s : Shared) (l : Level) (line : List UInt8) : List UInt8 × List UInt8 :=
  if s.toStdout then (if l = .error then ([], line) else (line, [])) else ([], [])

/-- If all calls succeed, a message goes once, as one line, to the standard output, or the standard
error if it is an error, once to the end of the file and once to the callback, if they are enabled,
and nowhere else. When the file is rotated the line is the last of the previous file. -/
theorem log_delivers {name nm msg cp pp : List UInt8} {l : Level} {outs : List Out} {loc : Loc} {s s' : Shared}
    (hn : CStr name 0 nm) (hc : CStr s.cur 0 cp) (hv : CStr s.prev 0 pp) (hne : s.fp = true → cp ≠ pp)
    (h : exec name (.log l msg) (start (.log l msg)) outs s = .ok (loc, s')) (hd : loc.pc = .unlock)
    (hg : Good outs) :
    (∃ line, IsLine l nm msg line ∧ s'.out = s.out ++ (streamText s l line).1 ∧
      s'.err = s.err ++ (streamText s l line).2) ∧
    s'.calls = s.calls ++ s.cb.toList.map (fun f => (f, l, msg)) ∧
    (s.cb = none → loc.rc = 0) ∧
    (s.fp = false → s'.fs = s.fs) ∧
    (s.fp = true → ∃ line, IsLine l nm msg line ∧
      ((s'.fs cp = some ((s.fs cp).getD [] ++ line) ∧ s'.fs pp = s.fs pp) ∨
       (s'.fs pp = some ((s.fs cp).getD [] ++ line) ∧ s'.fs cp = some [])) ∧
      ∀ p, p ≠ cp → p ≠ pp → s'.fs p = s.fs p) ∧
    s'.fp = s.fp ∧ s'.cur = s.cur ∧ s'.prev = s.prev ∧ s'.toStdout = s.toStdout ∧ s'.cb = s.cb := by
  obtain ⟨s1, s2, w1, r, w2, o, h1, h2, rfl, hrc, hgood⟩ := log_phases hn hc hv h hd
  clear h
  obtain ⟨rfl, rfl, rfl⟩ := hgood hg
  have a1 : (∃ line, IsLine l nm msg line ∧ s1.out = s.out ++ (streamText s l line).1 ∧
      s1.err = s.err ++ (streamText s l line).2) ∧ s1.calls = s.calls ∧ s1.cb = s.cb ∧ s1.fs = s.fs ∧
      s1.fp = s.fp ∧ s1.cur = s.cur ∧ s1.prev = s.prev ∧ s1.toStdout = s.toStdout := by
    cases h1 with
    | off hs =>
      exact ⟨⟨_, ⟨⟨0, 0, 0, 0, 0, 0⟩, _, header_spec _ _ _, rfl⟩, by simp [streamText, hs], by simp [streamText, hs]⟩,
        rfl, rfl, rfl, rfl, rfl, rfl, rfl⟩
    | @line tm h hs hh =>
      obtain ⟨f1, f2, f3, f4, f5, f6, f7, f8, f9⟩ := emit_frame s l (h ++ msg)
      refine ⟨⟨h ++ msg, ⟨tm, h, hh, rfl⟩, ?_⟩, f8, f6, f7, f1, f2, f3, f5⟩
      by_cases hl : l = .error <;> simp [streamText, hs, hl, Shared.emit]
  obtain ⟨b1, b2, b3, b4, b5, b6, b7, b8⟩ := a1
  have a2 : s2.out = s1.out ∧ s2.err = s1.err ∧ s2.calls = s1.calls ∧ s2.cb = s1.cb ∧
      (s1.fp = false → s2.fs = s1.fs) ∧
      (s1.fp = true → ∃ line, IsLine l nm msg line ∧
        ((s2.fs cp = some ((s1.fs cp).getD [] ++ line) ∧ s2.fs pp = s1.fs pp) ∨
         (s2.fs pp = some ((s1.fs cp).getD [] ++ line) ∧ s2.fs cp = some [])) ∧
        ∀ p, p ≠ cp → p ≠ pp → s2.fs p = s1.fs p) ∧
      s2.fp = s1.fp ∧ s2.cur = s1.cur ∧ s2.prev = s1.prev ∧ s2.toStdout = s1.toStdout := by
    cases h2 with
    | off hs => exact ⟨rfl, rfl, rfl, rfl, fun _ => rfl, fun h => by simp [hs] at h, rfl, rfl, rfl, rfl⟩
    | @line tm h hs hh _ =>
      refine ⟨rfl, rfl, rfl, rfl, fun h => by simp [hs] at h, fun _ => ⟨h ++ msg, ⟨tm, h, hh, rfl⟩, Or.inl ⟨?_, ?_⟩, ?_⟩,
        rfl, rfl, rfl, rfl⟩
      · simp [Shared.append, Shared.file]
      · have : pp ≠ cp := fun e => hne (b5 ▸ hs) e.symm
        simp [Shared.append, Shared.file, this]
      · intro p hp _
        simp [Shared.append, Shared.file, hp]
    | @rotated tm h _ _ hs hh _ =>
      have hpc : pp ≠ cp := fun e => hne (b5 ▸ hs) e.symm
      refine ⟨rfl, rfl, rfl, rfl, fun h => by simp [hs] at h, fun _ => ⟨h ++ msg, ⟨tm, h, hh, rfl⟩, Or.inr ⟨?_, ?_⟩, ?_⟩,
        hs.symm, rfl, rfl, rfl⟩
      · simp [rotFs, hpc]
      · simp [rotFs]
      · intro p hp hp'
        simp [rotFs, hp, hp']
  obtain ⟨c1, c2, c3, c4, c5, c6, c7, c8, c9, c10⟩ := a2
  refine ⟨?_, ?_, ?_, ?_, ?_, c7.trans b5, c8.trans b6, c9.trans b7, c10.trans b8, c4.trans b3⟩
  · obtain ⟨line, hl, e1, e2⟩ := b1
    exact ⟨line, hl, c1.trans e1, c2.trans e2⟩
  · show s2.calls ++ _ = _
    rw [c3, b2, c4, b3]
  · intro hcb
    rw [hrc, c4, b3, hcb]
    simp
  · intro hf
    exact (c5 (b5.trans hf)).trans b4
  · intro hf
    obtain ⟨line, hl, e⟩ := c6 (b5.trans hf)
    rw [b4] at e
    exact ⟨line, hl, e⟩

/-- What can become of the two files: the part `p` of the line is appended; or nothing happens; or the
line is written and then the file is renamed or not, and opened anew or not. -/
inductive FileGets (cp pp : List UInt8) (f f' : List UInt8 → Option (List UInt8)) (line : List UInt8) :
    List UInt8 → Prop
  | part {p} : f' cp = some ((f cp).getD [] ++ p) → f' pp = f pp → FileGets cp pp f f' line p
  | nothing : f' = f → FileGets cp pp f f' line []
  | renamed : f' pp = some ((f cp).getD [] ++ line) → (f' cp = some [] ∨ f' cp = none) →
      FileGets cp pp f f' line line
  | lost : f' pp = f pp → (f' cp = some [] ∨ f' cp = some ((f cp).getD [] ++ line)) →
      FileGets cp pp f f' line line

/-- Whatever fails: the standard streams get a part of one line at most, the callback gets the message
once, and if the result is 0 then the line has been written in full where it should be. -/
theorem log_fails {name nm msg cp pp : List UInt8} {l : Level} {outs : List Out} {loc : Loc} {s s' : Shared}
    (hn : CStr name 0 nm) (hc : CStr s.cur 0 cp) (hv : CStr s.prev 0 pp) (hne : cp ≠ pp)
    (h : exec name (.log l msg) (start (.log l msg)) outs s = .ok (loc, s')) (hd : loc.pc = .unlock) :
    (∃ line p, IsLine l nm msg line ∧ p <+: line ∧ s'.out = s.out ++ (streamText s l p).1 ∧
      s'.err = s.err ++ (streamText s l p).2 ∧ (loc.rc = 0 → p = line)) ∧
    s'.calls = s.calls ++ s.cb.toList.map (fun f => (f, l, msg)) ∧
    (s.fp = false → s'.fs = s.fs) ∧
    (s.fp = true → ∃ line p, IsLine l nm msg line ∧ p <+: line ∧ (loc.rc = 0 → p = line) ∧
      FileGets cp pp s.fs s'.fs line p) ∧
    (loc.rc = 0 → s'.fp = s.fp) := by
  obtain ⟨s1, s2, w1, r, w2, o, h1, h2, rfl, hrc, -⟩ := log_phases hn hc hv h hd
  clear h
  have hne' : pp ≠ cp := fun e => hne e.symm
  have hw : loc.rc = 0 → w1 = true ∧ w2 = true := by
    intro h0
    rw [h0] at hrc
    by_cases hw : w1 = true ∧ w2 = true
    · exact hw
    · rw [if_neg hw] at hrc
      have : ∀ x : Int32, (-1 : Int32) ||| x = -1 := fun x => by rw [Int32.or_comm]; exact or_neg x
      rw [this] at hrc
      exact absurd hrc (by decide)
  have a1 : (∃ line p, IsLine l nm msg line ∧ p <+: line ∧ s1.out = s.out ++ (streamText s l p).1 ∧
      s1.err = s.err ++ (streamText s l p).2 ∧ (w1 = true → p = line)) ∧ s1.calls = s.calls ∧ s1.cb = s.cb ∧ s1.fs = s.fs ∧
      s1.fp = s.fp := by
    have any : ∃ line, IsLine l nm msg line := ⟨_, ⟨0, 0, 0, 0, 0, 0⟩, _, header_spec _ _ _, rfl⟩
    cases h1 with
    | off hs =>
      obtain ⟨line, hl⟩ := any
      exact ⟨⟨line, line, hl, List.prefix_refl _, by simp [streamText, hs], by simp [streamText, hs], fun _ => rfl⟩,
        rfl, rfl, rfl, rfl⟩
    | noTime hs =>
      obtain ⟨line, hl⟩ := any
      refine ⟨⟨line, [], hl, List.nil_prefix, ?_, ?_, by simp⟩, rfl, rfl, rfl, rfl⟩ <;>
        by_cases he : l = .error <;> simp [streamText, hs, he]
    | @line tm h hs hh =>
      obtain ⟨f1, f2, f3, f4, f5, f6, f7, f8, f9⟩ := emit_frame s l (h ++ msg)
      refine ⟨⟨h ++ msg, h ++ msg, ⟨tm, h, hh, rfl⟩, List.prefix_refl _, ?_, ?_, fun _ => rfl⟩, f8, f6, f7, f1⟩ <;>
        by_cases he : l = .error <;> simp [streamText, hs, he, Shared.emit]
    | @cut tm h p hs hh hp =>
      obtain ⟨f1, f2, f3, f4, f5, f6, f7, f8, f9⟩ := emit_frame s l p
      refine ⟨⟨h ++ msg, p, ⟨tm, h, hh, rfl⟩, hp, ?_, ?_, by simp⟩, f8, f6, f7, f1⟩ <;>
        by_cases he : l = .error <;> simp [streamText, hs, he, Shared.emit]
  obtain ⟨b1, b2, b3, b4, b5⟩ := a1
  have a2 : s2.out = s1.out ∧ s2.err = s1.err ∧ s2.calls = s1.calls ∧ s2.cb = s1.cb ∧
      (s1.fp = false → s2.fs = s1.fs) ∧
      (s1.fp = true → ∃ line p, IsLine l nm msg line ∧ p <+: line ∧ (w2 = true → p = line) ∧
        FileGets cp pp s1.fs s2.fs line p) ∧
      (w2 = true → s2.fp = s1.fp) := by
    cases h2 with
    | off hs => exact ⟨rfl, rfl, rfl, rfl, fun _ => rfl, fun h => by simp [hs] at h, fun _ => rfl⟩
    | noTime hs =>
      refine ⟨rfl, rfl, rfl, rfl, fun h => by simp [hs] at h, fun _ => ?_, fun _ => rfl⟩
      exact ⟨_, [], ⟨⟨0, 0, 0, 0, 0, 0⟩, _, header_spec _ _ _, rfl⟩, List.nil_prefix, by simp, .nothing rfl⟩
    | @cut tm h p hs hh hp =>
      refine ⟨rfl, rfl, rfl, rfl, fun h => by simp [hs] at h, fun _ => ⟨h ++ msg, p, ⟨tm, h, hh, rfl⟩, hp, by simp, .part ?_ ?_⟩, fun _ => rfl⟩
      · simp [Shared.append, Shared.file]
      · simp [Shared.append, Shared.file, hne']
    | @line tm h hs hh _ =>
      refine ⟨rfl, rfl, rfl, rfl, fun h => by simp [hs] at h, fun _ => ⟨h ++ msg, _, ⟨tm, h, hh, rfl⟩, List.prefix_refl _, fun _ => rfl, .part ?_ ?_⟩, fun _ => rfl⟩
      · simp [Shared.append, Shared.file]
      · simp [Shared.append, Shared.file, hne']
    | @rotated tm h _ _ hs hh _ =>
      refine ⟨rfl, rfl, rfl, rfl, fun h => by simp [hs] at h, fun _ => ⟨h ++ msg, _, ⟨tm, h, hh, rfl⟩, List.prefix_refl _, fun _ => rfl, ?_⟩, fun h => h.trans hs.symm⟩
      cases r with
      | true =>
        refine .renamed ?_ ?_
        · simp [rotFs, hne']
        · cases w2 <;> simp [rotFs, hne]
      | false =>
        refine .lost ?_ ?_
        · simp [rotFs, hne']
        · cases w2 <;> simp [rotFs]
  obtain ⟨c1, c2, c3, c4, c5, c6, c7⟩ := a2
  refine ⟨?_, ?_, ?_, ?_, fun h0 => (c7 (hw h0).2).trans b5⟩
  · obtain ⟨line, p, hl, hp, e1, e2, e3⟩ := b1
    exact ⟨line, p, hl, hp, c1.trans e1, c2.trans e2, fun h0 => e3 (hw h0).1⟩
  · show s2.calls ++ _ = _
    rw [c3, b2, c4, b3]
  · intro hf
    exact (c5 (b5.trans hf)).trans b4
  · intro hf
    obtain ⟨line, p, hl, hp, e3, e⟩ := c6 (b5.trans hf)
    rw [b4] at e
    exact ⟨line, p, hl, hp, fun h0 => e3 (hw h0).2, e⟩

end Verif.Log
