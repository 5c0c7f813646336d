import Verif.Log.Files

/-!
# What a crash leaves in the log files

The logger prints to a stream and never flushes it (logger/sc_log.c has no `fflush`), so what was printed last
may still be in the buffer of the stream when the process dies. A crash is allowed at any point of any
interleaving; one in the midst of a call of the library is one after a step in which the call has not done
all it should, so the last call of an unfinished critical section may have any outcome.
-/

namespace Verif.Log

open Spec

namespace Spec

/-- What a crash leaves of the two files, if the previous one should be `p` and the current one `c`: all but
the last bytes of the current file, `B` at most. -/
structure Cut (B : Nat) (p : Option (List UInt8)) (c : List UInt8) (dp dc : Option (List UInt8)) : Prop where
  prev : dp = p
  cur : ∃ x y, x ++ y = c ∧ y.length ≤ B ∧ dc = some x

/-- What a crash while files are rotated leaves of them, if the current one should be `c`: it has become the
previous one, and the new one may be missing. -/
structure Moved (c : List UInt8) (dp dc : Option (List UInt8)) : Prop where
  prev : dp = some c
  cur : dc = none ∨ dc = some []

end Spec

/-- Whether there is an open stream for the current file: `sc_log.fp`, unless a thread is between `fclose` and
`fopen`, logger/sc_log.c:390-393, or `fp` of `sc_log_set_file`, logger/sc_log.c:289-314. -/
def Open (s : State) : Prop :=
  match s.lock with
  | none => s.sh.fp = true
  | some t =>
    match (s.th t).st with
    | .inside _ loc _ =>
      match loc.pc with
      | .rotRename => False
      | .rotOpen => False
      | .newline => True
      | .tell => True
      | .failed => True
      | _ => s.sh.fp = true
    | _ => s.sh.fp = true

/-- The files `d` after the process has died in the state `s`. A stream has written all that was printed to it
but the last `B` bytes at most, C11 7.21.3; `B` is the size of a buffer, BUFSIZ or `st_blksize`. The system
lives on, so nothing else is lost; models the end of a process at any point of logger/sc_log.c:261-451. -/
structure Crash (B : Nat) (s : State) (d : List UInt8 → Option (List UInt8)) : Prop where
  stream : ∀ q, Open s → CStr s.sh.cur 0 q → ∃ x y, s.sh.fs q = some (x ++ y) ∧ y.length ≤ B ∧ d q = some x
  rest : ∀ q, ¬ (Open s ∧ CStr s.sh.cur 0 q) → d q = s.sh.fs q

/-- A thread is writing a line. -/
def InProgress (s : State) (x : Line) : Prop :=
  ∃ t l loc outs nm tm, (s.th t).st = .inside (.log l x.msg) loc outs ∧ CStr (s.th t).name 0 nm ∧
    Header tm l nm x.header

/-! ## Critical sections that have not ended -/

theorem exec_last {name : List UInt8} {op : Op} {o : Out} : ∀ {outs : List Out} {loc loc2 : Loc} {s s2 : Shared},
    exec name op loc (outs ++ [o]) s = .ok (loc2, s2) →
    ∃ loc1 s1, exec name op loc outs s = .ok (loc1, s1) ∧ step name op loc1 o s1 = .ok (loc2, s2) := by
  intro outs
  induction outs with
  | nil =>
    intro loc loc2 s s2 h
    simp only [List.nil_append, exec] at h
    split at h
    · cases h
    · obtain ⟨⟨loc1, s1⟩, h1, h2⟩ := Res.bind_eq_ok.1 h
      cases h2
      exact ⟨loc, s, rfl, h1⟩
  | cons x outs ih =>
    intro loc loc2 s s2 h
    simp only [List.cons_append, exec] at h ⊢
    split at h
    · cases h
    · obtain ⟨⟨loc1, s1⟩, h1, h2⟩ := Res.bind_eq_ok.1 h
      obtain ⟨loc3, s3, h3, h4⟩ := ih h2
      refine ⟨loc3, s3, ?_, h4⟩
      rw [if_neg (by assumption), h1]
      exact h3

/-- The files at a position of `sc_log_log`, if nothing has failed: `p` and `c` is what they held before. -/
inductive Mid (nm : List UInt8) (l : Level) (msg : List UInt8) (p : Option (List UInt8)) (c : List UInt8) :
    Pc → Option (List UInt8) → Option (List UInt8) → Prop
  | before {pc} : pc = .out1 ∨ pc = .out2 ∨ pc = .file1 → Mid nm l msg p c pc p (some c)
  | header {tm h} : Header tm l nm h → Mid nm l msg p c .file2 p (some (c ++ h))
  | line {tm h pc} : Header tm l nm h → pc = .rotClose ∨ pc = .rotRename ∨ pc = .callback ∨ pc = .unlock →
      Mid nm l msg p c pc p (some (c ++ (h ++ msg)))
  | moved {tm h} : Header tm l nm h → Mid nm l msg p c .rotOpen (some (c ++ (h ++ msg))) none
  | fresh {tm h pc} : Header tm l nm h → pc = .callback ∨ pc = .unlock →
      Mid nm l msg p c pc (some (c ++ (h ++ msg))) (some [])

theorem append_fs (s : Shared) (p b q : List UInt8) :
    (s.append p b).fs q = if q = p then some ((s.fs p).getD [] ++ b) else s.fs q := rfl

/-- What is kept, and the files. -/
structure MidAt (nm cp pp : List UInt8) (l : Level) (msg : List UInt8) (p : Option (List UInt8)) (c : List UInt8)
    (pc : Pc) (s : Shared) : Prop where
  fp : s.fp = true
  cur : CStr s.cur 0 cp
  prev : CStr s.prev 0 pp
  mid : Mid nm l msg p c pc (s.fs pp) (s.fs cp)

theorem good_put {o : Out} (h : o.ok = true) (b : List UInt8) : o.put b = b := by simp [Out.put, h]

theorem mid_step {name nm msg cp pp c : List UInt8} {l : Level} {p : Option (List UInt8)} {o : Out} {loc loc' : Loc}
    {s s' : Shared} (hne : cp ≠ pp) (hn : CStr name 0 nm) (hm : MidAt nm cp pp l msg p c loc.pc s)
    (ho : o.ok = true ∧ o.tm ≠ none) (h : stepLog name l msg loc o s = .ok (loc', s')) :
    MidAt nm cp pp l msg p c loc'.pc s' := by
  obtain ⟨hfp, hc, hp, hm⟩ := hm
  obtain ⟨hok, htm⟩ := ho
  obtain ⟨tm, ht⟩ := Option.ne_none_iff_exists'.1 htm
  have hne' : pp ≠ cp := fun e => hne e.symm
  have hemit : ∀ b, (s.emit l b).fp = true ∧ CStr (s.emit l b).cur 0 cp ∧ CStr (s.emit l b).prev 0 pp ∧
      (s.emit l b).fs = s.fs := by
    intro b
    obtain ⟨f1, f2, f3, -, -, -, f7, -⟩ := emit_frame s l b
    exact ⟨f1 ▸ hfp, f2 ▸ hc, f3 ▸ hp, f7⟩
  unfold stepLog at h
  generalize hpc : loc.pc = pc at *
  generalize ep : s.fs pp = fp at hm
  generalize ec : s.fs cp = fc at hm
  cases hm with
  | before hb =>
    rcases hb with rfl | rfl | rfl
    · simp only at h
      split at h
      · rw [ht] at h
        simp only [cstr_eq hn, Res.ok_bind] at h
        cases h
        obtain ⟨a1, a2, a3, a4⟩ := hemit (o.put (Log.header tm l nm))
        exact ⟨a1, a2, a3, by rw [a4, ep, ec]; exact .before (by simp)⟩
      · cases h
        exact ⟨hfp, hc, hp, by rw [ep, ec]; exact .before (by simp)⟩
    · simp only [hok, if_true] at h
      cases h
      obtain ⟨a1, a2, a3, a4⟩ := hemit (o.put msg)
      exact ⟨a1, a2, a3, by rw [a4, ep, ec]; exact .before (by simp)⟩
    · simp only [hfp, if_true, ht, cstr_eq hn, cstr_eq hc, Res.ok_bind, hok, good_put hok] at h
      cases h
      refine ⟨hfp, hc, hp, ?_⟩
      rw [append_fs, append_fs, if_neg hne', if_pos rfl, ep, ec]
      exact .header (header_spec tm l nm)
  | @header tm' hd hh =>
    simp only [cstr_eq hc, Res.ok_bind, hok, if_true, good_put hok] at h
    cases h
    refine ⟨hfp, hc, hp, ?_⟩
    show Mid nm l msg p c _ ((s.append cp msg).fs pp) ((s.append cp msg).fs cp)
    rw [append_fs, append_fs, if_neg hne', if_pos rfl, ep, ec, Option.getD_some, List.append_assoc]
    refine .line hh ?_
    dsimp only
    split <;> simp
  | @line tm' hd _ hh hb =>
    rcases hb with rfl | rfl | rfl | rfl
    · cases h
      exact ⟨hfp, hc, hp, by show Mid nm l msg p c _ (s.fs pp) (s.fs cp); rw [ep, ec]; exact .line hh (by simp)⟩
    · simp only [cstr_eq hc, cstr_eq hp, Res.ok_bind, hok] at h
      rw [if_pos ⟨trivial, hne⟩] at h
      cases h
      refine ⟨hfp, hc, hp, ?_⟩
      have e1 : ((s.file pp (s.fs cp)).file cp none).fs pp = some (c ++ (hd ++ msg)) := by
        simp [Shared.file, hne', ec]
      have e2 : ((s.file pp (s.fs cp)).file cp none).fs cp = none := by simp [Shared.file]
      rw [e1, e2]
      exact .moved hh
    · simp only at h
      split at h <;> cases h
      · exact ⟨hfp, hc, hp, by show Mid nm l msg p c _ (s.fs pp) (s.fs cp); rw [ep, ec]; exact .line hh (by simp)⟩
      · exact ⟨hfp, hc, hp, by show Mid nm l msg p c _ (s.fs pp) (s.fs cp); rw [ep, ec]; exact .line hh (by simp)⟩
    · cases h
  | @moved tm' hd hh =>
    simp only [cstr_eq hc, Res.ok_bind, hok, if_true] at h
    cases h
    refine ⟨rfl, hc, hp, ?_⟩
    show Mid nm l msg p c _ ((s.file cp (some [])).fs pp) ((s.file cp (some [])).fs cp)
    have e1 : (s.file cp (some [])).fs pp = some (c ++ (hd ++ msg)) := by simp [Shared.file, hne', ep]
    have e2 : (s.file cp (some [])).fs cp = some [] := by simp [Shared.file]
    rw [e1, e2]
    exact .fresh hh (by simp)
  | @fresh tm' hd _ hh hb =>
    rcases hb with rfl | rfl
    · simp only at h
      split at h <;> cases h
      · exact ⟨hfp, hc, hp, by show Mid nm l msg p c _ (s.fs pp) (s.fs cp); rw [ep, ec]; exact .fresh hh (by simp)⟩
      · exact ⟨hfp, hc, hp, by show Mid nm l msg p c _ (s.fs pp) (s.fs cp); rw [ep, ec]; exact .fresh hh (by simp)⟩
    · cases h

theorem mid_exec {name nm msg cp pp c : List UInt8} {l : Level} {p : Option (List UInt8)} (hne : cp ≠ pp)
    (hn : CStr name 0 nm) : ∀ {outs : List Out} {loc loc' : Loc} {s s' : Shared},
    MidAt nm cp pp l msg p c loc.pc s → Good outs → exec name (.log l msg) loc outs s = .ok (loc', s') →
    MidAt nm cp pp l msg p c loc'.pc s' := by
  intro outs
  induction outs with
  | nil => intro loc loc' s s' hm _ h; cases h; exact hm
  | cons o outs ih =>
    intro loc loc' s s' hm hg h
    simp only [exec] at h
    split at h
    · cases h
    · obtain ⟨⟨loc1, s1⟩, h1, h2⟩ := Res.bind_eq_ok.1 h
      exact ih (mid_step hne hn hm (hg o (by simp)) h1) (fun x hx => hg x (by simp [hx])) h2

/-- The files while a call of `sc_log_log` is on, its last call of the library being one that may not have
done all: a part of a line has been added, or the files were rotated. -/
inductive Part (nm : List UInt8) (l : Level) (msg : List UInt8) (p : Option (List UInt8)) (c : List UInt8) :
    Option (List UInt8) → Option (List UInt8) → Prop
  | none : Part nm l msg p c p (some c)
  | part {tm h q} : Header tm l nm h → q <+: h ++ msg → Part nm l msg p c p (some (c ++ q))
  | moved {tm h d} : Header tm l nm h → d = Option.none ∨ d = some [] →
      Part nm l msg p c (some (c ++ (h ++ msg))) d

theorem Mid.part {nm msg c : List UInt8} {l : Level} {p dp dc : Option (List UInt8)} {pc : Pc}
    (h : Mid nm l msg p c pc dp dc) : Part nm l msg p c dp dc := by
  cases h with
  | before => exact .none
  | header hh => exact .part hh (List.prefix_append _ _)
  | line hh => exact .part hh List.prefix_rfl
  | moved hh => exact .moved hh (Or.inl rfl)
  | fresh hh => exact .moved hh (Or.inr rfl)

/-- What is left after a step with any outcome. -/
structure PartAt (nm cp pp : List UInt8) (l : Level) (msg : List UInt8) (p : Option (List UInt8)) (c : List UInt8)
    (s : Shared) : Prop where
  cur : CStr s.cur 0 cp
  prev : CStr s.prev 0 pp
  part : Part nm l msg p c (s.fs pp) (s.fs cp)

theorem put_prefix (o : Out) (b : List UInt8) : o.put b <+: b := by
  unfold Out.put
  split
  · exact List.prefix_rfl
  · exact List.take_prefix _ _

theorem part_step {name nm msg cp pp c : List UInt8} {l : Level} {p : Option (List UInt8)} {o : Out} {loc loc' : Loc}
    {s s' : Shared} (hne : cp ≠ pp) (hn : CStr name 0 nm) (hm : MidAt nm cp pp l msg p c loc.pc s)
    (h : stepLog name l msg loc o s = .ok (loc', s')) :
    PartAt nm cp pp l msg p c s' := by
  obtain ⟨hfp, hc, hp, hm⟩ := hm
  have hne' : pp ≠ cp := fun e => hne e.symm
  have hemit : ∀ b, CStr (s.emit l b).cur 0 cp ∧ CStr (s.emit l b).prev 0 pp ∧
      (s.emit l b).fs = s.fs := by
    intro b
    obtain ⟨f1, f2, f3, -, -, -, f7, -⟩ := emit_frame s l b
    exact ⟨f2 ▸ hc, f3 ▸ hp, f7⟩
  have hsame : ∀ s', s'.cur = s.cur → s'.prev = s.prev → s'.fs = s.fs → PartAt nm cp pp l msg p c s' := by
    intro s' e1 e2 e3
    exact ⟨e1 ▸ hc, e2 ▸ hp, e3 ▸ hm.part⟩
  unfold stepLog at h
  generalize hpc : loc.pc = pc at *
  generalize ep : s.fs pp = fp at hm
  generalize ec : s.fs cp = fc at hm
  cases hm with
  | before hb =>
    rcases hb with rfl | rfl | rfl
    · simp only at h
      split at h
      · cases ht : o.tm with
        | none => rw [ht] at h; cases h; exact hsame _ rfl rfl rfl
        | some tm =>
          rw [ht] at h
          simp only [cstr_eq hn, Res.ok_bind] at h
          cases h
          obtain ⟨f1, f2, f3, -, -, -, f7, -⟩ := emit_frame s l (o.put (Log.header tm l nm))
          exact hsame _ f2 f3 f7
      · cases h
        exact hsame _ rfl rfl rfl
    · simp only at h
      cases h
      obtain ⟨f1, f2, f3, -, -, -, f7, -⟩ := emit_frame s l (o.put msg)
      exact hsame _ f2 f3 f7
    · simp only [hfp, if_true] at h
      cases ht : o.tm with
      | none => rw [ht] at h; cases h; exact hsame _ rfl rfl rfl
      | some tm =>
        rw [ht] at h
        simp only [cstr_eq hn, cstr_eq hc, Res.ok_bind] at h
        cases h
        refine ⟨hc, hp, ?_⟩
        rw [append_fs, append_fs, if_neg hne', if_pos rfl, ep, ec]
        exact .part (header_spec tm l nm) ((put_prefix _ _).trans (List.prefix_append _ _))
  | @header tm' hd hh =>
    have key : PartAt nm cp pp l msg p c (s.append cp (o.put msg)) := by
      refine ⟨hc, hp, ?_⟩
      rw [append_fs, append_fs, if_neg hne', if_pos rfl, ep, ec, Option.getD_some, List.append_assoc]
      exact .part hh ((List.prefix_append_right_inj _).2 (put_prefix _ _))
    simp only [cstr_eq hc, Res.ok_bind] at h
    split at h
    · cases h
      exact ⟨key.cur, key.prev, key.part⟩
    · cases h
      exact key
  | @line tm' hd _ hh hb =>
    rcases hb with rfl | rfl | rfl | rfl
    · cases h
      exact hsame _ rfl rfl rfl
    · simp only [cstr_eq hc, cstr_eq hp, Res.ok_bind] at h
      split at h
      · cases h
        refine ⟨hc, hp, ?_⟩
        have e1 : ((s.file pp (s.fs cp)).file cp none).fs pp = some (c ++ (hd ++ msg)) := by
          simp [Shared.file, hne', ec]
        have e2 : ((s.file pp (s.fs cp)).file cp none).fs cp = none := by simp [Shared.file]
        rw [e1, e2]
        exact .moved hh (Or.inl rfl)
      · cases h
        exact hsame _ rfl rfl rfl
    · simp only at h
      split at h <;> cases h <;> exact hsame _ rfl rfl rfl
    · cases h
  | @moved tm' hd hh =>
    simp only [cstr_eq hc, Res.ok_bind] at h
    split at h
    · cases h
      refine ⟨hc, hp, ?_⟩
      show Part nm l msg p c ((s.file cp (some [])).fs pp) ((s.file cp (some [])).fs cp)
      have e1 : (s.file cp (some [])).fs pp = some (c ++ (hd ++ msg)) := by simp [Shared.file, hne', ep]
      have e2 : (s.file cp (some [])).fs cp = some [] := by simp [Shared.file]
      rw [e1, e2]
      exact .moved hh (Or.inr rfl)
    · cases h
      exact hsame _ rfl rfl rfl
  | @fresh tm' hd _ hh hb =>
    rcases hb with rfl | rfl
    · simp only at h
      split at h <;> cases h <;> exact hsame _ rfl rfl rfl
    · cases h

theorem part_exec {name nm msg cp pp c : List UInt8} {l : Level} {outs : List Out} {loc' : Loc} {s s' : Shared}
    (hne : cp ≠ pp) (hn : CStr name 0 nm) (hfp : s.fp = true) (hc : CStr s.cur 0 cp) (hp : CStr s.prev 0 pp)
    (hb : s.fs cp = some c) (hg : Good outs.dropLast)
    (h : exec name (.log l msg) (start (.log l msg)) outs s = .ok (loc', s')) :
    PartAt nm cp pp l msg (s.fs pp) c s' := by
  have h0 : MidAt nm cp pp l msg (s.fs pp) c (start (.log l msg)).pc s :=
    ⟨hfp, hc, hp, by rw [hb]; exact .before (Or.inl rfl)⟩
  rcases List.eq_nil_or_concat outs with rfl | ⟨os, o, rfl⟩
  · cases h
    exact ⟨hc, hp, h0.mid.part⟩
  · rw [List.concat_eq_append] at h hg
    rw [List.dropLast_concat] at hg
    obtain ⟨loc1, s1, h1, h2⟩ := exec_last h
    exact part_step hne hn (mid_exec hne hn h0 hg h1) h2

/-! ## C132: what a crash leaves -/

theorem path_unique {m a b : List UInt8} (ha : CStr m 0 a) (hb : CStr m 0 b) : a = b :=
  Res.ok.inj ((cstr_eq ha).symm.trans (cstr_eq hb))

theorem kept_some {base : List UInt8} {prev p c : Option (List UInt8)} {ls : List Line} (h : Kept base prev ls p c) :
    ∃ x, c = some x := by
  cases h <;> exact ⟨_, rfl⟩

/-- The disk agrees with the files but for the last bytes of the current one. -/
theorem Crash.cut {B : Nat} {s : State} {d : List UInt8 → Option (List UInt8)} {cp pp c : List UInt8}
    (h : Crash B s d) (hc : CStr s.sh.cur 0 cp) (hne : cp ≠ pp) (hf : s.sh.fs cp = some c) :
    Cut B (s.sh.fs pp) c (d pp) (d cp) := by
  refine ⟨h.rest pp (fun ⟨_, e⟩ => hne (path_unique hc e)), ?_⟩
  by_cases ho : Open s
  · obtain ⟨x, y, h1, h2, h3⟩ := h.stream cp ho hc
    rw [hf] at h1
    exact ⟨x, y, (Option.some.inj h1).symm, h2, h3⟩
  · refine ⟨c, [], by simp, by simp, ?_⟩
    rw [h.rest cp (fun e => ho e.1), hf]

/-- **What a crash leaves of the log.** Threads log to a file; at any moment, also inside a call of the library,
the process dies. Then the previous file is as it should be after the calls that have returned, and the current
one too but for its last bytes, of which at most `B`, the size of a buffer, are missing; it may have a part of
the line that was being written. Or the files were being rotated: the previous file has all of that line and
what was before it, and the current one is empty or missing. Missing is that nothing is lost, see
`crash_violated`; the assumptions are those of `rotation_partial`. -/
theorem crash_partial {B : Nat} {s s' : State} {es : List Event} {cp pp base : List UInt8}
    {d : List UInt8 → Option (List UInt8)} (h : Run s es s') (hw : WF s)
    (hi : ∀ t, (s.th t).st = .idle) (hl : s.lock = none)
    (hv : ∀ t op, .call t op ∈ es → op.valid) (hne : cp ≠ pp)
    (hfp : s.sh.fp = true) (hc : CStr s.sh.cur 0 cp) (hp : CStr s.sh.prev 0 pp) (hb : s.sh.fs cp = some base)
    (hd : ∀ t name op outs loc, .done t name op outs loc ∈ es → Good outs ∧ ∀ f, op ≠ .setFile f)
    (hin : ∀ t op loc outs, (s'.th t).st = .inside op loc outs → Good outs.dropLast ∧ ∀ f, op ≠ .setFile f)
    (hcr : Crash B s' d) :
    ∃ ls p c, Logged es ls ∧ Kept base (s.sh.fs pp) ls p (some c) ∧
      (Cut B p c (d pp) (d cp) ∨
       ∃ x, InProgress s' x ∧
        ((∃ q, q <+: x.bytes ∧ Cut B p (c ++ q) (d pp) (d cp)) ∨ Moved (c ++ x.bytes) (d pp) (d cp))) := by
  obtain ⟨σ, ha⟩ := apart h hl (fun t op loc outs => by rw [hi]; simp)
  obtain ⟨ls, ht⟩ := tracked ha.seq hne hfp hc hp hb (fun t name op outs loc hm => by
    obtain ⟨nm, hn, -⟩ := done_name h hw hv hm
    exact ⟨⟨nm, hn⟩, hd t name op outs loc hm⟩)
  obtain ⟨c, hcc⟩ := kept_some ht.kept
  have hk := ht.kept
  rw [hcc] at hk
  refine ⟨ls, σ.fs pp, c, ht.logged, hk, ?_⟩
  have same : s'.sh.cur = σ.cur → s'.sh.fs = σ.fs → Cut B (σ.fs pp) c (d pp) (d cp) := by
    intro e1 e2
    have := hcr.cut (cp := cp) (pp := pp) (c := c) (e1 ▸ ht.cur) hne (by rw [e2]; exact hcc)
    rw [e2] at this
    exact this
  cases hk' : s'.lock with
  | none =>
    have e := ha.free hk'
    exact Or.inl (same (by rw [e]) (by rw [e]))
  | some t =>
    obtain ⟨op, loc, outs, hth⟩ := ha.held t hk'
    obtain ⟨-, he⟩ := ha.inside _ _ _ _ hth
    obtain ⟨hg, hnf⟩ := hin _ _ _ _ hth
    have assign : (∃ b, op = .setStdout b) ∨ (∃ f, op = .setCallback f) → s'.sh.cur = σ.cur ∧ s'.sh.fs = σ.fs := by
      intro ho
      rcases List.eq_nil_or_concat outs with rfl | ⟨os, o, rfl⟩
      · cases he
        exact ⟨rfl, rfl⟩
      · cases os with
        | nil =>
          rcases ho with ⟨b, rfl⟩ | ⟨f, rfl⟩
          · obtain ⟨loc1, s1, h1, h2⟩ := exec_last (outs := []) he
            cases h1
            rw [← (Prod.mk.inj (Res.ok.inj h2)).2]
            exact ⟨rfl, rfl⟩
          · obtain ⟨loc1, s1, h1, h2⟩ := exec_last (outs := []) he
            cases h1
            rw [← (Prod.mk.inj (Res.ok.inj h2)).2]
            exact ⟨rfl, rfl⟩
        | cons a os =>
          rcases ho with ⟨b, rfl⟩ | ⟨f, rfl⟩ <;> · 
            simp only [List.concat_eq_append, List.cons_append, exec, start, step] at he
            rw [if_neg (by simp)] at he
            simp only [Res.ok_bind] at he
            cases os <;> (simp [exec] at he)
    cases op with
    | setFile f => exact absurd rfl (hnf f)
    | setStdout b => exact Or.inl (same (assign (Or.inl ⟨b, rfl⟩)).1 (assign (Or.inl ⟨b, rfl⟩)).2)
    | setCallback f => exact Or.inl (same (assign (Or.inr ⟨f, rfl⟩)).1 (assign (Or.inr ⟨f, rfl⟩)).2)
    | log l msg =>
      obtain ⟨nm, hn, -⟩ := (hw.run h hv).name t
      have hpa := part_exec hne hn.str ht.fp ht.cur ht.prev hcc hg he
      have hcut := fun c => hcr.cut (cp := cp) (pp := pp) (c := c) hpa.cur hne
      have hpart := hpa.part
      have dpp : d pp = s'.sh.fs pp := hcr.rest pp (fun ⟨_, e⟩ => hne (path_unique hpa.cur e))
      generalize ep : s'.sh.fs pp = fpp at hpart dpp hcut
      generalize ec : s'.sh.fs cp = fcc at hpart hcut
      cases hpart with
      | none => exact Or.inl (hcut c rfl)
      | @part tm hd q hh hq =>
        exact Or.inr ⟨⟨hd, msg⟩, ⟨t, l, loc, outs, nm, tm, hth, hn.str, hh⟩, Or.inl ⟨q, hq, hcut _ rfl⟩⟩
      | @moved tm hd dd hh hdd =>
        refine Or.inr ⟨⟨hd, msg⟩, ⟨t, l, loc, outs, nm, tm, hth, hn.str, hh⟩, Or.inr ⟨dpp, ?_⟩⟩
        rcases hdd with rfl | rfl
        · left
          have ho : ¬ (Open s' ∧ CStr s'.sh.cur 0 cp) := by
            rintro ⟨ho, hc'⟩
            obtain ⟨x, y, h1, -⟩ := hcr.stream cp ho hc'
            rw [ec] at h1
            cases h1
          rw [hcr.rest cp ho, ec]
        · right
          obtain ⟨x, y, h1, h2, h3⟩ := (hcut [] rfl).cur
          rw [h3]
          have := List.append_eq_nil_iff.1 h1
          rw [this.1]

/-- The lines before a crash and those after it: the next process opens the files again, `sc_log_set_file` adds a
newline to what the crash has left, and the new lines follow; nothing that was there is changed. -/
theorem crash_restart {d : List UInt8 → Option (List UInt8)} {x y p c name : List UInt8} {out err : List UInt8}
    {outs : List Out} {loc : Loc} {s s' : State} {es : List Event} (hne : y ≠ x) (hx : CStr p 0 x) (hy : CStr c 0 y)
    (he : exec name (.setFile (some (p, c))) (start (.setFile (some (p, c)))) outs (init d out err) = .ok (loc, s.sh))
    (hu : loc.pc = .unlock) (hrc : loc.rc = 0) (h : Run s es s') (hw : WF s)
    (hi : ∀ t, (s.th t).st = .idle) (hl : s.lock = none) (hl' : s'.lock = none)
    (hv : ∀ t op, .call t op ∈ es → op.valid)
    (hd : ∀ t name op outs loc, .done t name op outs loc ∈ es → Good outs ∧ ∀ f, op ≠ .setFile f) :
    ∃ ls, Logged es ls ∧ Kept ((d y).getD [] ++ [10]) (d x) ls (s'.sh.fs x) (s'.sh.fs y) := by
  have hf : Fine (init d out err) := (begun_wf d out err).fine
  obtain ⟨h1, h2, -⟩ := set_file_partial hf hx hy he hu
  rcases h1 with ⟨-, -, -, -, h3, h4, h5, h6, -⟩ | ⟨e, -⟩
  · obtain ⟨ls, h7, h8⟩ := rotation_partial h hw hi hl hl' hv hne h3 h5 h4 h6 hd
    rw [h2 x (fun e => hne e.symm)] at h8
    exact ⟨ls, h7, h8⟩
  · rw [hrc] at e
    exact absurd e (by decide)

/-- **C132 is violated**: a process sets the files and logs a message, each call succeeds and returns 0; then it
dies, and of the file the last `B` bytes are missing, all of it if it is shorter. -/
theorem crash_violated {x y msg : List UInt8} (hx0 : ∀ b ∈ x, b ≠ 0) (hy0 : ∀ b ∈ y, b ≠ 0) (hx : x.length < 255)
    (hy : y.length < 255) (hne : y ≠ x) (hm : msg.length ≤ 1000000) (B : Nat) :
    ∃ es s outs loc h tm nm d, Run (begun (fun _ => none) [] []) es s ∧
      (∀ t name op outs loc, .done t name op outs loc ∈ es → loc.rc = 0 ∧ Good outs) ∧
      .done 0 name0 (.log .error msg) outs loc ∈ es ∧ Header tm .error nm h ∧ CStr name0 0 nm ∧
      s.sh.fs y = some ([10] ++ (h ++ msg)) ∧ Crash B s d ∧
      d y = some (([10] ++ (h ++ msg)).take (1 + (h.length + msg.length) - B)) := by
  have hn0 := name0_ok.1.str
  have hw := begun_wf (fun _ => none) [] []
  let o : Out := { ok := true, tm := some ⟨0, 0, 0, 0, 0, 0⟩ }
  have hop : (Op.setFile (some (x ++ [0], y ++ [0]))).valid := ⟨⟨x, .self hx0⟩, ⟨y, .self hy0⟩⟩
  obtain ⟨outs, loc, sh, he, hu, ho, hf', ha'⟩ := exec_exists hn0 hop o _ hw.fine
    (start_at (.setFile (some (x ++ [0], y ++ [0]))) (hw.free rfl)) (Nat.le_refl _)
  have hok : ∀ q ∈ outs, q.ok = true := fun q hq => by rw [ho q hq]
  obtain ⟨h1, h2, h3⟩ := set_file_partial hw.fine (.self hx0) (.self hy0) he hu
  obtain ⟨hrc, hfp⟩ := set_file_ok hw.fine (.self hx0) (.self hy0) hx hy he hu hok
  have hr := run_one (s := begun (fun _ => none) [] []) (t := 0) rfl rfl (by simp) he hu
  rcases h1 with ⟨-, -, -, -, -, e1, e2, e3, e4⟩ | ⟨e, -⟩
  · obtain ⟨outs2, loc2, sh2, he2, hu2, ho2, -, -⟩ := exec_exists (op := .log .error msg) hn0 trivial o _ hf'
      (start_at (.log .error msg) (unlock_at ha')) (Nat.le_refl _)
    have hg : Good outs2 := fun q hq => by rw [ho2 q hq]; exact ⟨rfl, by simp [o]⟩
    obtain ⟨f1, f2, f3, hcase⟩ := log_count hn0 e2 e1 he2 hu2 hg hfp
    obtain ⟨-, -, hrc2, -, -, -, -, -, -, -⟩ := log_delivers hn0 e2 e1 (fun _ => hne) he2 hu2 hg
    have e4 : sh.size = 1 := e4
    have hadd : add64 sh.size msg.length = 1 + msg.length := by
      rw [e4]
      unfold add64
      rw [Nat.mod_eq_of_lt]
      omega
    rw [hadd] at hcase
    rcases hcase with ⟨tm, h, hh, -, -, e5⟩ | ⟨e, -⟩
    · have hr2 := run_one (s := { begun (fun _ => none) [] [] with sh := sh }) (t := 0) rfl rfl (by
        intro l msg e
        obtain ⟨rfl, rfl⟩ := Op.log.inj e
        show ¬ Level.error.rank < Level.info.rank
        decide) he2 hu2
      rw [e3] at e5
      have e5 : sh2.fs y = some ([10] ++ (h ++ msg)) := e5
      refine ⟨_, _, outs2, loc2, h, tm, _, fun q => if q = y then
        some (([10] ++ (h ++ msg)).take (1 + (h.length + msg.length) - B)) else sh2.fs q, hr.trans hr2, ?_, ?_, hh, hn0,
        e5, ⟨?_, ?_⟩, if_pos rfl⟩
      · intro t name op outs' loc' hm
        rcases List.mem_append.1 hm with hm | hm
        · simp at hm
          obtain ⟨-, -, -, rfl, rfl⟩ := hm
          exact ⟨hrc, fun q hq => by rw [ho q hq]; exact ⟨rfl, by simp [o]⟩⟩
        · simp at hm
          obtain ⟨-, -, -, rfl, rfl⟩ := hm
          exact ⟨hrc2 h3.2.2.2.1, hg⟩
      · refine List.mem_append_right _ ?_
        simp [begun]
      · intro q _ hq
        have hq : CStr sh2.cur 0 q := hq
        rw [f2] at hq
        obtain rfl := path_unique e2 hq
        refine ⟨_, ([10] ++ (h ++ msg)).drop (1 + (h.length + msg.length) - B), ?_, ?_, if_pos rfl⟩
        · rw [List.take_append_drop]
          exact e5
        · simp
          omega
      · intro q hq
        refine if_neg (fun e => hq ⟨f1, ?_⟩)
        show CStr sh2.cur 0 q
        rw [f2, e]
        exact e2
    · unfold LIMIT at e
      omega
  · rw [hrc] at e; exact absurd e (by decide)

/-- Every cut is possible: as long as the file is open and not being rotated, a process that dies may lose
any number of bytes up to `B` of the end of its file, also when a thread is in the middle of writing. -/
theorem crash_possible {B : Nat} {s : State} {q x y : List UInt8} (hfp : s.sh.fp = true) (hc : CStr s.sh.cur 0 q)
    (hf : s.sh.fs q = some (x ++ y)) (hy : y.length ≤ B)
    (ht : s.lock = none ∨ ∃ t op loc outs, s.lock = some t ∧ (s.th t).st = .inside op loc outs ∧ loc.pc ≠ .rotRename ∧
      loc.pc ≠ .rotOpen) : Crash B s (fun p => if p = q then some x else s.sh.fs p) := by
  have ho : Open s := by
    unfold Open
    rcases ht with h | ⟨t, op, loc, outs, h1, h2, h3, h4⟩
    · rw [h]; exact hfp
    · rw [h1]
      simp only [h2]
      split <;> first | contradiction | trivial | exact hfp
  constructor
  · intro p _ hp
    obtain rfl := path_unique hc hp
    exact ⟨x, y, hf, hy, if_pos rfl⟩
  · intro p hp
    have : p ≠ q := by rintro rfl; exact hp ⟨ho, hc⟩
    exact if_neg this

/-- A process that has set its files meets the assumptions of `crash_partial`, and a thread of it may be
inside `sc_log_log`. -/
example {x y : List UInt8} (hx0 : ∀ b ∈ x, b ≠ 0) (hy0 : ∀ b ∈ y, b ≠ 0) (hx : x.length < 255)
    (hy : y.length < 255) (hne : y ≠ x) (msg : List UInt8) :
    ∃ s s' base, Run s [.call 0 (.log .error msg)] s' ∧ WF s ∧ (∀ t, (s.th t).st = .idle) ∧ s.lock = none ∧
      s.sh.fp = true ∧ CStr s.sh.cur 0 y ∧ CStr s.sh.prev 0 x ∧ s.sh.fs y = some base ∧
      ∃ loc o, (s'.th 0).st = .inside (.log .error msg) loc [o] := by
  obtain ⟨es, s, g⟩ := grown hx0 hy0 hx hy hne 0
  obtain ⟨base, hb, -⟩ := g.file
  have hw := g.wf
  have r1 := (Run.refl (s := s)).step (Step.call 0 (.log .error msg) (g.idle 0))
  have r2 := r1.step (Step.pass (l := .error) (msg := msg) (((set_th s 0 0 _).1).trans (if_pos rfl)) (by
    show ¬ Level.error.rank < s.level.rank
    rw [g.level]
    decide))
  have r3 := r2.step (Step.lock (((set_th _ 0 0 _).1).trans (if_pos rfl)) g.free)
  have hin := ((set_th ((s.set 0 (Op.log .error msg).entry).set 0 (.waiting (.log .error msg))) 0 0
    (.inside (.log .error msg) (start (.log .error msg)) [])).1).trans (if_pos rfl)
  obtain ⟨loc', sh', he, -⟩ := step_fine (op := .log .error msg) (loc := start (.log .error msg)) (s := s.sh)
    (name := (s.th 0).name) (g.name ▸ name0_ok.1.str) trivial g.fine (start_at (.log .error msg) g.pos) (by simp [start])
    { ok := true }
  have r4 := r3.step (Step.step (t := 0) { ok := true } hin (by simp [start]) he)
  exact ⟨s, _, base, r4, hw, g.idle, g.free, g.fp, g.cur, g.prev, hb, loc', _,
    ((set_th _ 0 0 _).1).trans (if_pos rfl)⟩

end Verif.Log
