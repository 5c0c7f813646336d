import Verif.Log.Progress

/-! # The files of the logger -/

namespace Verif.Log

open Spec

/-! ## Setting the files -/

/-- What setting the files never touches. -/
def Same (s s' : Shared) : Prop :=
  s'.out = s.out ∧ s'.err = s.err ∧ s'.calls = s.calls ∧ s'.cb = s.cb ∧ s'.toStdout = s.toStdout

theorem append_nil_fs (s : Shared) (q : List UInt8) : (s.append q []).fs q = some ((s.fs q).getD []) := by
  simp [Shared.append, Shared.file]

/-- Without names, logging to a file is turned off. -/
theorem set_file_off {name : List UInt8} {outs : List Out} {loc : Loc} {s s' : Shared} (hf : Fine s)
    (h : exec name (.setFile none) (start (.setFile none)) outs s = .ok (loc, s')) (hd : loc.pc = .unlock) :
    loc.rc = 0 ∧ loc.errno = 0 ∧ s'.fp = false ∧ s'.fs = s.fs ∧ Same s s' := by
  obtain ⟨cp, hc⟩ := hf.cur
  obtain ⟨pp, hp⟩ := hf.prev
  obtain ⟨o, rest, loc1, s1, rfl, h1, h⟩ := exec_cons h (by simp [start]) hd
  obtain ⟨p', e1, -⟩ := arr_wr0 hp
  obtain ⟨c', e2, -⟩ := arr_wr0 hc
  simp only [step, stepFile, start, e1, e2, Res.ok_bind] at h1
  obtain ⟨rfl, rfl⟩ := Prod.mk.inj (Res.ok.inj h1)
  obtain ⟨o, rest, loc1, s1, rfl, h1, h⟩ := exec_cons h (by simp) hd
  simp only [step, stepFile] at h1
  obtain ⟨rfl, rfl⟩ := Prod.mk.inj (Res.ok.inj h1)
  obtain ⟨rfl, rfl, rfl⟩ := exec_end h rfl
  exact ⟨rfl, rfl, rfl, rfl, rfl, rfl, rfl, rfl, rfl⟩

/-- With two names: either both are short enough, the file is open and a newline was added to it, or the
result is -1 and logging to a file is off. In the latter case a name was too long, or a call has failed,
whose `errno` is kept. No other file is touched.
Missing: `errno` when a name is too long (`set_file_errno_violated`). -/
theorem set_file_partial {name p c x y : List UInt8} {outs : List Out} {loc : Loc} {s s' : Shared} (hf : Fine s)
    (hx : CStr p 0 x) (hy : CStr c 0 y)
    (h : exec name (.setFile (some (p, c))) (start (.setFile (some (p, c)))) outs s = .ok (loc, s'))
    (hd : loc.pc = .unlock) :
    ((loc.rc = 0 ∧ loc.errno = 0 ∧ x.length < 255 ∧ y.length < 255 ∧ s'.fp = true ∧ CStr s'.prev 0 x ∧
        CStr s'.cur 0 y ∧ s'.fs y = some ((s.fs y).getD [] ++ [10]) ∧ s'.size = ((s.fs y).getD []).length + 1) ∨
     (loc.rc = -1 ∧ s'.fp = false ∧ ∃ o ∈ outs, loc.errno = o.errno ∧
        ((255 ≤ x.length ∨ 255 ≤ y.length) ∧ s'.fs y = s.fs y ∨
         x.length < 255 ∧ y.length < 255 ∧ o.ok = false ∧
          (s'.fs y = s.fs y ∨ ∃ q, q <+: [10] ∧ s'.fs y = some ((s.fs y).getD [] ++ q))))) ∧
    (∀ q, q ≠ y → s'.fs q = s.fs q) ∧ Same s s' := by
  obtain ⟨cp, hc⟩ := hf.cur
  obtain ⟨pp, hp⟩ := hf.prev
  obtain ⟨o1, rest, loc1, s1, rfl, h1, h⟩ := exec_cons h (by simp [start]) hd
  obtain ⟨p', e1, hp'⟩ := arr_wr0 hp
  obtain ⟨c', e2, hc'⟩ := arr_wr0 hc
  simp only [step, stepFile, start, e1, e2, Res.ok_bind] at h1
  obtain ⟨rfl, rfl⟩ := Prod.mk.inj (Res.ok.inj h1)
  obtain ⟨o2, rest, loc1, s1, rfl, h1, h⟩ := exec_cons h (by simp) hd
  simp only [step, stepFile, strlen_eq hx, strlen_eq hy, Res.ok_bind] at h1
  by_cases hl : x.length ≥ 255 ∨ y.length ≥ 255
  · rw [if_pos hl] at h1
    obtain ⟨rfl, rfl⟩ := Prod.mk.inj (Res.ok.inj h1)
    obtain ⟨rfl, rfl, rfl⟩ := exec_end h rfl
    exact ⟨Or.inr ⟨rfl, rfl, o2, by simp, rfl, Or.inl ⟨hl, rfl⟩⟩, fun _ _ => rfl, rfl, rfl, rfl, rfl, rfl⟩
  · rw [if_neg hl] at h1
    have hlx : x.length < 255 := by omega
    have hly : y.length < 255 := by omega
    obtain ⟨p2, e3, hp2⟩ := arr_memcpy hp' hx hlx
    obtain ⟨c2, e4, hc2⟩ := arr_memcpy hc' hy hly
    simp only [e3, e4, Res.ok_bind] at h1
    obtain ⟨rfl, rfl⟩ := Prod.mk.inj (Res.ok.inj h1)
    obtain ⟨o3, rest, loc1, s1, rfl, h1, h⟩ := exec_cons h (by simp) hd
    simp only [step, stepFile, cstr_eq hc2.str, Res.ok_bind] at h1
    cases ho3 : o3.ok with
    | false =>
      rw [ho3, if_neg (by simp)] at h1
      obtain ⟨rfl, rfl⟩ := Prod.mk.inj (Res.ok.inj h1)
      obtain ⟨rfl, rfl, rfl⟩ := exec_end h rfl
      exact ⟨Or.inr ⟨rfl, rfl, o3, by simp, rfl, Or.inr ⟨hlx, hly, ho3, Or.inl rfl⟩⟩, fun _ _ => rfl, rfl, rfl, rfl, rfl, rfl⟩
    | true =>
      rw [ho3, if_pos rfl] at h1
      obtain ⟨rfl, rfl⟩ := Prod.mk.inj (Res.ok.inj h1)
      obtain ⟨o4, rest, loc1, s1, rfl, h1, h⟩ := exec_cons h (by simp) hd
      have hcc : ∀ (sh : Shared), sh.cur = c2 → cstr sh.cur 0 = .ok y := fun sh e => e ▸ cstr_eq hc2.str
      simp only [step, stepFile] at h1
      rw [hcc _ rfl, Res.ok_bind] at h1
      cases ho4 : o4.ok with
      | false =>
        rw [ho4, if_neg (by simp)] at h1
        obtain ⟨rfl, rfl⟩ := Prod.mk.inj (Res.ok.inj h1)
        obtain ⟨o5, rest, loc1, s1, rfl, h1, h⟩ := exec_cons h (by simp) hd
        simp only [step, stepFile] at h1
        obtain ⟨rfl, rfl⟩ := Prod.mk.inj (Res.ok.inj h1)
        obtain ⟨rfl, rfl, rfl⟩ := exec_end h rfl
        refine ⟨Or.inr ⟨rfl, rfl, o4, by simp, rfl, Or.inr ⟨hlx, hly, ho4, Or.inr ⟨o4.put [10], ?_, ?_⟩⟩⟩, ?_, rfl, rfl, rfl, rfl, rfl⟩
        · simp only [Out.put, ho4]; exact List.take_prefix _ _
        · simp [Shared.append, Shared.file]
        · intro q hq; simp [Shared.append, Shared.file, hq]
      | true =>
        rw [ho4, if_pos rfl] at h1
        obtain ⟨rfl, rfl⟩ := Prod.mk.inj (Res.ok.inj h1)
        obtain ⟨o5, rest, loc1, s1, rfl, h1, h⟩ := exec_cons h (by simp) hd
        simp only [step, stepFile] at h1
        rw [hcc _ rfl, Res.ok_bind] at h1
        have hput : o4.put [10] = [10] := by simp [Out.put, ho4]
        rw [hput] at h1
        cases ho5 : o5.ok with
        | false =>
          rw [ho5, if_neg (by simp)] at h1
          obtain ⟨rfl, rfl⟩ := Prod.mk.inj (Res.ok.inj h1)
          obtain ⟨o6, rest, loc1, s1, rfl, h1, h⟩ := exec_cons h (by simp) hd
          simp only [step, stepFile] at h1
          obtain ⟨rfl, rfl⟩ := Prod.mk.inj (Res.ok.inj h1)
          obtain ⟨rfl, rfl, rfl⟩ := exec_end h rfl
          refine ⟨Or.inr ⟨rfl, rfl, o5, by simp, rfl, Or.inr ⟨hlx, hly, ho5, Or.inr ⟨[10], List.prefix_refl _, ?_⟩⟩⟩, ?_, rfl, rfl, rfl, rfl, rfl⟩
          · simp [Shared.append, Shared.file]
          · intro q hq; simp [Shared.append, Shared.file, hq]
        | true =>
          rw [ho5, if_pos rfl] at h1
          obtain ⟨rfl, rfl⟩ := Prod.mk.inj (Res.ok.inj h1)
          obtain ⟨rfl, rfl, rfl⟩ := exec_end h rfl
          refine ⟨Or.inl ⟨rfl, rfl, hlx, hly, rfl, hp2.str, hc2.str, ?_, ?_⟩, ?_, rfl, rfl, rfl, rfl, rfl⟩
          · simp [Shared.append, Shared.file]
          · simp [Shared.append, Shared.file]
          · intro q hq; simp [Shared.append, Shared.file, hq]

/-- If nothing fails and the names are short enough, logging to the file is on. -/
theorem set_file_ok {name p c x y : List UInt8} {outs : List Out} {loc : Loc} {s s' : Shared} (hf : Fine s)
    (hx : CStr p 0 x) (hy : CStr c 0 y) (hlx : x.length < 255) (hly : y.length < 255)
    (h : exec name (.setFile (some (p, c))) (start (.setFile (some (p, c)))) outs s = .ok (loc, s'))
    (hd : loc.pc = .unlock) (hg : ∀ o ∈ outs, o.ok = true) : loc.rc = 0 ∧ s'.fp = true := by
  obtain ⟨h, -⟩ := set_file_partial hf hx hy h hd
  rcases h with ⟨h1, -, -, -, h2, -⟩ | ⟨-, -, o, ho, -, h | ⟨-, -, h, -⟩⟩
  · exact ⟨h1, h2⟩
  · omega
  · rw [hg o ho] at h; cases h

/-- The documentation says that `errno` is set on error, but nothing sets it when a name is too long. -/
theorem set_file_errno_violated {name p c x y : List UInt8} {s : Shared} (hf : Fine s) (hx : CStr p 0 x)
    (hy : CStr c 0 y) (hl : 255 ≤ x.length) :
    ∃ outs loc s', exec name (.setFile (some (p, c))) (start (.setFile (some (p, c)))) outs s = .ok (loc, s') ∧
      loc.pc = .unlock ∧ loc.rc = -1 ∧ loc.errno = 0 := by
  obtain ⟨cp, hc⟩ := hf.cur
  obtain ⟨pp, hp⟩ := hf.prev
  obtain ⟨p', e1, -⟩ := arr_wr0 hp
  obtain ⟨c', e2, -⟩ := arr_wr0 hc
  refine ⟨[{ ok := true }, { ok := true, errno := 0 }], { pc := .unlock, rc := -1 },
    { s with fp := false, streams := if s.fp then s.streams - 1 else s.streams, prev := p', cur := c' }, ?_, rfl, rfl, rfl⟩
  simp only [exec]
  rw [if_neg (by simp [start])]
  simp only [step, stepFile, start, e1, e2, Res.ok_bind]
  rw [if_neg (by simp)]
  simp only [strlen_eq hx, strlen_eq hy, Res.ok_bind]
  rw [if_pos (Or.inl hl)]
  rfl

/-! ## C62: rotation -/

/-- The lines of the messages written, one for each, in order. -/
inductive Logged : List Event → List Line → Prop
  | nil : Logged [] []
  | line {es ls t name nm l msg outs loc tm h} : Logged es ls → CStr name 0 nm → Header tm l nm h →
      Logged (es ++ [.done t name (.log l msg) outs loc]) (ls ++ [⟨h, msg⟩])
  | other {es ls e} : Logged es ls → (∀ t name l msg outs loc, e ≠ .done t name (.log l msg) outs loc) →
      Logged (es ++ [e]) ls

theorem bytes_snoc (ls : List Line) (x : Line) : bytes (ls ++ [x]) = bytes ls ++ x.bytes := by simp [bytes]

theorem Kept.line {base : List UInt8} {prev p c : Option (List UInt8)} {ls : List Line} (h : Kept base prev ls p c)
    (x : Line) : Kept base prev (ls ++ [x]) p (some (c.getD [] ++ x.bytes)) := by
  cases h with
  | first =>
    have : some ((some (base ++ bytes ls)).getD [] ++ x.bytes) = some (base ++ bytes (ls ++ [x])) := by
      simp [bytes_snoc]
    rw [this]; exact .first
  | @once b c h hb =>
    have : some ((some (bytes c)).getD [] ++ x.bytes) = some (bytes (c ++ [x])) := by simp [bytes_snoc]
    rw [this]; exact .once (by rw [h, List.append_assoc]) hb
  | @more a b c h ha hb =>
    have : some ((some (bytes c)).getD [] ++ x.bytes) = some (bytes (c ++ [x])) := by simp [bytes_snoc]
    rw [this]; exact .more (by rw [h, List.append_assoc]) ha hb

theorem Kept.rotate {base : List UInt8} {prev p c : Option (List UInt8)} {ls : List Line} (h : Kept base prev ls p c)
    (x : Line) : Kept base prev (ls ++ [x]) (some (c.getD [] ++ x.bytes)) (some []) := by
  have e0 : (some [] : Option (List UInt8)) = some (bytes []) := rfl
  cases h with
  | first =>
    have : some ((some (base ++ bytes ls)).getD [] ++ x.bytes) = some (base ++ bytes (ls ++ [x])) := by
      simp [bytes_snoc]
    rw [this, e0]
    exact .once (List.append_nil _).symm (by simp)
  | @once b c h hb =>
    have : some ((some (bytes c)).getD [] ++ x.bytes) = some (bytes (c ++ [x])) := by simp [bytes_snoc]
    rw [this, e0]
    exact .more (a := b) (b := c ++ [x]) (c := []) (by rw [h]; simp) hb (by simp)
  | @more a b c h ha hb =>
    have : some ((some (bytes c)).getD [] ++ x.bytes) = some (bytes (c ++ [x])) := by simp [bytes_snoc]
    rw [this, e0]
    exact .more (a := a ++ b) (b := c ++ [x]) (c := []) (by rw [h]; simp) (by simp [ha]) (by simp)

/-- Calls that change neither files nor names. -/
theorem exec_assign {name : List UInt8} {op : Op} {outs : List Out} {loc : Loc} {s s' : Shared}
    (ho : (∃ b, op = .setStdout b) ∨ ∃ f, op = .setCallback f)
    (h : exec name op (start op) outs s = .ok (loc, s')) (hd : loc.pc = .unlock) :
    s'.fp = s.fp ∧ s'.cur = s.cur ∧ s'.prev = s.prev ∧ s'.fs = s.fs ∧ s'.size = s.size ∧ s'.out = s.out ∧ s'.err = s.err ∧
      s'.calls = s.calls := by
  rcases ho with ⟨b, rfl⟩ | ⟨f, rfl⟩
  · obtain ⟨o, rest, loc1, s1, rfl, h1, h⟩ := exec_cons h (by simp [start]) hd
    simp only [step, start] at h1
    obtain ⟨rfl, rfl⟩ := Prod.mk.inj (Res.ok.inj h1)
    obtain ⟨rfl, rfl, rfl⟩ := exec_end h rfl
    exact ⟨rfl, rfl, rfl, rfl, rfl, rfl, rfl, rfl⟩
  · obtain ⟨o, rest, loc1, s1, rfl, h1, h⟩ := exec_cons h (by simp [start]) hd
    simp only [step, start] at h1
    obtain ⟨rfl, rfl⟩ := Prod.mk.inj (Res.ok.inj h1)
    obtain ⟨rfl, rfl, rfl⟩ := exec_end h rfl
    exact ⟨rfl, rfl, rfl, rfl, rfl, rfl, rfl, rfl⟩

/-- The names of threads are strings whenever a call returns. -/
theorem done_name {s s' : State} {es : List Event} (h : Run s es s') (hw : WF s)
    (hv : ∀ t op, .call t op ∈ es → op.valid) {t : Nat} {name : List UInt8} {op : Op} {outs : List Out} {loc : Loc}
    (hd : .done t name op outs loc ∈ es) : ∃ nm, CStr name 0 nm ∧ nm.length ≤ 31 := by
  induction h with
  | refl => simp at hd
  | @step s1 s2 e es hr hst ih =>
    have hv' : ∀ t op, .call t op ∈ es → op.valid := fun t op h => hv t op (by simp [h])
    rcases List.mem_append.1 hd with hd | hd
    · exact ih hv' hd
    · cases hst with
      | unlock ht hu =>
        rw [Option.toList_some, List.mem_singleton] at hd
        cases hd
        obtain ⟨nm, h1, h2⟩ := (hw.run hr hv').name t
        refine ⟨nm, h1.str, ?_⟩
        have := h1.str.lt
        rw [h1.len] at this
        omega
      | _ => simp at hd

/-- What holds of a sequence of calls that all succeed and do not set the files. -/
structure Tracked (cp pp base : List UInt8) (before : Option (List UInt8)) (es : List Event) (σ : Shared) (ls : List Line) :
    Prop where
  fp : σ.fp = true
  cur : CStr σ.cur 0 cp
  prev : CStr σ.prev 0 pp
  logged : Logged es ls
  kept : Kept base before ls (σ.fs pp) (σ.fs cp)

theorem tracked {s σ : Shared} {es : List Event} {cp pp base : List UInt8} (h : Seq s es σ) (hne : cp ≠ pp)
    (hfp : s.fp = true) (hc : CStr s.cur 0 cp) (hp : CStr s.prev 0 pp) (hb : s.fs cp = some base)
    (hd : ∀ t name op outs loc, .done t name op outs loc ∈ es →
      (∃ nm, CStr name 0 nm) ∧ Good outs ∧ ∀ f, op ≠ .setFile f) :
    ∃ ls, Tracked cp pp base (s.fs pp) es σ ls := by
  induction h with
  | nil =>
    refine ⟨[], hfp, hc, hp, .nil, ?_⟩
    have : s.fs cp = some (base ++ bytes []) := by rw [hb]; simp [bytes]
    rw [this]
    exact .first
  | @other s2 es e hs hno ih =>
    obtain ⟨ls, ih⟩ := ih (fun t name op outs loc h => hd t name op outs loc (by simp [h]))
    exact ⟨ls, ih.fp, ih.cur, ih.prev, .other ih.logged (fun t name l msg outs loc => hno t name _ outs loc), ih.kept⟩
  | @done s2 s3 es t name op outs loc hs he hu ih =>
    obtain ⟨ls, ih⟩ := ih (fun t name op outs loc h => hd t name op outs loc (by simp [h]))
    obtain ⟨⟨nm, hn⟩, hg, hnf⟩ := hd t name op outs loc (by simp)
    cases op with
    | setFile f => exact absurd rfl (hnf f)
    | setStdout b =>
      obtain ⟨f1, f2, f3, f4, -⟩ := exec_assign (Or.inl ⟨b, rfl⟩) he hu
      exact ⟨ls, f1 ▸ ih.fp, f2 ▸ ih.cur, f3 ▸ ih.prev, .other ih.logged (by simp), f4 ▸ ih.kept⟩
    | setCallback b =>
      obtain ⟨f1, f2, f3, f4, -⟩ := exec_assign (Or.inr ⟨b, rfl⟩) he hu
      exact ⟨ls, f1 ▸ ih.fp, f2 ▸ ih.cur, f3 ▸ ih.prev, .other ih.logged (by simp), f4 ▸ ih.kept⟩
    | log l msg =>
      obtain ⟨-, -, -, -, hf, f1, f2, f3, -, -⟩ := log_delivers hn ih.cur ih.prev (fun _ => hne) he hu hg
      obtain ⟨line, ⟨tm, h, hh, rfl⟩, hcase, -⟩ := hf ih.fp
      refine ⟨ls ++ [⟨h, msg⟩], f1 ▸ ih.fp, f2 ▸ ih.cur, f3 ▸ ih.prev, .line ih.logged hn hh, ?_⟩
      rcases hcase with ⟨e1, e2⟩ | ⟨e1, e2⟩
      · rw [e1, e2]
        exact Kept.line ih.kept ⟨h, msg⟩
      · rw [e1, e2]
        exact Kept.rotate ih.kept ⟨h, msg⟩

/-- Whatever threads log, the two files hold the newest lines, whole and in the order in which the calls
took effect; the oldest of them are either the first ones or begin where a file was started. Missing:
if a call of the library fails, or the two names are the same, lines are lost; see
`rotation_rename_violated` and `rotation_same_name_violated`. -/
theorem rotation_partial {s s' : State} {es : List Event} {cp pp base : List UInt8} (h : Run s es s') (hw : WF s)
    (hi : ∀ t, (s.th t).st = .idle) (hl : s.lock = none) (hl' : s'.lock = none)
    (hv : ∀ t op, .call t op ∈ es → op.valid) (hne : cp ≠ pp)
    (hfp : s.sh.fp = true) (hc : CStr s.sh.cur 0 cp) (hp : CStr s.sh.prev 0 pp) (hb : s.sh.fs cp = some base)
    (hd : ∀ t name op outs loc, .done t name op outs loc ∈ es → Good outs ∧ ∀ f, op ≠ .setFile f) :
    ∃ ls, Logged es ls ∧ Kept base (s.sh.fs pp) ls (s'.sh.fs pp) (s'.sh.fs cp) := by
  obtain ⟨ls, h⟩ := tracked (atomic h hl hi hl') hne hfp hc hp hb (fun t name op outs loc hm => by
    obtain ⟨nm, hn, -⟩ := done_name h hw hv hm
    exact ⟨⟨nm, hn⟩, hd t name op outs loc hm⟩)
  exact ⟨ls, h.logged, h.kept⟩

theorem exec_step {name : List UInt8} {op : Op} {loc loc' : Loc} {o : Out} {outs : List Out} {s s' : Shared}
    (hu : loc.pc ≠ .unlock) (h : step name op loc o s = .ok (loc', s')) :
    exec name op loc (o :: outs) s = exec name op loc' outs s' := by
  simp only [exec]
  rw [if_neg hu, h, Res.ok_bind]

/-- `rotate` as a call of its own: the file is renamed or not and opened again. -/
theorem rotation_exec {name nm cp pp msg : List UInt8} {l : Level} {s : Shared} {tm : Tm} (r : Bool)
    (hn : CStr name 0 nm) (hc : CStr s.cur 0 cp) (hp : CStr s.prev 0 pp) (hfp : s.fp = true) (hso : s.toStdout = false)
    (hcb : s.cb = none) (hsz : add64 s.size msg.length > LIMIT) :
    exec name (.log l msg) (start (.log l msg))
      [{ ok := true }, { ok := true, tm := some tm }, { ok := true }, { ok := true }, { ok := r }, { ok := true },
        { ok := true }] s =
      .ok ({ pc := .unlock },
        { s with
          fp := true
          size := 0
          streams := s.streams - 1 + 1
          fs := rotFs r true cp pp s.fs ((s.fs cp).getD [] ++ (header tm l nm ++ msg)) }) := by
  have hc' : ∀ sh : Shared, sh.cur = s.cur → cstr sh.cur 0 = .ok cp := fun sh e => e ▸ cstr_eq hc
  have hp' : ∀ sh : Shared, sh.prev = s.prev → cstr sh.prev 0 = .ok pp := fun sh e => e ▸ cstr_eq hp
  have hfs : (s.append cp (header tm l nm ++ msg)).fs cp =
      some ((s.fs cp).getD [] ++ (header tm l nm ++ msg)) := by simp [Shared.append, Shared.file]
  have hsz' : add64 (s.append cp (header tm l nm ++ msg)).size msg.length > LIMIT := hsz
  refine (exec_step (loc' := { pc := .file1 }) (s' := s) (by simp [start]) (by
    simp only [step, stepLog, start]
    rw [hso, if_neg (by simp)])).trans ?_
  refine (exec_step (loc' := { pc := .file2 }) (s' := s.append cp (header tm l nm)) (by simp) (by
    simp only [step, stepLog]
    rw [hfp, if_pos rfl, cstr_eq hn, Res.ok_bind, hc' s rfl, Res.ok_bind]
    simp only [Out.put, if_true])).trans ?_
  refine (exec_step (loc' := { pc := .rotClose })
    (s' := { s.append cp (header tm l nm ++ msg) with size := add64 s.size msg.length }) (by simp) (by
    simp only [step, stepLog]
    rw [hc' (s.append cp (header tm l nm)) rfl, Res.ok_bind]
    simp only [Out.put, if_true, append_append]
    rw [if_pos hsz']
    rfl)).trans ?_
  refine (exec_step (loc' := { pc := .rotRename })
    (s' := { s.append cp (header tm l nm ++ msg) with size := add64 s.size msg.length, streams := s.streams - 1 })
    (by simp) (by simp only [step, stepLog]; rfl)).trans ?_
  refine (exec_step (loc' := { pc := .rotOpen })
    (s' := { s with
      size := add64 s.size msg.length
      streams := s.streams - 1
      fs := rotFs r false cp pp s.fs ((s.fs cp).getD [] ++ (header tm l nm ++ msg)) })
    (by simp) (by
    simp only [step, stepLog]
    rw [hc' (s.append cp (header tm l nm ++ msg)) rfl, Res.ok_bind, hp' (s.append cp (header tm l nm ++ msg)) rfl, Res.ok_bind]
    rw [rot_fail (c := (s.fs cp).getD [] ++ (header tm l nm ++ msg)) r (by exact hfs)]
    rw [← rotFs_append r false s cp pp (header tm l nm ++ msg)]
    rfl)).trans ?_
  refine (exec_step (loc' := { pc := .callback })
    (s' := { s with
      fp := true
      size := 0
      streams := s.streams - 1 + 1
      fs := rotFs r true cp pp s.fs ((s.fs cp).getD [] ++ (header tm l nm ++ msg)) })
    (by simp) (by
    simp only [step, stepLog]
    rw [hc' s rfl, Res.ok_bind]
    simp only [if_true, Shared.file]
    have e : (fun p => if p = cp then some [] else
        rotFs r false cp pp s.fs ((s.fs cp).getD [] ++ (header tm l nm ++ msg)) p) =
        rotFs r true cp pp s.fs ((s.fs cp).getD [] ++ (header tm l nm ++ msg)) := by
      funext p
      simp only [rotFs]
      by_cases h1 : p = cp <;> simp [h1]
    rw [e])).trans ?_
  refine (exec_step (loc' := { pc := .unlock }) (by simp) (by
    simp only [step, stepLog]
    rw [hcb])).trans ?_
  simp only [exec]
  rw [hcb]

/-- If renaming fails the call still returns 0, and all that the file held is lost. -/
theorem rotation_rename_violated {name nm cp pp msg : List UInt8} {l : Level} {s : Shared} (hne : cp ≠ pp)
    (hn : CStr name 0 nm) (hc : CStr s.cur 0 cp) (hp : CStr s.prev 0 pp) (hfp : s.fp = true) (hso : s.toStdout = false)
    (hcb : s.cb = none) (hsz : add64 s.size msg.length > LIMIT) :
    ∃ outs loc s', exec name (.log l msg) (start (.log l msg)) outs s = .ok (loc, s') ∧ loc.pc = .unlock ∧
      loc.rc = 0 ∧ s'.fs cp = some [] ∧ s'.fs pp = s.fs pp := by
  refine ⟨_, _, _, rotation_exec (tm := ⟨0, 0, 0, 0, 0, 0⟩) false hn hc hp hfp hso hcb hsz, rfl, rfl, ?_, ?_⟩
  · simp [rotFs]
  · have : pp ≠ cp := fun e => hne e.symm
    simp [rotFs, this]

/-- If the two names are the same, all that the file held is lost although no call fails. -/
theorem rotation_same_name_violated {name nm cp msg : List UInt8} {l : Level} {s : Shared} {tm : Tm}
    (hn : CStr name 0 nm) (hc : CStr s.cur 0 cp) (hp : CStr s.prev 0 cp) (hfp : s.fp = true) (hso : s.toStdout = false)
    (hcb : s.cb = none) (hsz : add64 s.size msg.length > LIMIT) :
    ∃ outs loc s', (∀ o ∈ outs, o.ok = true) ∧
      exec name (.log l msg) (start (.log l msg)) outs s = .ok (loc, s') ∧ loc.pc = .unlock ∧
      loc.rc = 0 ∧ s'.fs cp = some [] ∧ ∀ p, p ≠ cp → s'.fs p = s.fs p := by
  refine ⟨_, _, _, ?_, rotation_exec (tm := tm) true hn hc hp hfp hso hcb hsz, rfl, rfl, ?_, ?_⟩
  · simp
  · simp [rotFs]
  · intro p h
    simp [rotFs, h]

/-! ## C63: the size of the file -/

/-- The bytes of the messages, without headers. -/
def msgBytes (ls : List Line) : Nat := (ls.map fun x => x.msg.length).sum

/-- What the current file holds and what the logger counts: the lines `c`, after `b`. -/
structure Counted (cp base : List UInt8) (σ : Shared) (ls b : _) (c : List Line) : Prop where
  file : σ.fs cp = some (b ++ bytes c)
  count : σ.size = b.length + msgBytes c
  last : (b = base ∧ ls = c) ∨ (b = [] ∧ ∃ a, ls = a ++ c ∧ base.length + msgBytes a > LIMIT)
  small : c ≠ [] → σ.size ≤ LIMIT

theorem log_count {name nm msg cp pp : List UInt8} {l : Level} {outs : List Out} {loc : Loc} {s s' : Shared}
    (hn : CStr name 0 nm) (hc : CStr s.cur 0 cp) (hv : CStr s.prev 0 pp)
    (h : exec name (.log l msg) (start (.log l msg)) outs s = .ok (loc, s')) (hd : loc.pc = .unlock)
    (hg : Good outs) (hfp : s.fp = true) :
    s'.fp = true ∧ s'.cur = s.cur ∧ s'.prev = s.prev ∧
    ((∃ tm h, Header tm l nm h ∧ add64 s.size msg.length ≤ LIMIT ∧ s'.size = add64 s.size msg.length ∧
        s'.fs cp = some ((s.fs cp).getD [] ++ (h ++ msg))) ∨
     (add64 s.size msg.length > LIMIT ∧ s'.size = 0 ∧ s'.fs cp = some [])) := by
  obtain ⟨s1, s2, w1, r, w2, o, h1, h2, rfl, hrc, hgood⟩ := log_phases hn hc hv h hd
  clear h
  obtain ⟨rfl, rfl, rfl⟩ := hgood hg
  have a1 : s1.fs = s.fs ∧ s1.fp = s.fp ∧ s1.cur = s.cur ∧ s1.prev = s.prev ∧ s1.size = s.size := by
    cases h1 with
    | off hs => exact ⟨rfl, rfl, rfl, rfl, rfl⟩
    | @line tm h hs hh =>
      obtain ⟨f1, f2, f3, f4, f5, f6, f7, f8, f9⟩ := emit_frame s l (h ++ msg)
      exact ⟨f7, f1, f2, f3, f4⟩
  obtain ⟨b1, b2, b3, b4, b5⟩ := a1
  cases h2 with
  | off hs => rw [b2, hfp] at hs; cases hs
  | @line tm h hs hh hle =>
    refine ⟨b2.trans hfp, b3, b4, Or.inl ⟨tm, h, hh, b5 ▸ hle, ?_, ?_⟩⟩
    · show add64 s1.size msg.length = _
      rw [b5]
    · show (s1.append cp (h ++ msg)).fs cp = _
      rw [← b1]
      simp [Shared.append, Shared.file]
  | @rotated tm h _ _ hs hh hgt =>
    exact ⟨rfl, b3, b4, Or.inr ⟨b5 ▸ hgt, rfl, by simp [rotFs]⟩⟩

theorem counted {s σ : Shared} {es : List Event} {cp pp base : List UInt8} (h : Seq s es σ)
    (hfp : s.fp = true) (hc : CStr s.cur 0 cp) (hp : CStr s.prev 0 pp) (hb : s.fs cp = some base)
    (hsz : s.size = base.length) (hbl : base.length < 2 ^ 63)
    (hd : ∀ t name op outs loc, .done t name op outs loc ∈ es →
      (∃ nm, CStr name 0 nm) ∧ Good outs ∧ (∀ f, op ≠ .setFile f) ∧ ∀ l msg, op = .log l msg → msg.length < 2 ^ 31) :
    ∃ ls b c, Logged es ls ∧ Counted cp base σ ls b c ∧ σ.fp = true ∧ CStr σ.cur 0 cp ∧ CStr σ.prev 0 pp := by
  induction h with
  | nil =>
    exact ⟨[], base, [], .nil, ⟨by rw [hb]; simp [bytes], by rw [hsz]; rfl, Or.inl ⟨rfl, rfl⟩, by simp⟩, hfp, hc, hp⟩
  | @other s2 es e hs hno ih =>
    obtain ⟨ls, b, c, h1, h2, h3⟩ := ih (fun t name op outs loc h => hd t name op outs loc (by simp [h]))
    exact ⟨ls, b, c, .other h1 (fun t name l msg outs loc => hno t name _ outs loc), h2, h3⟩
  | @done s2 s3 es t name op outs loc hs he hu ih =>
    obtain ⟨ls, b, c, h1, h2, h3, h4, h5⟩ := ih (fun t name op outs loc h => hd t name op outs loc (by simp [h]))
    obtain ⟨⟨nm, hn⟩, hg, hnf, hml⟩ := hd t name op outs loc (by simp)
    cases op with
    | setFile f => exact absurd rfl (hnf f)
    | setStdout x =>
      obtain ⟨f1, f2, f3, f4, f5, -⟩ := exec_assign (Or.inl ⟨x, rfl⟩) he hu
      exact ⟨ls, b, c, .other h1 (by simp), ⟨f4 ▸ h2.file, f5 ▸ h2.count, h2.last, f5 ▸ h2.small⟩, f1 ▸ h3, f2 ▸ h4, f3 ▸ h5⟩
    | setCallback x =>
      obtain ⟨f1, f2, f3, f4, f5, -⟩ := exec_assign (Or.inr ⟨x, rfl⟩) he hu
      exact ⟨ls, b, c, .other h1 (by simp), ⟨f4 ▸ h2.file, f5 ▸ h2.count, h2.last, f5 ▸ h2.small⟩, f1 ▸ h3, f2 ▸ h4, f3 ▸ h5⟩
    | log l msg =>
      obtain ⟨f1, f2, f3, hcase⟩ := log_count hn h4 h5 he hu hg h3
      have hm := hml l msg rfl
      have hsmall : s2.size < 2 ^ 63 := by
        by_cases hc0 : c = []
        · have := h2.count
          subst hc0
          rcases h2.last with ⟨rfl, -⟩ | ⟨rfl, -⟩
          · rw [this]; simp [msgBytes]; exact hbl
          · rw [this]; simp [msgBytes]
        · have := h2.small hc0
          unfold LIMIT at this
          omega
      have hadd : add64 s2.size msg.length = s2.size + msg.length := by
        unfold add64
        rw [Nat.mod_eq_of_lt]
        omega
      rcases hcase with ⟨tm, h, hh, e1, e2, e3⟩ | ⟨e1, e2, e3⟩
      · refine ⟨ls ++ [⟨h, msg⟩], b, c ++ [⟨h, msg⟩], .line h1 hn hh, ⟨?_, ?_, ?_, ?_⟩, f1, f2 ▸ h4, f3 ▸ h5⟩
        · rw [e3, h2.file, bytes_snoc]
          simp [Line.bytes]
        · rw [e2, hadd, h2.count]
          simp [msgBytes]
          omega
        · rcases h2.last with ⟨x, y⟩ | ⟨x, a, y⟩
          · exact Or.inl ⟨x, by rw [y]⟩
          · exact Or.inr ⟨x, a, by rw [y.1, List.append_assoc], y.2⟩
        · intro _
          rw [e2]
          exact e1
      · refine ⟨ls ++ [⟨header ⟨0, 0, 0, 0, 0, 0⟩ l nm, msg⟩], [], [], .line h1 hn (header_spec _ _ _), ⟨?_, ?_, ?_, by simp⟩, f1, f2 ▸ h4, f3 ▸ h5⟩
        · rw [e3]; rfl
        · rw [e2]; rfl
        · refine Or.inr ⟨rfl, _, (List.append_nil _).symm, ?_⟩
          rw [hadd] at e1
          have hcount := h2.count
          rcases h2.last with ⟨rfl, rfl⟩ | ⟨_, a, rfl, ha⟩
          · simp [msgBytes] at hcount ⊢
            omega
          · simp [msgBytes] at ha ⊢
            omega

/-- The messages in the current file, with what the file held at first unless it has been rotated, have at
most SC_LOG_FILE_SIZE = 2 * 1024 * 1024 bytes together, and it has not been rotated unless there were more. Missing: headers are not counted, see
`file_size_violated`; with them there are at most so many bytes and 62 more for each line, see `header_length`. -/
theorem file_size_partial {s s' : State} {es : List Event} {cp pp base : List UInt8} (h : Run s es s') (hw : WF s)
    (hi : ∀ t, (s.th t).st = .idle) (hl : s.lock = none) (hl' : s'.lock = none)
    (hv : ∀ t op, .call t op ∈ es → op.valid)
    (hfp : s.sh.fp = true) (hc : CStr s.sh.cur 0 cp) (hp : CStr s.sh.prev 0 pp) (hb : s.sh.fs cp = some base)
    (hsz : s.sh.size = base.length) (hbl : base.length < 2 ^ 63)
    (hd : ∀ t name op outs loc, .done t name op outs loc ∈ es →
      Good outs ∧ (∀ f, op ≠ .setFile f) ∧ ∀ l msg, op = .log l msg → msg.length < 2 ^ 31) :
    ∃ ls b c, Logged es ls ∧ s'.sh.fs cp = some (b ++ bytes c) ∧
      ((b = base ∧ ls = c) ∨ (b = [] ∧ ∃ a, ls = a ++ c ∧ base.length + msgBytes a > 2 * 1024 * 1024)) ∧
      (c ≠ [] → b.length + msgBytes c ≤ 2 * 1024 * 1024) := by
  obtain ⟨ls, b, c, h1, h2, -⟩ := counted (atomic h hl hi hl') hfp hc hp hb hsz hbl (fun t name op outs loc hm => by
    obtain ⟨nm, hn, -⟩ := done_name h hw hv hm
    exact ⟨⟨nm, hn⟩, hd t name op outs loc hm⟩)
  exact ⟨ls, b, c, h1, h2.file, h2.last, fun hne => h2.count ▸ h2.small hne⟩

theorem decVal_ge (ds : List UInt8) (a : Nat) :
    a * 10 ^ ds.length ≤ ds.foldl (fun a d => a * 10 + (d.toNat - 48)) a := by
  induction ds generalizing a with
  | nil => simp
  | cons d ds ih =>
    simp only [List.foldl_cons, List.length_cons]
    refine Nat.le_trans ?_ (ih _)
    rw [Nat.pow_succ, Nat.mul_comm (10 ^ _) 10, ← Nat.mul_assoc]
    exact Nat.mul_le_mul_right _ (by omega)

theorem isDec_length {s : List UInt8} {n k : Nat} (h : Sc.Spec.IsDec s n) (hk : 0 < k) (hn : n < 10 ^ k) :
    s.length ≤ k := by
  cases s with
  | nil => simp
  | cons d ds =>
    by_cases h48 : d = 48
    · have := h.noZero (by rw [h48]; rfl)
      omega
    · have hd := h.digits d (by simp)
      simp only [isDigit, Bool.and_eq_true, decide_eq_true_eq, UInt8.le_iff_toNat_le] at hd
      have h1 : 48 < d.toNat := by
        have : d.toNat ≠ 48 := fun e => h48 (UInt8.toNat_inj.1 e)
        have := hd.1
        simp at this
        omega
      have hv := h.value
      unfold decVal at hv
      simp only [List.foldl_cons] at hv
      have hge := decVal_ge ds (0 * 10 + (d.toNat - 48))
      rw [hv] at hge
      have h2 : 10 ^ ds.length ≤ (0 * 10 + (d.toNat - 48)) * 10 ^ ds.length :=
        Nat.le_mul_of_pos_left _ (by omega)
      have h3 : 10 ^ ds.length < 10 ^ k := by omega
      have := (Nat.pow_lt_pow_iff_right (by decide : 1 < 10)).1 h3
      simp
      omega

theorem two_length {s : List UInt8} {n : Nat} (h : Two s n) (hn : n < 100) : s.length ≤ 2 := by
  obtain ⟨t, ht, rfl⟩ := h
  have := isDec_length (k := 2) ht (by decide) (by simpa using hn)
  split
  · simp; omega
  · exact this

theorem header_le {y mo d hr mi s nm : List UInt8} (l : Level) (l0 : y.length ≤ 4) (l1 : mo.length ≤ 2)
    (l2 : d.length ≤ 2) (l3 : hr.length ≤ 2) (l4 : mi.length ≤ 2) (l5 : s.length ≤ 2) (hn : nm.length ≤ 31) :
    ([91] ++ y ++ [45] ++ mo ++ [45] ++ d ++ [32] ++ hr ++ [58] ++ mi ++ [58] ++ s ++ [93] ++
      [91] ++ (l.name ++ List.replicate (5 - l.name.length) 32) ++ [93] ++ [91] ++ nm ++ [93] ++ [32]).length ≤ 62 := by
  have l6 : l.name.length ≤ 5 := by cases l <;> decide
  simp only [List.length_append, List.length_cons, List.length_nil, List.length_replicate]
  omega

/-- A header has at most 62 bytes. -/
theorem header_length {tm : Tm} {l : Level} {nm h : List UInt8} (hh : Header tm l nm h) (hn : nm.length ≤ 31)
    (hy : tm.year ≤ 9999) (h1 : tm.mon < 100) (h2 : tm.mday < 100) (h3 : tm.hour < 100) (h4 : tm.min < 100)
    (h5 : tm.sec < 100) : h.length ≤ 62 := by
  obtain ⟨y, mo, d, hr, mi, s, e0, e1, e2, e3, e4, e5, hh⟩ := hh
  have hy4 : tm.year < 10 ^ 4 := Nat.lt_succ_of_le hy
  rw [hh]
  exact header_le l (isDec_length e0 (by decide) hy4) (two_length e1 h1) (two_length e2 h2) (two_length e3 h3)
    (two_length e4 h4) (two_length e5 h5) hn

/-! ### Growth without bound -/

/-- A call from its beginning to its end is an execution of one thread. -/
theorem run_one {s : State} {t : Nat} {op : Op} {outs : List Out} {loc : Loc} {sh : Shared}
    (ht : (s.th t).st = .idle) (hl : s.lock = none) (hlv : ∀ l msg, op = .log l msg → ¬ l.rank < s.level.rank)
    (h : exec (s.th t).name op (start op) outs s.sh = .ok (loc, sh)) (hu : loc.pc = .unlock) :
    Run s [.call t op, .done t (s.th t).name op outs loc] { s with sh := sh } := by
  have fin : ∀ (outs2 : List Out) (s1 : State) (loc1 : Loc) (outs1 : List Out) (es : List Event), Run s es s1 →
      (s1.th t).st = .inside op loc1 outs1 → (∀ i, i ≠ t → s1.th i = s.th i) → (s1.th t).name = (s.th t).name →
      s1.level = s.level →
      exec (s.th t).name op loc1 outs2 s1.sh = .ok (loc, sh) →
      Run s (es ++ [.done t (s.th t).name op (outs1 ++ outs2) loc]) { s with sh := sh } := by
    intro outs2
    induction outs2 with
    | nil =>
      intro s1 loc1 outs1 es hr hin ho hn hlev he
      simp only [exec] at he
      obtain ⟨rfl, rfl⟩ := Prod.mk.inj (Res.ok.inj he)
      have := hr.step (Step.unlock hin hu)
      rw [hn] at this
      rw [List.append_nil]
      have e : ({ s1.set t .idle with lock := none } : State) = { s with sh := s1.sh } := by
        obtain ⟨lv, lk, sh1, th1⟩ := s1
        obtain ⟨lv0, lk0, sh0, th0⟩ := s
        simp only [State.set] at *
        subst hlev hl
        congr 1
        funext i
        by_cases hi : i = t
        · subst hi
          rw [if_pos rfl]
          cases h0 : th0 i with
          | mk n0 st0 =>
          rw [h0] at hn ht
          simp only at hn ht
          rw [hn, ht]
        · rw [if_neg hi, ho i hi]
      rw [← e]
      exact this
    | cons o outs2 ih =>
      intro s1 loc1 outs1 es hr hin ho hn hlev he
      simp only [exec] at he
      split at he
      · cases he
      · next hne =>
        obtain ⟨⟨loc2, sh2⟩, e, he⟩ := Res.bind_eq_ok.1 he
        have hst := Step.step o hin hne (hn ▸ e)
        have hr2 := hr.step hst
        rw [Option.toList_none, List.append_nil] at hr2
        have := ih _ loc2 (outs1 ++ [o]) es hr2 (((set_th s1 t t _).1).trans (if_pos rfl))
          (fun i hi => (set_other s1 t i _ hi).trans (ho i hi)) (((set_th s1 t t _).2).trans hn) hlev he
        rw [List.append_assoc] at this
        exact this
  have r1 : Run s [.call t op] (s.set t op.entry) := Run.refl.step (Step.call t op ht)
  have r2 : Run s [.call t op] (s.set t (.waiting op)) := by
    cases op with
    | log l msg =>
      have hst : Step (s.set t (Op.log l msg).entry) none ((s.set t (Op.log l msg).entry).set t (.waiting (.log l msg))) :=
        Step.pass (((set_th s t t _).1).trans (if_pos rfl)) (hlv l msg rfl)
      have := r1.step hst
      have e : (s.set t (Op.log l msg).entry).set t (.waiting (.log l msg)) = s.set t (.waiting (.log l msg)) := by
        unfold State.set
        congr 1
        funext i
        by_cases hi : i = t <;> simp [hi]
      rw [e] at this
      exact this
    | setStdout b => exact r1
    | setCallback b => exact r1
    | setFile b => exact r1
  have hst := Step.lock (s := s.set t (.waiting op)) (((set_th s t t _).1).trans (if_pos rfl)) hl
  have r3 := r2.step hst
  rw [Option.toList_none, List.append_nil] at r3
  have := fin outs _ (start op) [] _ r3 (((set_th (s.set t (.waiting op)) t t _).1).trans (if_pos rfl))
    (fun i hi => (set_other (s.set t (.waiting op)) t i _ hi).trans (set_other s t i _ hi))
    (((set_th (s.set t (.waiting op)) t t _).2).trans (set_th s t t _).2) rfl h
  exact this

theorem exec_exists {name nm : List UInt8} {op : Op} (hn : CStr name 0 nm) (hv : op.valid) (o : Out) :
    ∀ (n : Nat) {loc : Loc} {s : Shared}, Fine s → At op loc.pc s → loc.pc.left ≤ n →
    ∃ outs loc' s', exec name op loc outs s = .ok (loc', s') ∧ loc'.pc = .unlock ∧ (∀ x ∈ outs, x = o) ∧ Fine s' ∧
      At op .unlock s' := by
  intro n
  induction n with
  | zero =>
    intro loc s hf ha hl
    have hu : loc.pc = .unlock := by
      revert hl
      cases loc.pc <;> simp [Pc.left]
    exact ⟨[], loc, s, rfl, hu, by simp, hf, hu ▸ ha⟩
  | succ n ih =>
    intro loc s hf ha hl
    by_cases hu : loc.pc = .unlock
    · exact ⟨[], loc, s, rfl, hu, by simp, hf, hu ▸ ha⟩
    · obtain ⟨loc1, s1, e, hf1, ha1, hl1⟩ := step_fine hn hv hf ha hu o
      obtain ⟨outs, loc', s', e', h1, h2, h3⟩ := ih hf1 ha1 (by omega)
      refine ⟨o :: outs, loc', s', (exec_step hu e).trans e', h1, ?_, h3⟩
      intro x hx
      rcases List.mem_cons.1 hx with rfl | hx
      · rfl
      · exact h2 x hx

theorem header_pos {tm : Tm} {l : Level} {nm h : List UInt8} (hh : Header tm l nm h) : 0 < h.length := by
  obtain ⟨y, mo, d, hr, mi, s, e0, e1, e2, e3, e4, e5, hh⟩ := hh
  rw [hh]
  simp only [List.length_append, List.length_cons, List.length_nil]
  omega

/-- Only headers are written here: `n` messages of length 0. -/
structure Grown (x y : List UInt8) (n : Nat) (es : List Event) (s : State) : Prop where
  run : Run (begun (fun _ => none) [] []) es s
  free : s.lock = none
  idle : ∀ t, (s.th t).st = .idle
  name : (s.th 0).name = name0
  level : s.level = .info
  good : ∀ t name op outs loc, .done t name op outs loc ∈ es → loc.rc = 0 ∧ Good outs ∧ ∀ l msg, op = .log l msg → msg = []
  fine : Fine s.sh
  pos : s.sh.streams = if s.sh.fp then 1 else 0
  fp : s.sh.fp = true
  cb : s.sh.cb = none
  cur : CStr s.sh.cur 0 y
  prev : CStr s.sh.prev 0 x
  size : s.sh.size = 1
  file : ∃ c, s.sh.fs y = some c ∧ n < c.length
  none : s.sh.fs x = none
  wf : WF s

theorem grown {x y : List UInt8} (hx0 : ∀ b ∈ x, b ≠ 0) (hy0 : ∀ b ∈ y, b ≠ 0) (hx : x.length < 255)
    (hy : y.length < 255) (hne : y ≠ x) (n : Nat) : ∃ es s, Grown x y n es s := by
  have hn0 := name0_ok.1.str
  induction n with
  | zero =>
    have hw := begun_wf (fun _ => none) [] []
    let o : Out := { ok := true, tm := some ⟨0, 0, 0, 0, 0, 0⟩ }
    have hop : (Op.setFile (some (x ++ [0], y ++ [0]))).valid := ⟨⟨x, .self hx0⟩, ⟨y, .self hy0⟩⟩
    obtain ⟨outs, loc, s', he, hu, ho, hf', ha'⟩ := exec_exists hn0 hop o _ hw.fine
      (start_at (.setFile (some (x ++ [0], y ++ [0]))) (hw.free rfl)) (Nat.le_refl _)
    have hok : ∀ q ∈ outs, q.ok = true := fun q hq => by rw [ho q hq]
    obtain ⟨h1, h2, h3⟩ := set_file_partial hw.fine (.self hx0) (.self hy0) he hu
    obtain ⟨hrc, hfp⟩ := set_file_ok hw.fine (.self hx0) (.self hy0) hx hy he hu hok
    have hr := run_one (s := begun (fun _ => none) [] []) (t := 0) rfl rfl (by simp) he hu
    rcases h1 with ⟨-, -, -, -, -, e1, e2, e3, e4⟩ | ⟨e, -⟩
    · refine ⟨_, _, hr, rfl, fun _ => rfl, rfl, rfl, ?_, hf', unlock_at ha', hfp, h3.2.2.2.1, e2, e1, e4, ⟨_, e3, by simp⟩, ?_, hw.run hr (by simp; exact hop)⟩
      · intro t name op outs' loc' hm
        simp at hm
        obtain ⟨-, -, rfl, rfl, rfl⟩ := hm
        exact ⟨hrc, fun q hq => by rw [ho q hq]; exact ⟨rfl, by simp [o]⟩, by simp⟩
      · exact h2 x (fun e => hne e.symm)
    · rw [hrc] at e; exact absurd e (by decide)
  | succ n ih =>
    obtain ⟨es, s, g⟩ := ih
    let o : Out := { ok := true, tm := some ⟨0, 0, 0, 0, 0, 0⟩ }
    obtain ⟨outs, loc, s', he, hu, ho, hf', ha'⟩ := exec_exists (op := .log .info []) (g.name ▸ hn0) trivial o _ g.fine
      (start_at (.log .info []) g.pos) (Nat.le_refl _)
    have hg : Good outs := fun q hq => by rw [ho q hq]; exact ⟨rfl, by simp [o]⟩
    have hn : CStr (s.th 0).name 0 _ := g.name ▸ hn0
    obtain ⟨f1, f2, f3, hcase⟩ := log_count hn g.cur g.prev he hu hg g.fp
    obtain ⟨-, -, hrc, -, hfile, -, -, -, -, hcb⟩ := log_delivers hn g.cur g.prev (fun _ => hne) he hu hg
    have hadd : add64 s.sh.size ([] : List UInt8).length = 1 := by rw [g.size]; rfl
    rw [hadd] at hcase
    obtain ⟨c, hc, hcl⟩ := g.file
    rcases hcase with ⟨tm, h, hh, -, e2, e3⟩ | ⟨e1, -⟩
    · have hr := run_one (t := 0) (g.idle 0) g.free (by
        intro l msg e
        obtain ⟨rfl, rfl⟩ := Op.log.inj e
        rw [g.level]
        decide) he hu
      refine ⟨_, _, g.run.trans hr, g.free, g.idle, g.name, g.level, ?_, hf', unlock_at ha', f1, ?_, f2 ▸ g.cur, f3 ▸ g.prev, e2, ?_, ?_, g.wf.run hr (by simp [Op.valid])⟩
      · intro t name op outs' loc' hm
        rcases List.mem_append.1 hm with hm | hm
        · exact g.good t name op outs' loc' hm
        · simp at hm
          obtain ⟨-, -, rfl, rfl, rfl⟩ := hm
          refine ⟨hrc g.cb, hg, ?_⟩
          intro l msg e
          exact (Op.log.inj e).2.symm
      · exact hcb.trans g.cb
      · refine ⟨_, e3, ?_⟩
        have := header_pos hh
        rw [hc]
        simp
        omega
      · obtain ⟨line, -, hcase, -⟩ := hfile g.fp
        rcases hcase with ⟨-, e⟩ | ⟨-, e⟩
        · exact e.trans g.none
        · have e3 : s'.fs y = _ := e3
          rw [e3] at e
          have hp := header_pos hh
          have := congrArg (fun q => (q.getD []).length) e
          simp at this
          rw [this.2] at hp
          simp at hp
    · exact absurd e1 (by decide)

/-- Headers are not counted: the file grows beyond any bound and is never rotated when messages are
empty, with all calls successful. -/
theorem file_size_violated {x y : List UInt8} (hx0 : ∀ b ∈ x, b ≠ 0) (hy0 : ∀ b ∈ y, b ≠ 0) (hx : x.length < 255)
    (hy : y.length < 255) (hne : y ≠ x) (n : Nat) :
    ∃ es s c, Run (begun (fun _ => none) [] []) es s ∧
      (∀ t name op outs loc, .done t name op outs loc ∈ es → loc.rc = 0 ∧ ∀ l msg, op = .log l msg → msg = []) ∧
      s.sh.fs y = some c ∧ n < c.length ∧ s.sh.fs x = none := by
  obtain ⟨es, s, g⟩ := grown hx0 hy0 hx hy hne n
  obtain ⟨c, h1, h2⟩ := g.file
  exact ⟨es, s, c, g.run, fun t name op outs loc hm => ⟨(g.good t name op outs loc hm).1, (g.good t name op outs loc hm).2.2⟩,
    h1, h2, g.none⟩

end Verif.Log
