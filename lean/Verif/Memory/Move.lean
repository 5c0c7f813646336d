import Verif.Memory.Sum

/-! # C105: `sc_buf_move`, which works on two buffers; and heaps with a failed `sc_heap_add` -/

namespace Verif.Memory

/-! ## Moving data between buffers -/

/-- `sc_buf_move`, buffer/sc_buf.c:243-252, on memory, for two different buffers. The pointer `from` is computed
before `sc_buf_put_raw` (629-636), which may replace the memory of `dest`, and is read after that. -/
def Buf.move (al : Alloc UInt8) (d s : Buf.Obj) (st : Store (List UInt8)) :
    Res ((Buf.Obj × Buf.Obj) × Store (List UInt8)) := do
  let q := sub64 d.cap d.wpos
  let sz := sub64 s.wpos s.rpos
  let copy := if q < sz then q else sz
  let ((d, ok), st) ← Buf.reserve al copy d st
  let ((d, _), st) ← (if !ok then .ok ((d, ()), st) else do
    let b ← load [] s.mem st
    Buf.keep (Buf.putRawRest ((if s.ref then s.lent else b).drop s.rpos) copy) d st)
  .ok ((d, { s with rpos := add64 s.rpos copy }), st)

/-- A call of `sc_buf_move` (buffer/sc_buf.c:243-252) in a program: `n` is the name of `dest`, `m` that of `src`.
Nothing happens unless both exist and are different (`sc_buf_move` of a buffer into itself is in `Verif.Memory.BufSelf`). -/
def Buf.moveW (al : Alloc UInt8) (n m : Nat) (w : World Buf.kind) : Res (World Buf.kind) :=
  if n = m then .ok w else
  match w.objs n, w.objs m with
  | some d, some s => do
    let ((d, s), st) ← Buf.move al d s w.st
    .ok ⟨upd (upd w.objs n (some d)) m (some s), st⟩
  | _, _ => .ok w

/-- The same in the model without memory (buffer/sc_buf.c:243-252). -/
def Buf.moveV (al : Alloc UInt8) (n m : Nat) (vs : Nat → Option Verif.Buf.B) : Res (Nat → Option Verif.Buf.B) :=
  if n = m then .ok vs else
  match vs n, vs m with
  | some d, some s => do
    let (d, s) ← Verif.Buf.move al d s
    .ok (upd (upd vs n (some d)) m (some s))
  | _, _ => .ok vs

theorem Buf.move_ok {al : Alloc UInt8} {od os : Buf.Obj} {st : Store (List UInt8)} {d s d' s' : Verif.Buf.B}
    (hw : st.WF) (hd : Buf.kind.Rep od st d) (hs : Buf.kind.Rep os st s)
    (hap : ∀ i, os.mem = some i → od.mem ≠ some i) (h : Verif.Buf.move al d s = .ok (d', s')) :
    ∃ od' os' st', Buf.move al od os st = .ok ((od', os'), st') ∧ Moves st st' od.mem od'.mem ∧
      os'.mem = os.mem ∧ Buf.kind.Rep od' st' d' ∧ Buf.kind.Rep os' st' s' ∧ Valid os.mem st' := by
  obtain ⟨(md : List UInt8), hld, hvd, hid⟩ := hd
  obtain ⟨(ms : List UInt8), hls, hvs, his⟩ := hs
  have hvd : od.view md = d := hvd
  have hvs : os.view ms = s := hvs
  have hld : load [] od.mem st = .ok md := hld
  have hls : load [] os.mem st = .ok ms := hls
  subst hvd hvs
  obtain ⟨d1, hput, h⟩ := Res.bind_eq_ok.1 h
  cases h
  obtain ⟨copy, hcopy⟩ : ∃ c, c = (if sub64 od.cap od.wpos < sub64 os.wpos os.rpos then
    sub64 od.cap od.wpos else sub64 os.wpos os.rpos) := ⟨_, rfl⟩
  have hput : Verif.Buf.putRaw al (od.view md) ((if os.ref then os.lent else ms).drop os.rpos) copy =
      .ok d' := by rw [hcopy]; exact hput
  obtain ⟨o2, st2, e2, m2, r2⟩ := Buf.putRaw_ok al ((if os.ref then os.lent else ms).drop os.rpos) copy od st _ d' () hw
    ⟨md, hld, rfl, hid⟩ (by simp only [hput, Res.ok_bind])
  unfold Buf.putRaw at e2
  unfold Verif.Buf.putRaw at hput
  obtain ⟨⟨ok, d2⟩, hres, hput⟩ := Res.bind_eq_ok.1 hput
  obtain ⟨o1, st1, e1, m1, r1⟩ := Buf.reserve_ok al copy od st _ d2 ok hw ⟨md, hld, rfl, hid⟩
    (by simp only [hres, Res.ok_bind])
  have hlo : load [] os.mem st1 = .ok ms := (m1.load_other (load_valid hls) hap).1.trans hls
  have hls2 : load [] os.mem st2 = .ok ms := (m2.load_other (load_valid hls) hap).1.trans hls
  rw [e1] at e2
  simp only [Res.ok_bind] at e2
  refine ⟨o2, { os with rpos := add64 os.rpos copy }, st2, ?_, m2, rfl, r2, ⟨ms, hls2, ?_, his⟩, ?_⟩
  · unfold Buf.move
    simp only [← hcopy]
    rw [e1]
    simp only [Res.ok_bind]
    rw [hlo]
    simp only [Res.ok_bind]
    rw [e2]
    simp only [Res.ok_bind]
  · rw [hcopy]
    rfl
  · exact load_valid hls2

theorem Buf.move_tidy {al : Alloc UInt8} {n m : Nat} {w : World Buf.kind} {vs vs' : Nat → Option Verif.Buf.B}
    (ht : w.Tidy Buf.kind) (hm : w.Matches Buf.kind vs) (h : Buf.moveV al n m vs = .ok vs') :
    ∃ w', Buf.moveW al n m w = .ok w' ∧ w'.Tidy Buf.kind ∧ w'.Matches Buf.kind vs' := by
  unfold Buf.moveV at h
  by_cases hnm : n = m
  · rw [if_pos hnm] at h
    cases h
    exact ⟨w, by rw [Buf.moveW, if_pos hnm], ht, hm⟩
  rw [if_neg hnm] at h
  unfold Buf.moveW
  rw [if_neg hnm]
  cases hn : vs n with
  | none =>
    rw [hn] at h
    cases h
    have := hm.none_iff hn
    refine ⟨w, ?_, ht, hm⟩
    rw [this]
  | some d =>
    cases hs : vs m with
    | none =>
      rw [hn, hs] at h
      cases h
      have := hm.none_iff hs
      refine ⟨w, ?_, ht, hm⟩
      rw [this]
      cases w.objs n <;> rfl
    | some s =>
      rw [hn, hs] at h
      obtain ⟨⟨d', s'⟩, hmv, h⟩ := Res.bind_eq_ok.1 h
      cases h
      obtain ⟨od, hod, rd⟩ := hm.some_iff hn
      obtain ⟨os, hos, rs⟩ := hm.some_iff hs
      obtain ⟨od', os', st', e, mv, hp, r1, r2, hv⟩ := Buf.move_ok ht.wf rd rs
        (fun i h1 h2 => hnm (ht.apart n m od os i hod hos h2 h1)) hmv
      obtain ⟨t1, q1⟩ := World.moved (k := Buf.kind) ht hm (o := some od) (o' := some od') (v' := some d')
        hod mv r1
      have hos1 : upd w.objs n (some od') m = some os := by
        rw [upd, if_neg (Ne.symm hnm)]
        exact hos
      refine ⟨⟨upd (upd w.objs n (some od')) m (some os'), st'⟩, ?_, ?_⟩
      · rw [hod, hos]
        simp only [e, Res.ok_bind]
      · have hmv2 : Moves st' st' os.mem os'.mem := by
          rw [hp]
          exact Moves.refl mv.wf hv
        exact World.moved (k := Buf.kind) t1 q1 (o := some os) (o' := some os') (v' := some s') hos1 hmv2 r2

/-- A step of a program with several buffers. -/
inductive Buf.MAct where
  /-- a call of `sc_buf_init`, `sc_buf_wrap`, `sc_buf_term` or a function on one buffer -/
  | one (a : Act Buf.kind)
  /-- `sc_buf_move` from buffer `m` to buffer `n` -/
  | move (al : Alloc UInt8) (n m : Nat)

/-- A program on memory; the second result is what it sees. -/
def Buf.mrun : World Buf.kind → List Buf.MAct → Res (World Buf.kind × List (Seen Buf.kind))
  | w, [] => .ok (w, [])
  | w, .one a :: as => do
    let (w, s) ← w.act Buf.kind a
    let (w, ss) ← Buf.mrun w as
    .ok (w, s :: ss)
  | w, .move al n m :: as => do
    let w ← Buf.moveW al n m w
    Buf.mrun w as

/-- A program in the model without memory. -/
def Buf.mrunV : (Nat → Option Verif.Buf.B) → List Buf.MAct →
    Res ((Nat → Option Verif.Buf.B) × List (Seen Buf.kind))
  | vs, [] => .ok (vs, [])
  | vs, .one a :: as => do
    let (vs, s) ← act Buf.kind vs a
    let (vs, ss) ← Buf.mrunV vs as
    .ok (vs, s :: ss)
  | vs, .move al n m :: as => do
    let vs ← Buf.moveV al n m vs
    Buf.mrunV vs as

/-- The program keeps the rules of buffers (C105); moving data has no rules. -/
def Buf.MKeeps : (Nat → Option Verif.Buf.B) → List Buf.MAct → Prop
  | _, [] => True
  | vs, .one a :: as => Buf.rules.act vs a ∧ ∀ vs' s, act Buf.kind vs a = .ok (vs', s) → Buf.MKeeps vs' as
  | vs, .move al n m :: as => ∀ vs', Buf.moveV al n m vs = .ok vs' → Buf.MKeeps vs' as

theorem Buf.moveV_ok (al : Alloc UInt8) (n m : Nat) {vs : Nat → Option Verif.Buf.B}
    (hI : ∀ n v, vs n = some v → Verif.Buf.InRange v) :
    ∃ vs', Buf.moveV al n m vs = .ok vs' ∧ ∀ n v, vs' n = some v → Verif.Buf.InRange v := by
  unfold Buf.moveV
  by_cases hnm : n = m
  · exact ⟨vs, by rw [if_pos hnm], hI⟩
  rw [if_neg hnm]
  cases hn : vs n with
  | none => exact ⟨vs, rfl, hI⟩
  | some d =>
    cases hs : vs m with
    | none => exact ⟨vs, rfl, hI⟩
    | some s =>
      have rd := hI n d hn
      have rs := hI m s hs
      have h1 := rd.mem
      have h2 := rd.wpos
      have h3 := rd.cap
      have h4 := rs.mem
      have h5 := rs.wpos
      have h6 := rs.cap
      have h7 := rs.rpos
      obtain ⟨c, hc⟩ : ∃ c, c = (if Verif.Buf.quota d < Verif.Buf.size s then Verif.Buf.quota d else Verif.Buf.size s) :=
        ⟨_, rfl⟩
      have hsz : Verif.Buf.size s = s.wpos - s.rpos := by
        unfold Verif.Buf.size sub64
        have := OBJ_MAX
        omega
      have hcl : c ≤ s.wpos - s.rpos := by
        rw [hc, hsz]
        split <;> omega
      obtain ⟨d', hp, hd'⟩ := Verif.Buf.step_inRange rd (.putRaw al (s.mem.drop s.rpos) c)
        ⟨by omega, by rw [List.length_drop]; omega⟩ trivial
      have hp : Verif.Buf.putRaw al d (s.mem.drop s.rpos) c = .ok d' := hp
      have hmv : Verif.Buf.move al d s = .ok (d', { s with rpos := add64 s.rpos c }) := by
        unfold Verif.Buf.move
        simp only [← hc]
        rw [hp]
        rfl
      have hs' : Verif.Buf.InRange { s with rpos := add64 s.rpos c } := by
        refine ⟨h4, ?_, h5, h6⟩
        show add64 s.rpos c ≤ s.wpos
        unfold add64
        have := Nat.mod_le (s.rpos + c) W64
        omega
      refine ⟨upd (upd vs n (some d')) m (some { s with rpos := add64 s.rpos c }), by simp only [hmv, Res.ok_bind], ?_⟩
      exact upd_all (upd_all hI (fun v hv => by cases hv; exact hd')) (fun v hv => by cases hv; exact hs')

/-- **C105**, buffers with `sc_buf_move`: a program that makes, uses and destroys buffers, keeps the rules of the API
and moves data between buffers as it likes does nothing undefined on memory, sees what it sees in the model without
memory, and all the time every block belongs to exactly one existing buffer; when all buffers are destroyed no
block is left. -/
theorem buf_move_memory {as : List Buf.MAct} (h : Buf.MKeeps (fun _ => none) as) :
    ∃ w ss vs, Buf.mrun (World.start Buf.kind) as = .ok (w, ss) ∧ Buf.mrunV (fun _ => none) as = .ok (vs, ss) ∧
      w.Tidy Buf.kind ∧ w.Matches Buf.kind vs ∧ ((∀ n, w.objs n = none) → ∀ i, w.st.blk i = none) := by
  suffices H : ∀ (as : List Buf.MAct) (w : World Buf.kind) (vs : Nat → Option Verif.Buf.B),
      w.Tidy Buf.kind → w.Matches Buf.kind vs → (∀ n v, vs n = some v → Verif.Buf.InRange v) → Buf.MKeeps vs as →
      ∃ w' ss vs', Buf.mrun w as = .ok (w', ss) ∧ Buf.mrunV vs as = .ok (vs', ss) ∧
        w'.Tidy Buf.kind ∧ w'.Matches Buf.kind vs' by
    obtain ⟨w, ss, vs, h1, h2, h3, h4⟩ := H as (World.start Buf.kind) (fun _ => none) (World.start_tidy _) (fun _ => trivial)
      (fun _ _ h => by cases h) h
    exact ⟨w, ss, vs, h1, h2, h3, h4, fun hn => h3.no_leak hn⟩
  intro as
  induction as with
  | nil => intro w vs ht hm _ _; exact ⟨w, [], vs, rfl, rfl, ht, hm⟩
  | cons a as ih =>
    intro w vs ht hm hI hk
    cases a with
    | one a =>
      obtain ⟨vs1, s, h1, hI1⟩ := Rules.act_ok Buf.rules_enough hI hk.1
      obtain ⟨w1, e1, t1, m1⟩ := World.act_ok Buf.kind_sound ht hm h1
      obtain ⟨w2, ss, vs2, e2, h2, t2, m2⟩ := ih w1 vs1 t1 m1 hI1 (hk.2 _ _ h1)
      exact ⟨w2, s :: ss, vs2, by simp only [Buf.mrun, e1, e2, Res.ok_bind],
        by simp only [Buf.mrunV, h1, h2, Res.ok_bind], t2, m2⟩
    | move al n m =>
      obtain ⟨vs1, h1, hI1⟩ := Buf.moveV_ok al n m hI
      obtain ⟨w1, e1, t1, m1⟩ := Buf.move_tidy ht hm h1
      obtain ⟨w2, ss, vs2, e2, h2, t2, m2⟩ := ih w1 vs1 t1 m1 hI1 (hk vs1 h1)
      exact ⟨w2, ss, vs2, by simp only [Buf.mrun, e1, e2, Res.ok_bind],
        by simp only [Buf.mrunV, h1, h2, Res.ok_bind], t2, m2⟩

/-- Two buffers; the bytes of one are moved to the other, which has room for two of them. -/
abbrev exMove : List Buf.MAct :=
  [.one (.create 0 (.wrap [1, 2, 3] 3 true)), .one (.create 1 (.lend [9, 9] 2 false)), .move none 1 0,
    .one (.destroy 0)]

example : Buf.MKeeps (fun _ => none) exMove := by
  refine ⟨fun _ => ⟨rfl, by decide⟩, fun vs s h => ?_⟩
  cases h
  refine ⟨fun _ => ⟨rfl, by decide⟩, fun vs s h => ?_⟩
  cases h
  exact fun vs h => ⟨trivial, fun _ _ _ => trivial⟩

/-- Afterwards the second buffer holds the two bytes, and no memory is left. -/
example : ∃ w ss o, Buf.mrun (World.start Buf.kind) exMove = .ok (w, ss) ∧ w.objs 0 = none ∧
    w.objs 1 = some o ∧ Buf.Obj.lent o = [1, 2] ∧ Buf.Obj.wpos o = 2 ∧ w.st.blk 0 = none :=
  ⟨_, _, _, rfl, rfl, rfl, rfl, rfl, rfl⟩

/-! ## Heaps with a failed `sc_heap_add` -/

/-- **C105 is violated** by heaps when `sc_heap_add` fails: the program that makes an empty heap, adds a pair, for
which there is no memory, and then takes the smallest pair, reads memory that is not there. -/
theorem heap_memory_violated {δ : Type} (k : Int) (d : δ) :
    (World.start (Heap.kind δ)).run _ [.create 0 (0, none), .call 0 (.add k d none), .call 0 .pop] = .ub := by
  rfl

end Verif.Memory
