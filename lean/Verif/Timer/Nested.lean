import Verif.Timer.Late

/-!
# Polling and destroying a timer inside its callback

The callbacks of `Model.lean` add, cancel and clear. Here they may also poll the same timer again, whose
callbacks may poll again, and so on, and may destroy the timer. The depth of the nesting is any number;
runs that go deeper than that number are left out.
-/

namespace Verif.Timer

open Spec

/-- A client program that may also poll, with the state `s` for the callbacks, and go on with their state
and the result, or destroy the timer. -/
inductive NProg (σ : Type) where
  | ret (s : σ)
  | add (al : Alloc Nat) (timeout type data : Nat) (k : Nat → NProg σ)
  | cancel (id : Nat) (k : NProg σ)
  | clear (k : NProg σ)
  | poll (ts : Nat) (s : σ) (k : σ → Nat → NProg σ)
  | term (k : NProg σ)

/-- What calling the callback does. -/
abbrev Call (σ : Type) := σ → Nat → Nat → Nat → Cfg → Res (Out σ)

/-- The inner loop of `sc_timer_timeout`, timer/sc_timer.c:185-199, for any callback. -/
def cellsN (E : Call σ) (head : Nat) : (n i base : Nat) → Cfg → σ → Res (Out σ)
  | 0, _, _, c, s => .ok (some (c, s, []))
  | n + 1, i, base, c, s => do
    let index := add32 base i
    let item ← rd c.t.list index
    if item.timeout ≤ c.t.timestamp then
      let l ← wr c.t.list index { item with timeout := INVALID }
      let r ← E s item.timeout item.type item.data { c with t := { c.t with list := l } }
      match r with
      | none => .ok none
      | some (c, s, es) =>
        let base := mul32 c.t.wheel head
        pre (.fire (mkid i head) item.timeout item.type item.data :: es)
          (cellsN E head n (i + 1) base c s)
    else cellsN E head n (i + 1) base c s

/-- The outer loop of `sc_timer_timeout`, timer/sc_timer.c:181-202, for any callback. -/
def slotsN (E : Call σ) : (wheels head : Nat) → Cfg → σ → Res (Out σ)
  | 0, _, c, s => .ok (some (c, s, []))
  | n + 1, head, c, s => do
    let r ← cellsN E head c.t.wheel 0 (mul32 c.t.wheel head) c s
    match r with
    | none => .ok none
    | some (c, s, es) => pre es (slotsN E n ((head + 1) % WHEEL_COUNT) c s)

/-- `sc_timer_timeout`, timer/sc_timer.c:163-204, for any callback. -/
def timeoutN (E : Call σ) (ts : Nat) (c : Cfg) (s : σ) : Res (Out σ × Nat) := do
  let time := sub64 ts c.t.timestamp
  let wheels := (if time / TICK < WHEEL_COUNT then time / TICK else WHEEL_COUNT) % W32
  if wheels = 0 then return (some (c, s, []), hint time)
  let head := c.t.head
  let t := { c.t with timestamp := ts, head := (add32 c.t.head wheels) % WHEEL_COUNT }
  let r ← pre [.now ts] (slotsN E wheels head { c with t := t } s)
  return (r, hint time)

/-- Running client code, by the same rules as `exec`: the times given do not decrease. -/
def execP (E : Call σ) : NProg σ → Cfg → Res (Out σ)
  | .ret s, c => .ok (some (c, s, []))
  | .add al timeout type data k, c =>
    if timeout + c.t.timestamp < INVALID then do
      let (t, id) ← Timer.add al c.t timeout type data
      if id = INVALID then
        pre [.addFail] (execP E (k id) { c with t := t })
      else
        pre [.add timeout type data id] (execP E (k id) ⟨t, id :: c.issued⟩)
    else .ok none
  | .cancel id k, c =>
    if id = INVALID ∨ id ∈ c.issued then do
      let (t, _) ← Timer.cancel c.t id
      pre [.cancel id] (execP E k { c with t := t })
    else .ok none
  | .clear k, c => do
    let t ← Timer.clear c.t
    pre [.clear] (execP E k { c with t := t })
  | .poll ts s k, c =>
    if c.t.timestamp ≤ ts ∧ ts < INVALID then do
      let (r, h) ← timeoutN E ts c s
      match r with
      | none => .ok none
      | some (c, s, es) => pre es (execP E (k s h) c)
    else .ok none
  | .term k, c => pre [.clear] (execP E k ⟨Timer.term c.t, []⟩)

/-- The callback `cb`, with `depth` further levels of polls inside polls. -/
def calls (cb : σ → Nat → Nat → Nat → NProg σ) : (depth : Nat) → Call σ
  | 0 => fun _ _ _ _ _ => .ok none
  | d + 1 => fun s a b e c => execP (calls cb d) (cb s a b e) c

/-- A program that does not destroy the timer. -/
def NProg.Keeps : NProg σ → Prop
  | .ret _ => True
  | .add _ _ _ _ k => ∀ id, (k id).Keeps
  | .cancel _ k => k.Keeps
  | .clear k => k.Keeps
  | .poll _ _ k => ∀ s h, (k s h).Keeps
  | .term _ => False

/-! ## The link to `Model.lean` -/

/-- The same program without polls. -/
def Prog.lift : Prog σ → NProg σ
  | .ret s => .ret s
  | .add al timeout type data k => .add al timeout type data fun id => (k id).lift
  | .cancel id k => .cancel id k.lift
  | .clear k => .clear k.lift

theorem lift_exec {E : Call σ} (p : Prog σ) : ∀ c, execP E p.lift c = exec p c := by
  induction p with
  | ret s => intro c; rfl
  | add al timeout type data k ih => intro c; simp only [Prog.lift, execP, exec, ih]
  | cancel id k ih => intro c; simp only [Prog.lift, execP, exec, ih]
  | clear k ih => intro c; simp only [Prog.lift, execP, exec, ih]

theorem lift_cells {cb : σ → Nat → Nat → Nat → Prog σ} {E : Call σ} (hE : ∀ s a b e c, E s a b e c = exec (cb s a b e) c)
    (head n : Nat) : ∀ i base c s, cellsN E head n i base c s = cells cb head n i base c s := by
  induction n with
  | zero => intros; rfl
  | succ n ih => intro i base c s; simp only [cellsN, cells, ih, hE]; rfl

theorem lift_slots {cb : σ → Nat → Nat → Nat → Prog σ} {E : Call σ} (hE : ∀ s a b e c, E s a b e c = exec (cb s a b e) c)
    (n : Nat) : ∀ head c s, slotsN E n head c s = slots cb n head c s := by
  induction n with
  | zero => intros; rfl
  | succ n ih => intro head c s; simp only [slotsN, slots, ih, lift_cells hE]; rfl

/-- Without polls inside callbacks this is the model of `Model.lean`. -/
theorem lift_timeout (cb : σ → Nat → Nat → Nat → Prog σ) (d ts : Nat) (c : Cfg) (s : σ) :
    timeoutN (calls (fun s a b e => (cb s a b e).lift) (d + 1)) ts c s = timeout cb ts c s := by
  have hE : ∀ s a b e c, calls (fun s a b e => (cb s a b e).lift) (d + 1) s a b e c = exec (cb s a b e) c := by
    intro s a b e c
    simp only [calls, lift_exec]
  simp only [timeoutN, timeout, lift_slots hE]

/-! ## Nested polls -/

/-- What client code does: what happened is allowed, the timer holds what is pending, and no cell is gone. -/
structure Sound (c : Cfg) (live : Nat → Option Entry) (c' : Cfg) (live' : Nat → Option Entry) (es : List Ev) : Prop where
  tr : Trace ⟨live, c.t.timestamp⟩ es ⟨live', c'.t.timestamp⟩
  rep : RepC c' live'
  wheel : c.t.wheel ≤ c'.t.wheel

theorem Sound.refl {c : Cfg} {live : Nat → Option Entry} (r : RepC c live) : Sound c live c live [] :=
  ⟨.nil _, r, Nat.le_refl _⟩

theorem Sound.trans {c c' c'' : Cfg} {live live' live'' : Nat → Option Entry} {es es' : List Ev}
    (g : Sound c live c' live' es) (g' : Sound c' live' c'' live'' es') : Sound c live c'' live'' (es ++ es') :=
  ⟨g.tr.append g'.tr, g'.rep, Nat.le_trans g.wheel g'.wheel⟩

theorem Good.sound {c c' : Cfg} {live live' : Nat → Option Entry} {es : List Ev} (g : Good c live c' live' es) :
    Sound c live c' live' es := ⟨g.tr, g.rep, g.wheel⟩

/-- The outcome is defined, and sound if the rules are kept. -/
def Safe (c : Cfg) (live : Nat → Option Entry) (r : Res (Out σ)) : Prop :=
  ∃ o, r = .ok o ∧ ∀ c' s' es, o = some (c', s', es) → ∃ live', Sound c live c' live' es

theorem pre_safe {c c1 : Cfg} {live live1 : Nat → Option Entry} {es : List Ev} {r : Res (Out σ)}
    (g : Sound c live c1 live1 es) (h : Safe c1 live1 r) : Safe c live (pre es r) := by
  obtain ⟨o, rfl, ho⟩ := h
  refine ⟨_, pre_eq, ?_⟩
  intro c' s' es' h
  cases o with
  | none => cases h
  | some v =>
    obtain ⟨c2, s2, es2⟩ := v
    cases h
    obtain ⟨live', g'⟩ := ho _ _ _ rfl
    exact ⟨live', g.trans g'⟩

/-- A callback that is safe wherever it is called. -/
def SafeCall (E : Call σ) : Prop := ∀ s a b e c live, RepC c live → Safe c live (E s a b e c)

theorem cellsN_spec {E : Call σ} (hE : SafeCall E) {head : Nat} (hh : head < 16) (n : Nat) :
    ∀ {i : Nat} {c : Cfg} {live : Nat → Option Entry} {s : σ}, RepC c live → i + n ≤ c.t.wheel →
      ∃ o, cellsN E head n i (mul32 c.t.wheel head) c s = .ok o ∧
        ∀ c' s' es, o = some (c', s', es) → ∃ live', Sound c live c' live' es ∧
          ∀ j e, i ≤ j → j < i + n → live (mkid j head) = some e →
            e.deadline ≤ c.t.timestamp → Resolved es (mkid j head) := by
  induction n with
  | zero =>
    intro i c live s r _
    refine ⟨_, rfl, ?_⟩
    intro c' s' es h; cases h
    exact ⟨live, .refl r, fun j e h1 h2 => by omega⟩
  | succ n ih =>
    intro i c live s r hi
    have hbase : mul32 c.t.wheel head = head * c.t.wheel := by
      have := mul32_idx hh r.rep.wle
      unfold mul32 at this ⊢; rw [Nat.mul_comm]; exact this
    obtain ⟨item, hc1, hc2⟩ := r.rep.cell head i hh (by omega)
    rw [cellsN]
    simp only [hbase]
    rw [add32_idx hh (by omega) r.rep.wle, rd_eq_ok.2 hc1, Res.ok_bind]
    have hts := r.rep.ts
    by_cases hdue : item.timeout ≤ c.t.timestamp
    · rw [if_pos hdue]
      have hlt := idx_lt hh (show i < c.t.wheel by omega)
      rw [wr_lt (by rw [r.rep.len]; omega), Res.ok_bind]
      have r1 := r.rep.set hh (show i < c.t.wheel by omega) { item with timeout := INVALID }
      rw [show entry { item with timeout := INVALID } = none by simp [entry]] at r1
      have rc1 := RepC.mk (c := ⟨_, c.issued⟩) r1 r.issued
      obtain ⟨o, ho, hgood⟩ := hE s item.timeout item.type item.data _ _ rc1
      rw [ho, Res.ok_bind]
      have hent : live (mkid i head) = some ⟨item.timeout, item.type, item.data⟩ := by
        rw [hc2]; simp only [entry]; rw [if_neg (by omega)]
      cases o with
      | none => exact ⟨none, rfl, fun _ _ _ h => nomatch h⟩
      | some v =>
        obtain ⟨c2, s2, es2⟩ := v
        obtain ⟨live2, g2⟩ := hgood _ _ _ rfl
        have gf : Sound c live c2 live2 (.fire (mkid i head) item.timeout item.type item.data :: es2) :=
          ⟨.fire (e := ⟨item.timeout, item.type, item.data⟩) hent hdue g2.tr, g2.rep, g2.wheel⟩
        have hw2 : c.t.wheel ≤ c2.t.wheel := g2.wheel
        obtain ⟨o3, ho3, hg3⟩ := ih (i := i + 1) (s := s2) g2.rep (by omega)
        simp only
        rw [ho3, pre_eq]
        refine ⟨_, rfl, ?_⟩
        intro c' s' es h
        cases o3 with
        | none => cases h
        | some v3 =>
          obtain ⟨c3, s3, es3⟩ := v3
          cases h
          obtain ⟨live3, g3, hres⟩ := hg3 _ _ _ rfl
          refine ⟨live3, gf.trans g3, ?_⟩
          intro j e hj1 hj2 hl hd
          by_cases hji : j = i
          · subst hji
            exact Or.inl ⟨_, _, _, List.mem_append_left _ List.mem_cons_self⟩
          · rcases gf.tr.persist hl with h | h
            · exact h.left
            · refine Resolved.right (hres j e (by omega) (by omega) h ?_)
              exact Nat.le_trans hd gf.tr.mono
    · rw [if_neg hdue]
      obtain ⟨o3, ho3, hg3⟩ := ih (i := i + 1) (s := s) r (by omega)
      rw [hbase] at ho3
      refine ⟨o3, ho3, ?_⟩
      intro c' s' es h
      obtain ⟨live3, g3, hres⟩ := hg3 _ _ _ h
      refine ⟨live3, g3, ?_⟩
      intro j e hj1 hj2 hl hd
      by_cases hji : j = i
      · subst hji
        exfalso
        rw [hc2] at hl
        simp only [entry] at hl
        split at hl
        · cases hl
        · cases hl; exact hdue hd
      · exact hres j e (by omega) (by omega) hl hd

theorem slotsN_spec {E : Call σ} (hE : SafeCall E) (n : Nat) :
    ∀ {head : Nat} {c : Cfg} {live : Nat → Option Entry} {s : σ}, head < 16 → RepC c live →
      ∃ o, slotsN E n head c s = .ok o ∧
        ∀ c' s' es, o = some (c', s', es) → ∃ live', Sound c live c' live' es ∧
          ∀ k j e, k < n → live (mkid j ((head + k) % 16)) = some e →
            e.deadline ≤ c.t.timestamp → Resolved es (mkid j ((head + k) % 16)) := by
  induction n with
  | zero =>
    intro head c live s _ r
    refine ⟨_, rfl, ?_⟩
    intro c' s' es h; cases h
    exact ⟨live, .refl r, fun k j e h => by omega⟩
  | succ n ih =>
    intro head c live s hh r
    rw [slotsN]
    obtain ⟨o, ho, hg⟩ := cellsN_spec hE hh c.t.wheel (i := 0) (s := s) r (by omega)
    rw [ho, Res.ok_bind]
    cases o with
    | none => exact ⟨none, rfl, fun _ _ _ h => nomatch h⟩
    | some v =>
      obtain ⟨c1, s1, es1⟩ := v
      obtain ⟨live1, g1, hres1⟩ := hg _ _ _ rfl
      obtain ⟨o2, ho2, hg2⟩ := ih (head := (head + 1) % 16) (s := s1) (by omega) g1.rep
      simp only
      rw [ho2, pre_eq]
      refine ⟨_, rfl, ?_⟩
      intro c' s' es h
      cases o2 with
      | none => cases h
      | some v2 =>
        obtain ⟨c2, s2, es2⟩ := v2
        cases h
        obtain ⟨live2, g2, hres2⟩ := hg2 _ _ _ rfl
        refine ⟨live2, g1.trans g2, ?_⟩
        intro k j e hk hl hd
        by_cases hk0 : k = 0
        · subst hk0
          have e0 : (head + 0) % 16 = head := by omega
          rw [e0] at hl ⊢
          obtain ⟨p', s', hp', hs', he⟩ := r.rep.dom _ (by rw [hl]; simp)
          obtain ⟨rfl, rfl⟩ := id_inj hh hp' he
          exact (hres1 j e (by omega) (by omega) hl hd).left
        · rcases g1.tr.persist hl with h | h
          · exact h.left
          · have e1 : (head + k) % 16 = ((head + 1) % 16 + (k - 1)) % 16 := by omega
            rw [e1] at h ⊢
            exact Resolved.right (hres2 (k - 1) j e (by omega) h (Nat.le_trans hd g1.tr.mono))

theorem timeoutN_spec {E : Call σ} (hE : SafeCall E) {c : Cfg} {live : Nat → Option Entry}
    {s : σ} {ts : Nat} (r : RepC c live) (h1 : c.t.timestamp ≤ ts) (h2 : ts < INVALID) :
    ∃ o ret, timeoutN E ts c s = .ok (o, ret) ∧ ret ≤ 16 ∧
      ∀ c' s' es, o = some (c', s', es) → ∃ live', Sound c live c' live' es ∧
        (∀ k j e, k < swept c.t.timestamp ts → live (mkid j ((c.t.head + k) % 16)) = some e →
          e.deadline ≤ ts → Resolved es (mkid j ((c.t.head + k) % 16))) := by
  have htime : sub64 ts c.t.timestamp = ts - c.t.timestamp := by unfold sub64; omega
  have hw : (if (ts - c.t.timestamp) / 16 < 16 then (ts - c.t.timestamp) / 16 else 16) % W32 =
      swept c.t.timestamp ts := by unfold swept; split <;> omega
  have hhint : hint (ts - c.t.timestamp) ≤ 16 := by
    unfold hint sub64
    split <;> omega
  unfold timeoutN
  simp only [htime, hw]
  have hhead := r.rep.head
  by_cases h0 : swept c.t.timestamp ts = 0
  · rw [if_pos h0]
    refine ⟨_, _, rfl, hhint, ?_⟩
    intro c' s' es h
    cases h
    exact ⟨live, .refl r, fun k j e hk => by omega⟩
  · rw [if_neg h0]
    have hle : swept c.t.timestamp ts ≤ 16 := by unfold swept; omega
    have ha : add32 c.t.head (swept c.t.timestamp ts) = c.t.head + swept c.t.timestamp ts :=
      add32_lt (by omega)
    rw [ha]
    have r1 : RepC { c with t := { c.t with
        timestamp := ts, head := (c.t.head + swept c.t.timestamp ts) % 16 } } live := by
      refine ⟨⟨r.rep.len, r.rep.wle, ?_, h2, r.rep.cell, r.rep.dom⟩, r.issued⟩
      simp only; omega
    obtain ⟨o, ho, hg⟩ := slotsN_spec hE (swept c.t.timestamp ts) (s := s) hhead r1
    simp only [ho]
    refine ⟨_, _, rfl, hhint, ?_⟩
    intro c' s' es h
    cases o with
    | none => cases h
    | some v =>
      obtain ⟨c2, s2, es2⟩ := v
      cases h
      obtain ⟨live2, g2, hres⟩ := hg _ _ _ rfl
      refine ⟨live2, ⟨.now (S := ⟨live, c.t.timestamp⟩) h1 g2.tr, g2.rep, g2.wheel⟩, ?_⟩
      intro k j e hk hl hd
      exact (hres k j e hk hl hd).cons

theorem execP_spec {E : Call σ} (hE : SafeCall E) (p : NProg σ) : ∀ {c : Cfg} {live : Nat → Option Entry}, p.Keeps →
    RepC c live → Safe c live (execP E p c) := by
  induction p with
  | ret s =>
    intro c live _ r
    exact ⟨_, rfl, fun c' s' es h => by cases h; exact ⟨live, .refl r⟩⟩
  | add al timeout type data k ih =>
    intro c live hk r
    rw [execP]
    by_cases hd : timeout + c.t.timestamp < INVALID
    · rw [if_pos hd]
      obtain ⟨o, ho, hg⟩ := exec_spec (.add al timeout type data fun id => .ret id) r
      rw [exec, if_pos hd] at ho
      cases ha : Timer.add al c.t timeout type data with
      | ub => rw [ha] at ho; cases ho
      | ok v =>
        obtain ⟨t, id⟩ := v
        rw [ha, Res.ok_bind] at ho
        simp only [Res.ok_bind] at ho ⊢
        by_cases hid : id = INVALID
        · rw [if_pos hid, exec, pre_eq] at ho
          cases ho
          obtain ⟨live', g⟩ := hg _ _ _ rfl
          rw [if_pos hid]
          exact pre_safe g.sound (ih id (hk id) g.rep)
        · rw [if_neg hid, exec, pre_eq] at ho
          cases ho
          obtain ⟨live', g⟩ := hg _ _ _ rfl
          rw [if_neg hid]
          exact pre_safe g.sound (ih id (hk id) g.rep)
    · rw [if_neg hd]
      exact ⟨none, rfl, fun _ _ _ h => nomatch h⟩
  | cancel id k ih =>
    intro c live hk r
    rw [execP]
    by_cases hd : id = INVALID ∨ id ∈ c.issued
    · rw [if_pos hd]
      obtain ⟨o, ho, hg⟩ := exec_spec (.cancel id (.ret ())) r
      rw [exec, if_pos hd] at ho
      cases ha : Timer.cancel c.t id with
      | ub => rw [ha] at ho; cases ho
      | ok v =>
        obtain ⟨t, id'⟩ := v
        rw [ha, Res.ok_bind] at ho
        simp only [Res.ok_bind] at ho ⊢
        rw [exec, pre_eq] at ho
        cases ho
        obtain ⟨live', g⟩ := hg _ _ _ rfl
        exact pre_safe g.sound (ih hk g.rep)
    · rw [if_neg hd]
      exact ⟨none, rfl, fun _ _ _ h => nomatch h⟩
  | clear k ih =>
    intro c live hk r
    rw [execP]
    obtain ⟨o, ho, hg⟩ := exec_spec (.clear (.ret ())) r
    rw [exec] at ho
    cases ha : Timer.clear c.t with
    | ub => rw [ha] at ho; cases ho
    | ok t =>
      rw [ha, Res.ok_bind, exec, pre_eq] at ho
      cases ho
      obtain ⟨live', g⟩ := hg _ _ _ rfl
      rw [Res.ok_bind]
      exact pre_safe g.sound (ih hk g.rep)
  | poll ts s k ih =>
    intro c live hk r
    rw [execP]
    by_cases hd : c.t.timestamp ≤ ts ∧ ts < INVALID
    · rw [if_pos hd]
      obtain ⟨o, ret, ho, -, hg⟩ := timeoutN_spec hE (s := s) r hd.1 hd.2
      rw [ho, Res.ok_bind]
      cases o with
      | none => exact ⟨none, rfl, fun _ _ _ h => nomatch h⟩
      | some v =>
        obtain ⟨c1, s1, es1⟩ := v
        obtain ⟨live1, g1, -⟩ := hg _ _ _ rfl
        exact pre_safe g1 (ih s1 ret (hk s1 ret) g1.rep)
    · rw [if_neg hd]
      exact ⟨none, rfl, fun _ _ _ h => nomatch h⟩
  | term k ih => intro c live hk; exact hk.elim

theorem calls_safe {cb : σ → Nat → Nat → Nat → NProg σ} (hcb : ∀ s a b e, (cb s a b e).Keeps) (d : Nat) : SafeCall (calls cb d) := by
  induction d with
  | zero => intro s a b e c live r; exact ⟨none, rfl, fun _ _ _ h => nomatch h⟩
  | succ d ih => intro s a b e c live r; exact execP_spec ih _ (hcb s a b e) r

/-- What the client does at top level; polls are calls. -/
inductive NOp (σ : Type) where
  | call (p : σ → NProg σ)
  | term

/-- Nothing that is called destroys the timer; this is only done at top level. -/
def NOp.Keeps : NOp σ → Prop
  | .call p => ∀ s, (p s).Keeps
  | .term => True

/-- One action at top level, with `depth` levels of callbacks at most. -/
def stepN (cb : σ → Nat → Nat → Nat → NProg σ) (depth : Nat) (c : Cfg) (s : σ) : NOp σ → Res (Out σ)
  | .call p => execP (calls cb depth) (p s) c
  | .term => .ok (some (⟨term c.t, []⟩, s, [.clear]))

/-- A history. -/
def runN (cb : σ → Nat → Nat → Nat → NProg σ) (depth : Nat) : List (NOp σ) → Cfg → σ → Res (Out σ)
  | [], c, s => .ok (some (c, s, []))
  | op :: ops, c, s => do
    let r ← stepN cb depth c s op
    match r with
    | none => .ok none
    | some (c, s, es) => pre es (runN cb depth ops c s)

theorem runN_spec {cb : σ → Nat → Nat → Nat → NProg σ} (hcb : ∀ s a b e, (cb s a b e).Keeps) (depth : Nat) (ops : List (NOp σ))
    (hops : ∀ op ∈ ops, op.Keeps) : ∀ {c : Cfg} {live : Nat → Option Entry} {s : σ}, RepC c live →
    ∃ o, runN cb depth ops c s = .ok o ∧ ∀ c' s' es, o = some (c', s', es) → ∃ live',
      Trace ⟨live, c.t.timestamp⟩ es ⟨live', c'.t.timestamp⟩ ∧ RepC c' live' := by
  induction ops with
  | nil =>
    intro c live s r
    refine ⟨_, rfl, ?_⟩
    intro c' s' es h; cases h; exact ⟨live, .nil _, r⟩
  | cons op ops ih =>
    intro c live s r
    have h1 : ∃ o, stepN cb depth c s op = .ok o ∧ ∀ c' s' es, o = some (c', s', es) → ∃ live',
        Trace ⟨live, c.t.timestamp⟩ es ⟨live', c'.t.timestamp⟩ ∧ RepC c' live' := by
      cases op with
      | call p =>
        obtain ⟨o, ho, hg⟩ := execP_spec (calls_safe hcb depth) (p s) (hops _ List.mem_cons_self s) r
        refine ⟨o, ho, fun c' s' es h => ?_⟩
        obtain ⟨live', g⟩ := hg _ _ _ h
        exact ⟨live', g.tr, g.rep⟩
      | term =>
        obtain ⟨o, ho, hg⟩ := step_spec (fun s _ _ _ => .ret s) (s := s) r .term
        exact ⟨o, ho, hg⟩
    obtain ⟨o, ho, hg⟩ := h1
    rw [runN, ho, Res.ok_bind]
    cases o with
    | none => exact ⟨none, rfl, fun _ _ _ h => nomatch h⟩
    | some v =>
      obtain ⟨c1, s1, es1⟩ := v
      obtain ⟨live1, t1, r1⟩ := hg _ _ _ rfl
      obtain ⟨o2, ho2, hg2⟩ := ih (fun op h => hops op (List.mem_cons_of_mem _ h)) (s := s1) r1
      simp only
      rw [ho2, pre_eq]
      refine ⟨_, rfl, ?_⟩
      intro c' s' es h
      cases o2 with
      | none => cases h
      | some v2 =>
        obtain ⟨c2, s2, es2⟩ := v2
        cases h
        obtain ⟨live2, t2, r2⟩ := hg2 _ _ _ rfl
        exact ⟨live2, t1.append t2, r2⟩

/-- **C139, in part.** Callbacks may add, cancel, clear and poll the same timer again, to any depth: nothing
undefined happens, and what happens is a trace of the specification. In particular, whenever a callback runs with
`D`, `ty`, `d`, the time last given, in whatever poll, has reached `D`; the timer was added before with `ty`, `d` and a
timeout such that `D` is the time then plus the timeout; and since then it neither fired, in whatever poll, nor was
cancelled or cleared. What is missing: callbacks that destroy the timer, see `callback_term_violated`. -/
theorem nested_partial {cb : σ → Nat → Nat → Nat → NProg σ} (hcb : ∀ s a b e, (cb s a b e).Keeps) (depth : Nat)
    {ops : List (NOp σ)} (hops : ∀ op ∈ ops, op.Keeps) {ts0 : Nat} (h0 : ts0 < INVALID) (s0 : σ) :
    ∃ o, runN cb depth ops ⟨init ts0, []⟩ s0 = .ok o ∧ ∀ c s es, o = some (c, s, es) →
      (∃ S, Trace ⟨fun _ => none, ts0⟩ es S) ∧
      ∀ es1 es2 id D ty d, es = es1 ++ .fire id D ty d :: es2 →
        D ≤ nowAfter ts0 es1 ∧
        ∃ es3 es4 T, es1 = es3 ++ .add T ty d id :: es4 ∧ D = nowAfter ts0 es3 + T ∧ ¬ Resolved es4 id := by
  obtain ⟨o, ho, hg⟩ := runN_spec hcb depth ops hops (s := s0) (repC_init h0)
  refine ⟨o, ho, fun c s es h => ?_⟩
  obtain ⟨live, tr, -⟩ := hg _ _ _ h
  refine ⟨⟨_, tr⟩, ?_⟩
  intro es1 es2 id D ty d hes
  subst hes
  obtain ⟨S1, t1, t2⟩ := tr.split
  cases t2 with
  | @fire S id e es' S' hl hd _ =>
    refine ⟨by rw [t1.now_eq] at hd; exact hd, ?_⟩
    rcases t1.origin hl with ⟨h, _⟩ | ⟨es3, es4, T, h1, h2, h3⟩
    · simp at h
    · exact ⟨es3, es4, T, h1, h3, h2⟩

/-- **C139, in part.** A poll that comes a revolution or more after the last one deals with every pending timer that
is due, even if its callbacks poll themselves: what the polls inside do not fire, the outer one does. And its result
still is a time to wait after which no movement of the wheel is missed. -/
theorem nested_revolution_partial {cb : σ → Nat → Nat → Nat → NProg σ} (hcb : ∀ s a b e, (cb s a b e).Keeps) (depth : Nat)
    {ops : List (NOp σ)} (hops : ∀ op ∈ ops, op.Keeps) {ts0 : Nat} (h0 : ts0 < INVALID) {s0 s : σ} {c : Cfg}
    {es1 es2 : List Ev} {T ty d id ts : Nat}
    (h : runN cb depth ops ⟨init ts0, []⟩ s0 = .ok (some (c, s, es1 ++ .add T ty d id :: es2))) (hpend : ¬ Resolved es2 id)
    (hdue : nowAfter ts0 es1 + T ≤ ts) (hts : c.t.timestamp + 256 ≤ ts) (hi : ts < INVALID) :
    ∃ o ret, timeoutN (calls cb depth) ts c s = .ok (o, ret) ∧ ret ≤ 16 ∧
      ∀ c' s' es, o = some (c', s', es) → Resolved es id := by
  obtain ⟨o, ho, hg⟩ := runN_spec hcb depth ops hops (s := s0) (repC_init h0)
  rw [h] at ho
  cases ho
  obtain ⟨live, t, r⟩ := hg _ _ _ rfl
  obtain ⟨o, ret, ho, hret, hg⟩ := timeoutN_spec (calls_safe hcb depth) (s := s) r (by omega) hi
  refine ⟨o, ret, ho, hret, fun c' s' es he => ?_⟩
  obtain ⟨live', -, hres⟩ := hg _ _ _ he
  obtain ⟨S1, t1, t2⟩ := t.split
  cases t2 with
  | add hne hl t3 =>
    rcases t3.persist (id := id) (e := ⟨S1.now + T, ty, d⟩) (by simp [upd]) with h | h
    · exact absurd h hpend
    · simp only at h
      obtain ⟨p, q, hp, hq, rfl⟩ := r.rep.dom id (by rw [h]; simp)
      have hh := r.rep.head
      have hm : ∃ m, m < 16 ∧ p = (c.t.head + m) % 16 :=
        ⟨(p + 16 - c.t.head) % 16, by omega, by omega⟩
      obtain ⟨m, hm1, rfl⟩ := hm
      refine hres m q _ (by unfold swept; omega) h ?_
      simp only
      rw [t1.now_eq]
      exact hdue

/-- A callback that destroys the timer. -/
def destroy : Unit → Nat → Nat → Nat → NProg Unit := fun _ _ _ _ => .term (.ret ())

/-- **C139 is violated** by callbacks that destroy the timer: wherever a timer fires that is not in the last cell of
its slot, the sweep goes on in memory that was given back. -/
theorem callback_term_violated {c : Cfg} {head i n depth : Nat} {item : Cell} (h : rd c.t.list (add32 (mul32 c.t.wheel head) i) = .ok item)
    (hdue : item.timeout ≤ c.t.timestamp) :
    cellsN (calls destroy (depth + 1)) head (n + 2) i (mul32 c.t.wheel head) c () = .ub := by
  have hlt : add32 (mul32 c.t.wheel head) i < c.t.list.length := by
    obtain ⟨hl, -⟩ := List.getElem?_eq_some_iff.1 (rd_eq_ok.1 h)
    exact hl
  rw [cellsN]
  simp only [h, Res.ok_bind]
  rw [if_pos hdue, wr_lt hlt, Res.ok_bind]
  have hd : ∀ s a b e c, calls destroy (depth + 1) s a b e c = .ok (some (⟨term c.t, []⟩, (), [.clear])) := fun _ _ _ _ _ => rfl
  rw [hd, Res.ok_bind]
  simp only [cellsN, term, rd, List.getElem?_nil, Res.ub_bind, pre]

/-- One timer with timeout 0, polled at 16: the callback destroys the timer, and the sweep reads from NULL. -/
example : runN destroy 1 [.call fun _ => .add (some fun _ => 0) 0 7 8 fun _ => .poll 16 () fun _ _ => .ret ()] ⟨init 0, []⟩ () = .ub := by
  decide +kernel

/-- A callback that polls again 20 later, as often as its state says, and adds a timer before. -/
def deeper : Nat → Nat → Nat → Nat → NProg Nat := fun n at_ ty d =>
  if n = 0 then .ret 0 else .add (some fun _ => 0) 20 ty d fun _ => .poll (at_ + 100) (n - 1) fun n _ => .ret n

theorem deeper_keeps (n a b e : Nat) : (deeper n a b e).Keeps := by
  unfold deeper
  split <;> simp [NProg.Keeps]

/-- The timers fire inside one another, each once. -/
example : events (runN deeper 3 [.call fun n => .add (some fun _ => 0) 5 1 2 fun _ => .add none 6 3 4 fun _ => .poll 40 n fun n _ => .ret n]
    ⟨init 0, []⟩ 2) =
    some [.add 5 1 2 0, .add 6 3 4 (mkid 1 0), .now 40, .fire 0 5 1 2, .add 20 1 2 3, .now 105, .fire 3 60 1 2,
      .add 20 1 2 7, .now 160, .fire 7 125 1 2, .fire (mkid 1 0) 6 3 4] := by
  decide +kernel

end Verif.Timer
