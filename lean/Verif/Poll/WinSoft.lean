import Verif.Poll.WinDefer

/-! # Steps of the Windows poller that change only what was found and what was told -/

namespace Verif.Poll.Win

open Table (dataInner)

/-- Every entry keeps its descriptor, what is waited for, its number, its data, and whether it is told of changes only. -/
structure Like (q r : Slot × PData) : Prop where
  fd : r.1.fd = q.1.fd
  ev : r.1.ev = q.1.ev
  index : r.2.index = q.2.index
  data : r.2.data = q.2.data
  edge : r.2.edge &&& EDGE = q.2.edge &&& EDGE
  level : q.2.edge &&& EDGE = 0 → r.2.edge = q.2.edge

theorem Like.refl (q : Slot × PData) : Like q q := ⟨rfl, rfl, rfl, rfl, rfl, fun _ => rfl⟩

theorem Like.trans {q r s : Slot × PData} (h : Like q r) (h' : Like r s) : Like q s :=
  ⟨h'.fd.trans h.fd, h'.ev.trans h.ev, h'.index.trans h.index, h'.data.trans h.data, h'.edge.trans h.edge,
    fun hz => (h'.level (by rw [h.edge]; exact hz)).trans (h.level hz)⟩

structure Soft (p p' : P) : Prop where
  wf : (∃ ev k, Wf p ev k) → ∃ ev k, Wf p' ev k
  none : ∀ i, entry p i = none → entry p' i = none
  some : ∀ i q, entry p i = some q → ∃ r, entry p' i = some r ∧ Like q r
  ops : p'.ops = p.ops
  opsCap : p'.opsCap = p.opsCap
  polling : p'.polling = p.polling
  cap : p'.cap = p.cap
  count : p'.count = p.count

theorem Soft.refl (p : P) : Soft p p := ⟨id, fun _ h => h, fun _ q h => ⟨q, h, .refl q⟩, rfl, rfl, rfl, rfl, rfl⟩

theorem Soft.trans {p q r : P} (h : Soft p q) (h' : Soft q r) : Soft p r := by
  refine ⟨h'.wf ∘ h.wf, fun i hi => h'.none i (h.none i hi), ?_, h'.ops.trans h.ops, h'.opsCap.trans h.opsCap, h'.polling.trans h.polling, h'.cap.trans h.cap,
    h'.count.trans h.count⟩
  intro i a ha
  obtain ⟨b, hb, hl⟩ := h.some i a ha
  obtain ⟨c, hc, hl'⟩ := h'.some i b hb
  exact ⟨c, hc, hl.trans hl'⟩

/-- A change of other members -/
theorem Soft.of_eq {p p' : P} (h1 : p'.events = p.events) (h2 : p'.chunks = p.chunks) (h3 : p'.cap = p.cap) (h4 : p'.count = p.count)
    (h5 : p'.ops = p.ops) (h6 : p'.opsCap = p.opsCap) (h7 : p'.polling = p.polling) : Soft p p' := by
  have he := entry_congr h1 h2
  refine ⟨fun ⟨ev, k, hw⟩ => ⟨ev, k, hw.congr h1 h2 h3 h4⟩, fun i h => by rw [he]; exact h, fun i q h => ⟨q, by rw [he]; exact h, .refl q⟩, h5, h6, h7, h3, h4⟩

theorem Soft.back {p p' : P} (h : Soft p p') {i : Nat} {r : Slot × PData} (hr : entry p' i = .some r) : ∃ q, entry p i = .some q ∧ Like q r := by
  cases hq : entry p i with
  | none => rw [h.none i hq] at hr; cases hr
  | some q =>
    obtain ⟨r', hr', hl⟩ := h.some i q hq
    rw [hr] at hr'
    cases hr'
    exact ⟨q, rfl, hl⟩

/-- The invariant survives them. -/
theorem Inv.soft {fd₀ G M p obj os lo} (h : Inv fd₀ G M p obj os lo) {p' : P} (hs : Soft p p') : Inv fd₀ G M p' obj os lo := by
  refine ⟨hs.wf h.wf, h.fd, ?_, h.inj, ?_, h.fullsInj, ?_, h.parts, h.index, h.mask, ?_⟩
  · intro j
    have hj := h.held j
    refine ⟨hj.normal, hj.fd, hj.none, fun hn => ?_⟩
    obtain ⟨i, s, c, ho⟩ := hj.owns hn
    obtain ⟨⟨s', c'⟩, hr, hl⟩ := hs.some i _ ho.entry
    have he := hl.edge
    have hlv := hl.level
    simp only at he hlv
    refine ⟨i, s', c', ho.pd, hr, hl.fd.trans ho.fd, hl.ev.trans ho.ev, by rw [he]; exact ho.edge, ?_⟩
    intro hz
    rw [he] at hz
    rw [hlv hz]
    exact ho.level hz
  · intro k o h1 h2
    obtain ⟨i, q, h3, h4, h5⟩ := h.fulls k o h1 h2
    obtain ⟨r, hr, -⟩ := hs.some i q h4
    exact ⟨i, r, h3, hr, h5⟩
  · intro i q hq
    obtain ⟨q', hq', -⟩ := hs.back hq
    exact h.owned i q' hq'
  · intro j i s c h1 h2
    obtain ⟨⟨s', c'⟩, hq', hl⟩ := hs.back h2
    have := h.data j i s' c' h1 hq'
    have hd := hl.data
    simp only at hd
    rw [hd]
    exact this

/-- Changing the cell of an entry in use in this way -/
theorem setCell_soft {p : P} {ev : List Slot} {k : Nat} (h : Wf p ev k) {i : Nat} {s : Slot} {c c' : PData} (he : entry p i = .some (s, c))
    (hl : Like (s, c) (s, c')) :
    ∃ p', setCell p (dataInner i) c' = .ok p' ∧ Soft p p' ∧ entry p' i = .some (s, c') ∧ (∀ j, j ≠ i → entry p' j = entry p j) ∧
      p'.remaining = p.remaining ∧ p'.offset = p.offset ∧ p'.events = p.events := by
  obtain ⟨h1, h2, h3⟩ := (entry_some h.events).1 he
  obtain ⟨b, r, c2, h4, h5, h6, h7⟩ := h.cells i s h1 h2
  rw [h3] at h6
  cases h6
  obtain ⟨ch, e1, sh, g1, g2⟩ := setCell_ok h.toShape (h.lt he) c'
  have hsame : ev.set i s = ev := by
    apply List.ext_getElem?
    intro j
    by_cases hj : j = i
    · subst hj; rw [List.getElem?_set_self (List.getElem?_eq_some_iff.1 h1).1, h1]
    · rw [List.getElem?_set_ne (Ne.symm hj)]
  obtain ⟨w, en, ens⟩ := wf_set h h1 (by rw [hsame]; exact sh) (by simp) g1
    (fun _ => ⟨by simp [h4], by simp [h5], hl.index.trans h7⟩) g2
  rw [if_neg h2] at en
  refine ⟨_, e1, ⟨fun _ => ⟨_, k, w⟩, ?_, ?_, rfl, rfl, rfl, rfl, rfl⟩, en, ens, rfl, rfl, rfl⟩
  · intro j hj
    by_cases hji : j = i
    · subst hji; rw [he] at hj; cases hj
    · rw [ens j hji]; exact hj
  · intro j q hq
    by_cases hji : j = i
    · subst hji
      rw [he] at hq
      cases hq
      exact ⟨_, en, hl⟩
    · exact ⟨q, by rw [ens j hji]; exact hq, .refl q⟩

/-- The events that were found: input, output; errors and hangups are told as both. Those of an entry that is told of changes
only are left out if they were told already. -/
def tell (r : Rev) (edge : Bits) : Bits :=
  if r.bad then READ ||| WRITE
  else
    let evs := (if r.inp then READ else NONE) ||| (if r.out then WRITE else NONE)
    if edge &&& EDGE ≠ 0 then evs &&& ~~~edge else evs

/-- What is kept of them -/
def told (r : Rev) (edge : Bits) : Bits :=
  if edge &&& EDGE ≠ 0 then edge ||| ((if r.inp then READ else NONE) ||| (if r.out then WRITE else NONE)) else edge

theorem told_aux (a b : Bool) (edge : Bits) : (if edge &&& EDGE ≠ 0 then edge ||| ((if a then READ else NONE) ||| (if b then WRITE else NONE)) else edge) &&& EDGE =
    edge &&& EDGE := by
  revert a b edge; decide

theorem told_edge (r : Rev) (edge : Bits) : told r edge &&& EDGE = edge &&& EDGE ∧ (edge &&& EDGE = 0 → told r edge = edge) := by
  unfold told
  constructor
  · exact told_aux r.inp r.out edge
  · intro h; rw [if_neg (by simpa using h)]

/-- `sc_sock_poll_event_inner` -/
theorem eventInner_ok {p : P} {ev : List Slot} {k : Nat} (h : Wf p ev k) {i : Nat} (hi : i < p.cap) :
    (eventInner i p = .ok (NONE, p) ∧ (entry p i = none ∨ ∃ s c, entry p i = some (s, c) ∧ s.rev = some Rev.zero)) ∨
    ∃ s c r p', entry p i = some (s, c) ∧ s.rev = some r ∧ r ≠ Rev.zero ∧ eventInner i p = .ok (tell r c.edge, p') ∧ Soft p p' ∧
      entry p' i = some (s, { c with edge := told r c.edge }) ∧ (∀ j, j ≠ i → entry p' j = entry p j) ∧
      p'.remaining = p.remaining - 1 ∧ p'.offset = p.offset := by
  have hlt : i < ev.length := by rw [h.len]; exact hi
  have hs := List.getElem?_eq_getElem hlt
  generalize ev[i] = s at hs
  unfold eventInner
  rw [getSlot_ok h.toShape hs]
  simp only [Res.ok_bind]
  by_cases hf : s.fd = INVALID
  · rw [if_pos hf]
    refine .inl ⟨rfl, .inl (h.entry_none.2 ?_)⟩
    intro s' hs'
    rw [hs] at hs'
    cases hs'
    exact hf
  · rw [if_neg hf]
    obtain ⟨b, r, c, h1, h2, h3, h4⟩ := h.cells i s hs hf
    have hen : entry p i = some (s, c) := (entry_some h.events).2 ⟨hs, hf, h3⟩
    rw [h2]
    simp only
    by_cases hz : r = Rev.zero
    · rw [if_pos hz]
      exact .inl ⟨rfl, .inr ⟨s, c, hen, by rw [h2, hz]⟩⟩
    · rw [if_neg hz]
      right
      have sft : Soft p { p with remaining := p.remaining - 1 } := .of_eq rfl rfl rfl rfl rfl rfl rfl
      have hen' : entry { p with remaining := p.remaining - 1 } i = some (s, c) := hen
      have w' : Wf { p with remaining := p.remaining - 1 } ev k := h.congr rfl rfl rfl rfl
      have g3 : getCell { p with remaining := p.remaining - 1 } (dataInner i) = .ok c := h3
      rw [g3]
      simp only [Res.ok_bind]
      obtain ⟨te1, te2⟩ := told_edge r c.edge
      by_cases he : c.edge &&& EDGE ≠ 0
      · rw [if_pos he]
        obtain ⟨p', e1, sf, en, ens, r1, r2, -⟩ := setCell_soft w' hen' (c' := { c with edge := told r c.edge })
          ⟨rfl, rfl, rfl, rfl, te1, te2⟩
        have : told r c.edge = c.edge ||| ((if r.inp then READ else NONE) ||| (if r.out then WRITE else NONE)) := by
          unfold told; rw [if_pos he]
        rw [← this, e1]
        refine ⟨s, c, r, p', hen, h2, hz, ?_, sft.trans sf, en, ens, r1, r2⟩
        unfold tell
        simp only [Res.ok_bind]
        rw [if_pos he]
      · rw [if_neg he]
        refine ⟨s, c, r, { p with remaining := p.remaining - 1 }, hen, h2, hz, ?_, sft, ?_, fun _ _ => rfl, rfl, rfl⟩
        · unfold tell
          simp only
          rw [if_neg he]
        · unfold told
          rw [if_neg he]
          exact hen'

/-- `WSAPoll` -/
theorem polled_ok {p : P} {ev : List Slot} {k : Nat} (h : Wf p ev k) (revs : Nat → Rev) :
    ∃ p', polled revs p = .ok p' ∧ Soft p p' ∧ p'.remaining = p.remaining ∧ p'.offset = p.offset ∧
      (∀ i s c, entry p i = some (s, c) → entry p' i = some ({ s with rev := some (revs i) }, c)) := by
  unfold polled
  rw [h.events]
  simp only
  have hget : ∀ i : Nat, (ev.mapIdx fun i s => { s with rev := some (revs i) })[i]? = ev[i]?.map fun s => { s with rev := some (revs i) } := by
    intro i
    rw [List.getElem?_mapIdx]
  have hcount : (ev.mapIdx fun i s => ({ s with rev := some (revs i) } : Slot)).countP valid = ev.countP valid := by
    have : ∀ (l : List Slot) (f : Nat → Slot → Slot), (∀ i s, valid (f i s) = valid s) → (l.mapIdx f).countP valid = l.countP valid := by
      intro l
      induction l with
      | nil => intro f _; simp
      | cons a l ih =>
        intro f hf
        rw [List.mapIdx_cons, List.countP_cons, List.countP_cons, ih _ (fun i s => hf (i + 1) s), hf]
    exact this ev _ (fun _ _ => rfl)
  have hen : ∀ i s c, entry p i = some (s, c) →
      entry { p with events := some (ev.mapIdx fun i s => { s with rev := some (revs i) }) } i = some ({ s with rev := some (revs i) }, c) := by
    intro i s c he
    obtain ⟨h1, h2, h3⟩ := (entry_some h.events).1 he
    exact (entry_some (p := { p with events := some (ev.mapIdx fun i s => { s with rev := some (revs i) }) }) rfl).2 ⟨by rw [hget, h1]; rfl, h2, h3⟩
  have hno : ∀ i, entry p i = none → entry { p with events := some (ev.mapIdx fun i s => { s with rev := some (revs i) }) } i = none := by
    intro i he
    have he' := h.entry_none.1 he
    unfold entry
    simp only
    rw [hget]
    cases hs : ev[i]? with
    | none => rfl
    | some s =>
      simp only [Option.map_some]
      rw [if_pos (he' s hs)]
  refine ⟨_, rfl, ⟨fun _ => ⟨_, k, ⟨⟨rfl, h.klt, h.cap, by rw [List.length_mapIdx]; exact h.len, h.chunks⟩, ?_, ?_⟩⟩, hno, ?_, rfl, rfl, rfl, rfl, rfl⟩, rfl, rfl, hen⟩
  · rw [hcount]; exact h.count
  · intro i s hs hf
    rw [hget] at hs
    cases hs' : ev[i]? with
    | none => rw [hs'] at hs; cases hs
    | some s' =>
      rw [hs'] at hs
      cases hs
      obtain ⟨b, r, c, g1, g2, g3, g4⟩ := h.cells i s' hs' hf
      exact ⟨b, _, c, g1, rfl, g3, g4⟩
  · intro i q hq
    obtain ⟨s, c⟩ := q
    exact ⟨_, hen i s c hq, ⟨rfl, rfl, rfl, rfl, rfl, fun _ => rfl⟩⟩

theorem rearm_edge (edge ev : Bits) (h : ev = READ ∨ ev = WRITE) : edge &&& ~~~ev &&& EDGE = edge &&& EDGE := by
  rcases h with rfl | rfl <;> (revert edge; decide)

/-- A transfer that would block -/
theorem rearm_ok {p : P} {ev : List Slot} {k : Nat} (h : Wf p ev k) {f : Fdt} (hf : Held p f) {b : Bits} (hb : b = READ ∨ b = WRITE) :
    ∃ p', rearm b f p = .ok p' ∧ Soft p p' ∧ p'.remaining = p.remaining ∧ p'.offset = p.offset ∧ (∀ j q, entry p' j = some q → ∃ q', entry p j = some q' ∧ q'.1 = q.1) ∧
      (∀ j q, f.pd ≠ some (dataInner j) → entry p j = some q → entry p' j = some q) ∧
      (∀ i s c, f.pd = some (dataInner i) → entry p i = some (s, c) → entry p' i = some (s, { c with edge := c.edge &&& ~~~b })) := by
  unfold rearm
  by_cases h0 : f.op = NONE
  · rw [hf.none.1 h0]
    exact ⟨p, rfl, .refl p, rfl, rfl, fun _ q h => ⟨q, h, rfl⟩, (fun _ _ _ h => h), (fun _ _ _ h => by cases h)⟩
  · obtain ⟨i, s, c, ho⟩ := hf.owns h0
    obtain ⟨q1, q2, q3, q4⟩ := ho.index h
    have only : ∀ i' s' c', f.pd = some (dataInner i') → entry p i' = some (s', c') → i' = i ∧ c' = c ∧ s' = s := by
      intro i' s' c' g1 g2
      rw [ho.pd] at g1
      have := dataInner_inj h.toShape (ho.lt h) (h.lt g2) (Option.some.inj g1)
      subst this
      rw [ho.entry] at g2
      cases g2
      exact ⟨rfl, rfl, rfl⟩
    have hpd := ho.pd
    rw [ho.pd]
    simp only
    rw [q1]
    simp only [Res.ok_bind]
    by_cases hc : c.edge &&& b ≠ 0
    · rw [if_pos hc]
      have hlev : c.edge &&& EDGE = 0 → c.edge &&& ~~~b = c.edge := by
        intro hz
        rw [ho.level hz]
        rcases hb with rfl | rfl <;> decide
      obtain ⟨p', e1, sf, en, ens, r1, r2, -⟩ := setCell_soft h ho.entry (c' := { c with edge := c.edge &&& ~~~b })
        ⟨rfl, rfl, rfl, rfl, rearm_edge c.edge b hb, hlev⟩
      refine ⟨p', e1, sf, r1, r2, ?_, ?_, ?_⟩
      · intro j q hq
        by_cases hj : j = i
        · subst hj; rw [en] at hq; cases hq; exact ⟨_, ho.entry, rfl⟩
        · rw [ens j hj] at hq; exact ⟨q, hq, rfl⟩
      · intro j q hj hq
        rw [ens j (fun hc => by subst hc; exact hj rfl)]
        exact hq
      · intro i' s' c' g1 g2
        obtain ⟨rfl, rfl, rfl⟩ := only i' s' c' (hpd.trans g1) g2
        exact en
    · rw [if_neg hc]
      refine ⟨p, rfl, .refl p, rfl, rfl, fun _ q h => ⟨q, h, rfl⟩, (fun _ _ _ h => h), ?_⟩
      intro i' s' c' g1 g2
      obtain ⟨rfl, rfl, rfl⟩ := only i' s' c' (hpd.trans g1) g2
      rw [g2]
      have : ∀ x y : Bits, ¬ (x &&& y ≠ 0) → x &&& ~~~y = x := by decide
      rw [this c'.edge b hc]

end Verif.Poll.Win
