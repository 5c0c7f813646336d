import Verif.Timer.Lemmas

/-! # Client code, callbacks and sweeps -/

namespace Verif.Timer

open Spec

/-- The configuration holds the pending timers, and the ids handed out name cells. -/
structure RepC (c : Cfg) (live : Nat → Option Entry) : Prop where
  rep : Rep c.t live
  issued : ∀ id ∈ c.issued, ∃ p s, p < 16 ∧ s < c.t.wheel ∧ id = mkid s p

theorem Spec.Trace.append {S S' S'' : State} {es es' : List Ev} (h : Trace S es S')
    (h' : Trace S' es' S'') : Trace S (es ++ es') S'' := by
  induction h with
  | nil S => exact h'
  | add a b _ ih => exact .add a b (ih h')
  | addFail _ ih => exact .addFail (ih h')
  | cancel _ ih => exact .cancel (ih h')
  | clear _ ih => exact .clear (ih h')
  | now a _ ih => exact .now a (ih h')
  | fire a b _ ih => exact .fire a b (ih h')

theorem Spec.Resolved.left {es es' : List Ev} {id : Nat} (h : Resolved es id) :
    Resolved (es ++ es') id := by
  rcases h with ⟨d, ty, dat, h⟩ | h | h
  · exact Or.inl ⟨d, ty, dat, List.mem_append_left _ h⟩
  · exact Or.inr (Or.inl (List.mem_append_left _ h))
  · exact Or.inr (Or.inr (List.mem_append_left _ h))

theorem Spec.Resolved.right {es es' : List Ev} {id : Nat} (h : Resolved es' id) :
    Resolved (es ++ es') id := by
  rcases h with ⟨d, ty, dat, h⟩ | h | h
  · exact Or.inl ⟨d, ty, dat, List.mem_append_right _ h⟩
  · exact Or.inr (Or.inl (List.mem_append_right _ h))
  · exact Or.inr (Or.inr (List.mem_append_right _ h))

theorem Spec.Resolved.cons {e : Ev} {es : List Ev} {id : Nat} (h : Resolved es id) :
    Resolved (e :: es) id := Resolved.right (es := [e]) h

/-- A pending timer stays as it is until it fires or is cancelled or cleared. -/
theorem Spec.Trace.persist {S S' : State} {es : List Ev} (h : Trace S es S') {id : Nat} {e : Entry} :
    S.live id = some e → Resolved es id ∨ S'.live id = some e := by
  induction h with
  | nil S => exact fun h => Or.inr h
  | @add S timeout type data id' es S' h1 h2 _ ih =>
    intro hl
    have hne : id ≠ id' := by rintro rfl; rw [hl] at h2; cases h2
    rcases ih (by simp [upd, hne, hl]) with h | h
    · exact Or.inl h.cons
    · exact Or.inr h
  | addFail _ ih =>
    intro hl
    rcases ih hl with h | h
    · exact Or.inl h.cons
    · exact Or.inr h
  | @cancel S id' es S' _ ih =>
    intro hl
    by_cases hne : id = id'
    · subst hne; exact Or.inl (Or.inr (Or.inl (by simp)))
    · rcases ih (by simp [upd, hne, hl]) with h | h
      · exact Or.inl h.cons
      · exact Or.inr h
  | clear _ ih => intro _; exact Or.inl (Or.inr (Or.inr (by simp)))
  | now _ _ ih =>
    intro hl
    rcases ih hl with h | h
    · exact Or.inl h.cons
    · exact Or.inr h
  | @fire S id' e' es S' _ _ _ ih =>
    intro hl
    by_cases hne : id = id'
    · subst hne; exact Or.inl (Or.inl ⟨_, _, _, List.mem_cons_self⟩)
    · rcases ih (by simp [upd, hne, hl]) with h | h
      · exact Or.inl h.cons
      · exact Or.inr h

/-- What client code does to the configuration. -/
structure Good (c : Cfg) (live : Nat → Option Entry) (c' : Cfg) (live' : Nat → Option Entry)
    (es : List Ev) : Prop where
  tr : Trace ⟨live, c.t.timestamp⟩ es ⟨live', c'.t.timestamp⟩
  rep : RepC c' live'
  wheel : c.t.wheel ≤ c'.t.wheel
  head : .clear ∈ es ∨ c'.t.head = c.t.head
  ts : c'.t.timestamp = c.t.timestamp

theorem Good.refl {c : Cfg} {live : Nat → Option Entry} (r : RepC c live) : Good c live c live [] :=
  ⟨.nil _, r, Nat.le_refl _, Or.inr rfl, rfl⟩

theorem Good.trans {c c' c'' : Cfg} {live live' live'' : Nat → Option Entry} {es es' : List Ev}
    (g : Good c live c' live' es) (g' : Good c' live' c'' live'' es') :
    Good c live c'' live'' (es ++ es') := by
  refine ⟨g.tr.append g'.tr, g'.rep, Nat.le_trans g.wheel g'.wheel, ?_, g'.ts.trans g.ts⟩
  rcases g.head with h | h
  · exact Or.inl (List.mem_append_left _ h)
  · rcases g'.head with h' | h'
    · exact Or.inl (List.mem_append_right _ h')
    · exact Or.inr (h'.trans h)

theorem pre_eq {es : List Ev} {o : Out σ} :
    pre es (.ok o) = .ok (o.map fun (c, s, es') => (c, s, es ++ es')) := rfl

/-- Putting events in front of an outcome. -/
theorem pre_good {c c1 : Cfg} {live live1 : Nat → Option Entry} {es : List Ev} {r : Res (Out σ)}
    (g : Good c live c1 live1 es)
    (h : ∃ o, r = .ok o ∧ ∀ c' s' es', o = some (c', s', es') → ∃ live', Good c1 live1 c' live' es') :
    ∃ o, pre es r = .ok o ∧ ∀ c' s' es', o = some (c', s', es') → ∃ live', Good c live c' live' es' := by
  obtain ⟨o, rfl, ho⟩ := h
  refine ⟨_, pre_eq, ?_⟩
  intro c' s' es' h
  cases o with
  | none => cases h
  | some v =>
    obtain ⟨c2, s2, es2⟩ := v
    cases h
    obtain ⟨live', g'⟩ := ho _ _ _ rfl
    exact ⟨live', g.trans g'⟩

theorem exec_spec (p : Prog σ) : ∀ {c : Cfg} {live : Nat → Option Entry}, RepC c live →
    ∃ o, exec p c = .ok o ∧
      ∀ c' s' es, o = some (c', s', es) → ∃ live', Good c live c' live' es := by
  induction p with
  | ret s =>
    intro c live r
    refine ⟨_, rfl, ?_⟩
    intro c' s' es h; cases h; exact ⟨live, .refl r⟩
  | add al timeout type data k ih =>
    intro c live r
    rw [exec]
    by_cases hg : timeout + c.t.timestamp < INVALID
    · rw [if_pos hg]
      rcases add_spec r.rep al hg (type := type) (data := data) with h |
        ⟨t', s, h, hl, r', hs, hw, hh, hts⟩
      · obtain ⟨id, hid⟩ : ∃ id, id = INVALID := ⟨_, rfl⟩
        rw [← hid] at h
        rw [h, Res.ok_bind]
        simp only
        rw [if_pos hid]
        refine pre_good (c1 := c) (live1 := live) ⟨.addFail (.nil _), r, Nat.le_refl _, Or.inr rfl, rfl⟩ ?_
        exact ih _ r
      · rw [h]
        have hp : (timeout / 16 + c.t.head) % 16 < 16 := by omega
        generalize (timeout / 16 + c.t.head) % 16 = p at *
        have hne : mkid s p ≠ INVALID := mkid_ne hp (by have := r'.wle; omega)
        rw [Res.ok_bind]
        simp only
        rw [if_neg hne]
        have rc : RepC ⟨t', (mkid s p) :: c.issued⟩
            (upd live (mkid s p) (some ⟨c.t.timestamp + timeout, type, data⟩)) := by
          refine ⟨r', ?_⟩
          intro id hid
          rcases List.mem_cons.1 hid with rfl | hid
          · exact ⟨p, s, hp, hs, rfl⟩
          · obtain ⟨p', s', h1, h2, h3⟩ := r.issued id hid
            exact ⟨p', s', h1, by simp only; omega, h3⟩
        refine pre_good (c1 := ⟨t', (mkid s p) :: c.issued⟩) ⟨?_, rc, hw, Or.inr hh, hts⟩
          (ih _ rc)
        simp only [hts]
        exact .add hne hl (.nil _)
    · rw [if_neg hg]
      exact ⟨none, rfl, fun _ _ _ h => nomatch h⟩
  | cancel id k ih =>
    intro c live r
    rw [exec]
    by_cases hg : id = INVALID ∨ id ∈ c.issued
    · rw [if_pos hg]
      by_cases hid : id = INVALID
      · have : cancel c.t id = .ok (c.t, id) := by unfold cancel; rw [if_pos hid]
        rw [this]
        simp only [Res.ok_bind]
        have hnone : upd live id none = live := by
          funext x; unfold upd; split
          · next hx =>
            subst hx
            rcases hl : live x with _ | e
            · rfl
            · obtain ⟨p, s, hp, hs, he⟩ := r.rep.dom _ (by rw [hl]; simp)
              exact absurd (he.symm.trans hid) (mkid_ne hp (by have := r.rep.wle; omega))
          · rfl
        refine pre_good (c1 := c) (live1 := live)
          ⟨.cancel ?_, r, Nat.le_refl _, Or.inr rfl, rfl⟩ (ih r)
        simp only [hnone]
        exact .nil _
      · have hm : id ∈ c.issued := hg.resolve_left hid
        obtain ⟨p, s, hp, hs, rfl⟩ := r.issued id hm
        obtain ⟨t', h, r', hw, hh, hts⟩ := cancel_spec r.rep hp hs
        rw [h]
        simp only [Res.ok_bind]
        have rc : RepC { c with t := t' } (upd live (mkid s p) none) :=
          ⟨r', fun id hid => by rw [hw]; exact r.issued id hid⟩
        refine pre_good (c1 := { c with t := t' }) ⟨.cancel ?_, rc, by simp only; omega, Or.inr hh, hts⟩
          (ih rc)
        simp only [hts]
        exact .nil _
    · rw [if_neg hg]
      exact ⟨none, rfl, fun _ _ _ h => nomatch h⟩
  | clear k ih =>
    intro c live r
    rw [exec]
    obtain ⟨t', h, r', hts, hw⟩ := clear_spec r.rep
    rw [h]
    simp only [Res.ok_bind]
    have rc : RepC { c with t := t' } (fun _ => none) :=
      ⟨r', fun id hid => by rw [hw]; exact r.issued id hid⟩
    refine pre_good (c1 := { c with t := t' }) ⟨.clear ?_, rc, by simp only; omega,
      Or.inl (by simp), hts⟩ (ih rc)
    simp only [hts]
    exact .nil _

/-- One slot of the sweep: defined, allowed, and every pending timer of the slot that is due
is dealt with. -/
theorem cells_spec (cb : σ → Nat → Nat → Nat → Prog σ) {head : Nat} (hh : head < 16) (n : Nat) :
    ∀ {i : Nat} {c : Cfg} {live : Nat → Option Entry} {s : σ}, RepC c live → i + n ≤ c.t.wheel →
      ∃ o, cells cb head n i (mul32 c.t.wheel head) c s = .ok o ∧
        ∀ c' s' es, o = some (c', s', es) → ∃ live', Good c live c' live' es ∧
          ∀ j e, i ≤ j → j < i + n → live (mkid j head) = some e →
            e.deadline ≤ c.t.timestamp → Resolved es (mkid j head) := by
  induction n with
  | zero =>
    intro i c live s r _
    refine ⟨_, rfl, ?_⟩
    intro c' s' es h; cases h
    exact ⟨live, .refl r, fun j e h1 h2 => by omega⟩
  | succ n ih =>
    intro i c live s r hi
    have hbase : mul32 c.t.wheel head = head * c.t.wheel := by
      have := mul32_idx hh r.rep.wle
      unfold mul32 at this ⊢; rw [Nat.mul_comm]; exact this
    obtain ⟨item, hc1, hc2⟩ := r.rep.cell head i hh (by omega)
    rw [cells]
    simp only [hbase]
    rw [add32_idx hh (by omega) r.rep.wle, rd_eq_ok.2 hc1, Res.ok_bind]
    have hts := r.rep.ts
    by_cases hdue : item.timeout ≤ c.t.timestamp
    · rw [if_pos hdue]
      have hlt := idx_lt hh (show i < c.t.wheel by omega)
      rw [wr_lt (by rw [r.rep.len]; omega), Res.ok_bind]
      have r1 := r.rep.set hh (show i < c.t.wheel by omega) { item with timeout := INVALID }
      rw [show entry { item with timeout := INVALID } = none by simp [entry]] at r1
      have rc1 := RepC.mk (c := ⟨_, c.issued⟩) r1 r.issued
      obtain ⟨o, ho, hgood⟩ := exec_spec (cb s item.timeout item.type item.data) rc1
      rw [ho, Res.ok_bind]
      have hent : live (mkid i head) = some ⟨item.timeout, item.type, item.data⟩ := by
        rw [hc2]; simp only [entry]; rw [if_neg (by omega)]
      cases o with
      | none => exact ⟨none, rfl, fun _ _ _ h => nomatch h⟩
      | some v =>
        obtain ⟨c2, s2, es2⟩ := v
        obtain ⟨live2, g2⟩ := hgood _ _ _ rfl
        have gf : Good c live c2 live2 (.fire (mkid i head) item.timeout item.type item.data :: es2) := by
          refine ⟨.fire (e := ⟨item.timeout, item.type, item.data⟩) hent hdue g2.tr, g2.rep, g2.wheel, ?_, g2.ts⟩
          rcases g2.head with h | h
          · exact Or.inl (List.mem_cons_of_mem _ h)
          · exact Or.inr h
        have hw2 : c.t.wheel ≤ c2.t.wheel := g2.wheel
        obtain ⟨o3, ho3, hg3⟩ := ih (i := i + 1) (s := s2) g2.rep (by omega)
        simp only
        rw [ho3, pre_eq]
        refine ⟨_, rfl, ?_⟩
        intro c' s' es h
        cases o3 with
        | none => cases h
        | some v3 =>
          obtain ⟨c3, s3, es3⟩ := v3
          cases h
          obtain ⟨live3, g3, hres⟩ := hg3 _ _ _ rfl
          refine ⟨live3, gf.trans g3, ?_⟩
          intro j e hj1 hj2 hl hd
          by_cases hji : j = i
          · subst hji
            exact Or.inl ⟨_, _, _, List.mem_append_left _ List.mem_cons_self⟩
          · rcases gf.tr.persist hl with h | h
            · exact h.left
            · refine Resolved.right (hres j e (by omega) (by omega) h ?_)
              rw [gf.ts]; exact hd
    · rw [if_neg hdue]
      obtain ⟨o3, ho3, hg3⟩ := ih (i := i + 1) (s := s) r (by omega)
      rw [hbase] at ho3
      refine ⟨o3, ho3, ?_⟩
      intro c' s' es h
      obtain ⟨live3, g3, hres⟩ := hg3 _ _ _ h
      refine ⟨live3, g3, ?_⟩
      intro j e hj1 hj2 hl hd
      by_cases hji : j = i
      · subst hji
        exfalso
        rw [hc2] at hl
        simp only [entry] at hl
        split at hl
        · cases hl
        · cases hl; exact hdue hd
      · exact hres j e (by omega) (by omega) hl hd

/-- The whole sweep of `n` slots from `head` on. -/
theorem slots_spec (cb : σ → Nat → Nat → Nat → Prog σ) (n : Nat) :
    ∀ {head : Nat} {c : Cfg} {live : Nat → Option Entry} {s : σ}, head < 16 → RepC c live →
      ∃ o, slots cb n head c s = .ok o ∧
        ∀ c' s' es, o = some (c', s', es) → ∃ live', Good c live c' live' es ∧
          ∀ k j e, k < n → live (mkid j ((head + k) % 16)) = some e →
            e.deadline ≤ c.t.timestamp → Resolved es (mkid j ((head + k) % 16)) := by
  induction n with
  | zero =>
    intro head c live s _ r
    refine ⟨_, rfl, ?_⟩
    intro c' s' es h; cases h
    exact ⟨live, .refl r, fun k j e h => by omega⟩
  | succ n ih =>
    intro head c live s hh r
    rw [slots]
    obtain ⟨o, ho, hg⟩ := cells_spec cb hh c.t.wheel (i := 0) (s := s) r (by omega)
    rw [ho, Res.ok_bind]
    cases o with
    | none => exact ⟨none, rfl, fun _ _ _ h => nomatch h⟩
    | some v =>
      obtain ⟨c1, s1, es1⟩ := v
      obtain ⟨live1, g1, hres1⟩ := hg _ _ _ rfl
      obtain ⟨o2, ho2, hg2⟩ := ih (head := (head + 1) % 16) (s := s1) (by omega) g1.rep
      simp only
      rw [ho2, pre_eq]
      refine ⟨_, rfl, ?_⟩
      intro c' s' es h
      cases o2 with
      | none => cases h
      | some v2 =>
        obtain ⟨c2, s2, es2⟩ := v2
        cases h
        obtain ⟨live2, g2, hres2⟩ := hg2 _ _ _ rfl
        refine ⟨live2, g1.trans g2, ?_⟩
        intro k j e hk hl hd
        by_cases hk0 : k = 0
        · subst hk0
          have e0 : (head + 0) % 16 = head := by omega
          rw [e0] at hl ⊢
          obtain ⟨p', s', hp', hs', he⟩ := r.rep.dom _ (by rw [hl]; simp)
          obtain ⟨rfl, rfl⟩ := id_inj hh hp' he
          exact (hres1 j e (by omega) (by omega) hl hd).left
        · rcases g1.tr.persist hl with h | h
          · exact h.left
          · have e1 : (head + k) % 16 = ((head + 1) % 16 + (k - 1)) % 16 := by omega
            rw [e1] at h ⊢
            exact Resolved.right (hres2 (k - 1) j e (by omega) h (by rw [g1.ts]; exact hd))

/-- How many slots `sc_timer_timeout` sweeps: one for each full 16 ms since the last time
the wheel moved, 16 at most. -/
def swept (now ts : Nat) : Nat := min ((ts - now) / 16) 16

theorem timeout_spec (cb : σ → Nat → Nat → Nat → Prog σ) {c : Cfg} {live : Nat → Option Entry}
    {s : σ} {ts : Nat} (r : RepC c live) (h1 : c.t.timestamp ≤ ts) (h2 : ts < INVALID) :
    ∃ o ret, timeout cb ts c s = .ok (o, ret) ∧ ret ≤ 16 ∧
      ts + ret ≤ (if swept c.t.timestamp ts = 0 then c.t.timestamp else ts) + 16 ∧
      ∀ c' s' es, o = some (c', s', es) → ∃ live',
        Trace ⟨live, c.t.timestamp⟩ es ⟨live', c'.t.timestamp⟩ ∧ RepC c' live' ∧
        (c'.t.timestamp = if swept c.t.timestamp ts = 0 then c.t.timestamp else ts) ∧
        (.clear ∈ es ∨ c'.t.head = (c.t.head + swept c.t.timestamp ts) % 16) ∧
        (∀ k j e, k < swept c.t.timestamp ts → live (mkid j ((c.t.head + k) % 16)) = some e →
          e.deadline ≤ ts → Resolved es (mkid j ((c.t.head + k) % 16))) := by
  have htime : sub64 ts c.t.timestamp = ts - c.t.timestamp := by unfold sub64; omega
  have hw : (if (ts - c.t.timestamp) / 16 < 16 then (ts - c.t.timestamp) / 16 else 16) % W32 =
      swept c.t.timestamp ts := by unfold swept; split <;> omega
  have hhint : hint (ts - c.t.timestamp) ≤ 16 ∧
      ts + hint (ts - c.t.timestamp) ≤
        (if swept c.t.timestamp ts = 0 then c.t.timestamp else ts) + 16 := by
    unfold hint swept sub64
    constructor
    · split <;> omega
    · split <;> split <;> omega
  unfold timeout
  simp only [htime, hw]
  have hhead := r.rep.head
  by_cases h0 : swept c.t.timestamp ts = 0
  · rw [if_pos h0]
    refine ⟨_, _, rfl, hhint.1, hhint.2, ?_⟩
    intro c' s' es h
    cases h
    refine ⟨live, .nil _, r, by rw [if_pos h0], Or.inr (by rw [h0]; omega), ?_⟩
    intro k j e hk; omega
  · rw [if_neg h0]
    have hle : swept c.t.timestamp ts ≤ 16 := by unfold swept; omega
    have ha : add32 c.t.head (swept c.t.timestamp ts) = c.t.head + swept c.t.timestamp ts :=
      add32_lt (by omega)
    rw [ha]
    have r1 : RepC { c with t := { c.t with
        timestamp := ts, head := (c.t.head + swept c.t.timestamp ts) % 16 } } live := by
      refine ⟨⟨r.rep.len, r.rep.wle, ?_, h2, r.rep.cell, r.rep.dom⟩, r.issued⟩
      simp only; omega
    obtain ⟨o, ho, hg⟩ := slots_spec cb (swept c.t.timestamp ts) (s := s) hhead r1
    simp only [ho]
    refine ⟨_, _, rfl, hhint.1, hhint.2, ?_⟩
    intro c' s' es h
    cases o with
    | none => cases h
    | some v =>
      obtain ⟨c2, s2, es2⟩ := v
      cases h
      obtain ⟨live2, g2, hres⟩ := hg _ _ _ rfl
      have hts := g2.ts
      simp only at hts
      refine ⟨live2, ?_, g2.rep, by rw [if_neg h0]; exact hts, ?_, ?_⟩
      · exact .now (S := ⟨live, c.t.timestamp⟩) h1 g2.tr
      · rcases g2.head with h | h
        · exact Or.inl (List.mem_cons_of_mem _ h)
        · exact Or.inr h
      · intro k j e hk hl hd
        exact (hres k j e hk hl hd).cons

end Verif.Timer
