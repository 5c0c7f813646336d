import Verif.Timer.Late

/-! # The order in which timers fire -/

namespace Verif.Timer

open Spec

/-- Every call of `sc_timer_timeout` comes a whole number of ticks, 15 at most, after the one before. -/
def Steady (l : Nat) : List (Op σ) → Prop
  | [] => True
  | .timeout ts :: ops => (∃ k, k ≤ 15 ∧ ts = l + 16 * k) ∧ Steady ts ops
  | _ :: ops => Steady l ops

/-- Whenever a timer fires, all that are pending have deadlines less than a tick before its own. -/
def Ord (S : State) (es : List Ev) : Prop :=
  ∀ es1 id D ty d es2 S1, es = es1 ++ .fire id D ty d :: es2 → Trace S es1 S1 → ∀ id' e, S1.live id' = some e → D < e.deadline + 16

theorem Spec.Trace.det {S S' S'' : State} {es : List Ev} (h : Trace S es S') (h' : Trace S es S'') : S' = S'' := by
  induction h with
  | nil S => cases h'; rfl
  | add _ _ _ ih => cases h' with | add _ _ h => exact ih h
  | addFail _ ih => cases h' with | addFail h => exact ih h
  | cancel _ ih => cases h' with | cancel h => exact ih h
  | clear _ ih => cases h' with | clear h => exact ih h
  | now _ _ ih => cases h' with | now _ h => exact ih h
  | fire _ _ _ ih =>
    generalize hx : Ev.fire _ _ _ _ :: _ = l at h'
    cases h' with
    | fire _ _ h =>
      simp only [List.cons.injEq, Ev.fire.injEq] at hx
      obtain ⟨⟨rfl, -⟩, rfl⟩ := hx
      exact ih h
    | _ => simp at hx

theorem Ord.append {S S' : State} {es es' : List Ev} (t : Trace S es S') (h : Ord S es) (h' : Ord S' es') : Ord S (es ++ es') := by
  intro es1 id D ty d es2 S1 he t1 id' e hl
  rcases List.append_eq_append_iff.1 he with ⟨l, h1, h2⟩ | ⟨m, h1, h2⟩
  · subst h1
    obtain ⟨S2, t2, t3⟩ := t1.split
    obtain rfl := t.det t2
    exact h' l id D ty d es2 S1 h2 t3 id' e hl
  · cases m with
    | nil =>
      simp only [List.append_nil] at h1
      subst h1
      obtain rfl := t.det t1
      exact h' [] id D ty d es2 S' h2.symm (.nil _) id' e hl
    | cons x m =>
      cases h2
      exact h es1 id D ty d m S1 h1 t1 id' e hl

theorem ord_nil {S : State} : Ord S [] := by
  intro es1 id D ty d es2 S1 he
  simp at he

theorem ord_one {S : State} {ev : Ev} (h : ∀ id D ty d, ev ≠ .fire id D ty d) : Ord S [ev] := by
  intro es1 id D ty d es2 S1 he
  cases es1 with
  | nil => cases he; exact absurd rfl (h id D ty d)
  | cons x es1 => simp at he

/-- During the sweep of the slot `hd`, with `n` slots to go, this one included, when the cells before `i` have been looked at: counted from
some time `b` on the wheel has made `H` steps, and each pending timer is in a slot that is still to come and belongs to its deadline. -/
def Sw (n hd i w : Nat) (t : T) (live : Nat → Option Entry) : Prop :=
  ∃ b H j, t.timestamp = 16 * H + b ∧ t.head = H % 16 ∧ (hd = j % 16 ∧ j + n = H ∧ n ≤ 15 ∨ j = H) ∧
    ∀ id e, live id = some e → ∃ A s, id = mkid s (A % 16) ∧ 16 * A + b ≤ e.deadline ∧ e.deadline < 16 * A + 16 + b ∧ j ≤ A ∧
      (A = j → i ≤ s ∧ s < w ∨ j = H)

theorem Sw.upd_none {n hd i w : Nat} {t t' : T} {live : Nat → Option Entry} {id : Nat} (h : Sw n hd i w t live) (h1 : t'.timestamp = t.timestamp)
    (h2 : t'.head = t.head) : Sw n hd i w t' (upd live id none) := by
  obtain ⟨b, H, j, a1, a2, a3, a4⟩ := h
  refine ⟨b, H, j, h1 ▸ a1, h2 ▸ a2, a3, ?_⟩
  intro id' e hl
  unfold upd at hl
  split at hl
  · cases hl
  · exact a4 id' e hl

theorem clear_head {t t' : T} (h : clear t = .ok t') : t'.head = 0 := by
  unfold clear at h
  obtain ⟨l, -, h⟩ := Res.bind_eq_ok.1 h
  cases h; rfl

/-- Events put in front -/
theorem pre_kept {n' hd' i' w' : Nat} {c c1 : Cfg} {live live1 : Nat → Option Entry} {es : List Ev} {r : Res (Out σ)} (g : Good c live c1 live1 es)
    (o : Ord ⟨live, c.t.timestamp⟩ es) (h : ∀ c' s' es', r = .ok (some (c', s', es')) → ∃ live', Good c1 live1 c' live' es' ∧ Sw n' hd' i' w' c'.t live' ∧
      Ord ⟨live1, c1.t.timestamp⟩ es') :
    ∀ c' s' es', pre es r = .ok (some (c', s', es')) → ∃ live', Good c live c' live' es' ∧ Sw n' hd' i' w' c'.t live' ∧ Ord ⟨live, c.t.timestamp⟩ es' := by
  intro c' s' es' he
  unfold pre at he
  obtain ⟨v, hv, he⟩ := Res.bind_eq_ok.1 he
  cases v with
  | none => cases he
  | some v =>
    obtain ⟨c2, s2, es2⟩ := v
    cases he
    obtain ⟨live', g', s', o'⟩ := h _ _ _ hv
    exact ⟨live', g.trans g', s', o.append g.tr o'⟩

theorem exec_kept {n hd i w : Nat} (hn : 0 < n) (p : Prog σ) : ∀ {c : Cfg} {live : Nat → Option Entry}, RepC c live → Sw n hd i w c.t live →
    ∀ c' s' es, exec p c = .ok (some (c', s', es)) → ∃ live', Good c live c' live' es ∧ Sw n hd i w c'.t live' ∧ Ord ⟨live, c.t.timestamp⟩ es := by
  induction p with
  | ret s =>
    intro c live r sw c' s' es h
    cases h
    exact ⟨live, .refl r, sw, ord_nil⟩
  | add al timeout type data k ih =>
    intro c live r sw
    rw [exec]
    by_cases hg : timeout + c.t.timestamp < INVALID
    · rw [if_pos hg]
      rcases add_spec r.rep al hg (type := type) (data := data) with h | ⟨t', s, h, hl, r', hs, hw, hh, hts⟩
      · obtain ⟨id, hid⟩ : ∃ id, id = INVALID := ⟨_, rfl⟩
        rw [← hid] at h
        rw [h, Res.ok_bind]
        simp only
        rw [if_pos hid]
        exact pre_kept (c1 := c) (live1 := live) ⟨.addFail (.nil _), r, Nat.le_refl _, Or.inr rfl, rfl⟩ (ord_one (by simp)) (ih _ r sw)
      · rw [h]
        have hp : (timeout / 16 + c.t.head) % 16 < 16 := by omega
        have sw' : Sw n hd i w t' (upd live (mkid s ((timeout / 16 + c.t.head) % 16)) (some ⟨c.t.timestamp + timeout, type, data⟩)) := by
          obtain ⟨b, H, j, a1, a2, a3, a4⟩ := sw
          refine ⟨b, H, j, by omega, by omega, a3, ?_⟩
          intro id e he
          unfold upd at he
          split at he
          · next hid =>
            cases he
            refine ⟨timeout / 16 + H, s, ?_, by simp only; omega, by simp only; omega, ?_, ?_⟩
            · rw [hid, a2]; congr 1; omega
            · rcases a3 with a3 | a3 <;> omega
            · intro hA
              rcases a3 with a3 | a3
              · omega
              · exact .inr a3
          · exact a4 id e he
        generalize (timeout / 16 + c.t.head) % 16 = p at *
        have hne : mkid s p ≠ INVALID := mkid_ne hp (by have := r'.wle; omega)
        rw [Res.ok_bind]
        simp only
        rw [if_neg hne]
        have rc : RepC ⟨t', (mkid s p) :: c.issued⟩ (upd live (mkid s p) (some ⟨c.t.timestamp + timeout, type, data⟩)) := by
          refine ⟨r', ?_⟩
          intro id hid
          rcases List.mem_cons.1 hid with rfl | hid
          · exact ⟨p, s, hp, hs, rfl⟩
          · obtain ⟨p', s', h1, h2, h3⟩ := r.issued id hid
            exact ⟨p', s', h1, by simp only; omega, h3⟩
        refine pre_kept (c1 := ⟨t', (mkid s p) :: c.issued⟩) ⟨?_, rc, hw, Or.inr hh, hts⟩ (ord_one (by simp)) (ih _ rc sw')
        simp only [hts]
        exact .add hne hl (.nil _)
    · rw [if_neg hg]
      intro _ _ _ h
      cases h
  | cancel id k ih =>
    intro c live r sw
    rw [exec]
    by_cases hg : id = INVALID ∨ id ∈ c.issued
    · rw [if_pos hg]
      by_cases hid : id = INVALID
      · have : cancel c.t id = .ok (c.t, id) := by unfold cancel; rw [if_pos hid]
        rw [this]
        simp only [Res.ok_bind]
        have hnone : upd live id none = live := by
          funext x; unfold upd; split
          · next hx =>
            subst hx
            rcases hl : live x with _ | e
            · rfl
            · obtain ⟨p, s, hp, hs, he⟩ := r.rep.dom _ (by rw [hl]; simp)
              exact absurd (he.symm.trans hid) (mkid_ne hp (by have := r.rep.wle; omega))
          · rfl
        refine pre_kept (c1 := c) (live1 := live) ⟨.cancel ?_, r, Nat.le_refl _, Or.inr rfl, rfl⟩ (ord_one (by simp)) (ih r sw)
        simp only [hnone]
        exact .nil _
      · have hm : id ∈ c.issued := hg.resolve_left hid
        obtain ⟨p, s, hp, hs, rfl⟩ := r.issued id hm
        obtain ⟨t', h, r', hw, hh, hts⟩ := cancel_spec r.rep hp hs
        rw [h]
        simp only [Res.ok_bind]
        have rc : RepC { c with t := t' } (upd live (mkid s p) none) :=
          ⟨r', fun id hid => by rw [hw]; exact r.issued id hid⟩
        refine pre_kept (c1 := { c with t := t' }) ⟨.cancel ?_, rc, by simp only; omega, Or.inr hh, hts⟩ (ord_one (by simp)) (ih rc (sw.upd_none hts hh))
        simp only [hts]
        exact .nil _
    · rw [if_neg hg]
      intro _ _ _ h
      cases h
  | clear k ih =>
    intro c live r sw
    rw [exec]
    obtain ⟨t', h, r', hts, hw⟩ := clear_spec r.rep
    have hh := clear_head h
    rw [h]
    simp only [Res.ok_bind]
    have rc : RepC { c with t := t' } (fun _ => none) := ⟨r', fun id hid => by rw [hw]; exact r.issued id hid⟩
    refine pre_kept (c1 := { c with t := t' }) ⟨.clear ?_, rc, by simp only; omega, Or.inl (by simp), hts⟩ (ord_one (by simp))
      (ih rc ⟨t'.timestamp, 0, 0, by simp only; omega, by simp only; omega, .inr rfl, fun _ _ he => by cases he⟩)
    simp only [hts]
    exact .nil _

/-- A timer that fires during the sweep is not a tick later than any that is pending. -/
theorem Sw.fire {n hd i w : Nat} {t : T} {live : Nat → Option Entry} (h : Sw n hd i w t live) {s : Nat} {e : Entry} (hhd : hd < 16)
    (hl : live (mkid s hd) = some e) (hdue : e.deadline ≤ t.timestamp) {id' : Nat} {e' : Entry} (hl' : live id' = some e') : e.deadline < e'.deadline + 16 := by
  obtain ⟨b, H, j, a1, a2, a3, a4⟩ := h
  obtain ⟨A, s1, h1, h2, h3, h4, -⟩ := a4 _ _ hl
  obtain ⟨A', s2, -, h6, -, h8, -⟩ := a4 _ _ hl'
  have := (id_inj hhd (Nat.mod_lt _ (by decide)) h1).2
  rcases a3 with ⟨b1, b2, b3⟩ | a3 <;> omega

theorem cells_kept (cb : σ → Nat → Nat → Nat → Prog σ) {m head w : Nat} (hm : 0 < m) (hh : head < 16) (n : Nat) :
    ∀ {i : Nat} {c : Cfg} {live : Nat → Option Entry} {s : σ}, RepC c live → i + n ≤ c.t.wheel → Sw m head i w c.t live →
      ∀ c' s' es, cells cb head n i (mul32 c.t.wheel head) c s = .ok (some (c', s', es)) →
        ∃ live', Good c live c' live' es ∧ Sw m head (i + n) w c'.t live' ∧ Ord ⟨live, c.t.timestamp⟩ es := by
  induction n with
  | zero =>
    intro i c live s r _ sw c' s' es h
    cases h
    exact ⟨live, .refl r, sw, ord_nil⟩
  | succ n ih =>
    intro i c live s r hi sw
    have hbase : mul32 c.t.wheel head = head * c.t.wheel := by
      have := mul32_idx hh r.rep.wle
      unfold mul32 at this ⊢; rw [Nat.mul_comm]; exact this
    obtain ⟨item, hc1, hc2⟩ := r.rep.cell head i hh (by omega)
    rw [cells]
    simp only [hbase]
    rw [add32_idx hh (by omega) r.rep.wle, rd_eq_ok.2 hc1, Res.ok_bind]
    have hts := r.rep.ts
    by_cases hdue : item.timeout ≤ c.t.timestamp
    · rw [if_pos hdue]
      have hlt := idx_lt hh (show i < c.t.wheel by omega)
      rw [wr_lt (by rw [r.rep.len]; omega), Res.ok_bind]
      have r1 := r.rep.set hh (show i < c.t.wheel by omega) { item with timeout := INVALID }
      rw [show entry { item with timeout := INVALID } = none by simp [entry]] at r1
      have rc1 := RepC.mk (c := ⟨_, c.issued⟩) r1 r.issued
      have hent : live (mkid i head) = some ⟨item.timeout, item.type, item.data⟩ := by
        rw [hc2]; simp only [entry]; rw [if_neg (by omega)]
      have sw1 : Sw m head (i + 1) w { c.t with list := c.t.list.set (head * c.t.wheel + i) { item with timeout := INVALID } } (upd live (mkid i head) none) := by
        obtain ⟨b, H, j, a1, a2, a3, a4⟩ := sw
        refine ⟨b, H, j, a1, a2, a3, ?_⟩
        intro id e he
        unfold upd at he
        split at he
        · cases he
        · next hid =>
          obtain ⟨A, s, h1, h2, h3, h4, h5⟩ := a4 id e he
          refine ⟨A, s, h1, h2, h3, h4, fun hA => ?_⟩
          rcases h5 hA with h5 | h5
          · rcases a3 with a3 | a3
            · have : s ≠ i := by
                rintro rfl
                apply hid; rw [h1, a3.1, hA]
              omega
            · exact .inr a3
          · exact .inr h5
      intro c' s' es h
      obtain ⟨o, ho, h⟩ := Res.bind_eq_ok.1 h
      cases o with
      | none => cases h
      | some v =>
        obtain ⟨c2, s2, es2⟩ := v
        obtain ⟨live2, g2, sw2, o2⟩ := exec_kept hm _ rc1 sw1 _ _ _ ho
        have gf : Good c live c2 live2 (.fire (mkid i head) item.timeout item.type item.data :: es2) := by
          refine ⟨.fire (e := ⟨item.timeout, item.type, item.data⟩) hent hdue g2.tr, g2.rep, g2.wheel, ?_, g2.ts⟩
          rcases g2.head with h | h
          · exact Or.inl (List.mem_cons_of_mem _ h)
          · exact Or.inr h
        have of : Ord ⟨live, c.t.timestamp⟩ (.fire (mkid i head) item.timeout item.type item.data :: es2) := by
          have h1 : Ord ⟨live, c.t.timestamp⟩ [.fire (mkid i head) item.timeout item.type item.data] := by
            intro es1 id D ty d es2 S1 he t1 id' e hl
            cases es1 with
            | nil => cases he; cases t1; exact sw.fire hh hent hdue hl
            | cons x es1 => simp at he
          exact h1.append (es' := es2) (.fire (e := ⟨item.timeout, item.type, item.data⟩) hent hdue (.nil _)) o2
        have hw2 : c.t.wheel ≤ c2.t.wheel := g2.wheel
        have h3 := ih (i := i + 1) (s := s2) g2.rep (by omega) sw2
        rw [show i + 1 + n = i + (n + 1) by omega] at h3
        exact pre_kept gf of h3 c' s' es h
    · rw [if_neg hdue]
      have sw1 : Sw m head (i + 1) w c.t live := by
        obtain ⟨b, H, j, a1, a2, a3, a4⟩ := sw
        refine ⟨b, H, j, a1, a2, a3, ?_⟩
        intro id e he
        obtain ⟨A, s, h1, h2, h3, h4, h5⟩ := a4 id e he
        refine ⟨A, s, h1, h2, h3, h4, fun hA => ?_⟩
        rcases h5 hA with h5 | h5
        · rcases a3 with a3 | a3
          · have : s ≠ i := by
              rintro rfl
              apply hdue
              rw [h1, hA, ← a3.1, hc2] at he
              simp only [entry] at he
              split at he
              · cases he
              · cases he
                simp only at h3
                omega
            omega
          · exact .inr a3
        · exact .inr h5
      have h3 := ih (i := i + 1) (s := s) r (by omega) sw1
      rw [show i + 1 + n = i + (n + 1) by omega, hbase] at h3
      exact h3

/-- Between calls: as `Sw`, with no slot to go -/
def Even (t : T) (live : Nat → Option Entry) : Prop :=
  ∃ b H, t.timestamp = 16 * H + b ∧ t.head = H % 16 ∧
    ∀ id e, live id = some e → ∃ A s, id = mkid s (A % 16) ∧ 16 * A + b ≤ e.deadline ∧ e.deadline < 16 * A + 16 + b ∧ H ≤ A

theorem Even.sw {t : T} {live : Nat → Option Entry} (h : Even t live) (n hd i w : Nat) : Sw n hd i w t live := by
  obtain ⟨b, H, a1, a2, a3⟩ := h
  refine ⟨b, H, H, a1, a2, .inr rfl, fun id e he => ?_⟩
  obtain ⟨A, s, h1, h2, h3, h4⟩ := a3 id e he
  exact ⟨A, s, h1, h2, h3, h4, fun _ => .inr rfl⟩

theorem slots_kept (cb : σ → Nat → Nat → Nat → Prog σ) (n : Nat) : ∀ {head : Nat} {c : Cfg} {live : Nat → Option Entry} {s : σ}, head < 16 → RepC c live →
    (n = 0 → Even c.t live) → Sw n head 0 c.t.wheel c.t live → ∀ c' s' es, slots cb n head c s = .ok (some (c', s', es)) →
    ∃ live', Good c live c' live' es ∧ Sw 0 0 0 0 c'.t live' ∧ Ord ⟨live, c.t.timestamp⟩ es ∧ Even c'.t live' := by
  induction n with
  | zero =>
    intro head c live s _ r he sw c' s' es h
    cases h
    exact ⟨live, .refl r, (he rfl).sw _ _ _ _, ord_nil, he rfl⟩
  | succ n ih =>
    intro head c live s hh r _ sw c' s' es h
    rw [slots] at h
    obtain ⟨o, ho, h⟩ := Res.bind_eq_ok.1 h
    cases o with
    | none => cases h
    | some v =>
      obtain ⟨c1, s1, es1⟩ := v
      obtain ⟨live1, g1, sw1, o1⟩ := cells_kept cb (by omega) hh c.t.wheel (i := 0) (s := s) (w := c.t.wheel) r (by omega) sw _ _ _ ho
      simp only [Nat.zero_add] at sw1
      -- all timers of the slot that belong to this round have fired
      have hnext : Sw n ((head + 1) % 16) 0 c1.t.wheel c1.t live1 ∧ (n = 0 → Even c1.t live1) := by
        obtain ⟨b, H, j, a1, a2, a3, a4⟩ := sw1
        rcases a3 with ⟨b1, b2, b3⟩ | a3
        · have hgt : ∀ id e, live1 id = some e → ∃ A s, id = mkid s (A % 16) ∧ 16 * A + b ≤ e.deadline ∧ e.deadline < 16 * A + 16 + b ∧ j + 1 ≤ A ∧ s < c1.t.wheel := by
            intro id e he
            obtain ⟨A, s, h1, h2, h3, h4, h5⟩ := a4 id e he
            have hs : s < c1.t.wheel := by
              obtain ⟨p', s', hp', hs', he'⟩ := g1.rep.rep.dom id (by rw [he]; simp)
              have := (id_inj (Nat.mod_lt _ (by decide)) hp' (h1.symm.trans he')).1
              omega
            refine ⟨A, s, h1, h2, h3, ?_, hs⟩
            have : A ≠ j := by
              intro hA
              rcases h5 hA with h5 | h5 <;> omega
            omega
          refine ⟨⟨b, H, j + 1, a1, a2, .inl ⟨by omega, by omega, by omega⟩, ?_⟩, fun hn => ⟨b, H, a1, a2, ?_⟩⟩
          · intro id e he
            obtain ⟨A, s, h1, h2, h3, h4, h5⟩ := hgt id e he
            exact ⟨A, s, h1, h2, h3, h4, fun _ => .inl ⟨Nat.zero_le _, h5⟩⟩
          · intro id e he
            obtain ⟨A, s, h1, h2, h3, h4, h5⟩ := hgt id e he
            exact ⟨A, s, h1, h2, h3, by omega⟩
        · have he : Even c1.t live1 := by
            refine ⟨b, H, a1, a2, fun id e he => ?_⟩
            obtain ⟨A, s, h1, h2, h3, h4, _⟩ := a4 id e he
            exact ⟨A, s, h1, h2, h3, by omega⟩
          exact ⟨he.sw _ _ _ _, fun _ => he⟩
      simp only at h
      unfold pre at h
      obtain ⟨v, hv, h⟩ := Res.bind_eq_ok.1 h
      cases v with
      | none => cases h
      | some v =>
        obtain ⟨c2, s2, es2⟩ := v
        cases h
        obtain ⟨live2, g2, sw2, o2, e2⟩ := ih (head := (head + 1) % 16) (s := s1) (by omega) g1.rep hnext.2 hnext.1 _ _ _ hv
        refine ⟨live2, g1.trans g2, sw2, o1.append g1.tr ?_, e2⟩
        exact o2

theorem step_kept (cb : σ → Nat → Nat → Nat → Prog σ) {c c' : Cfg} {live : Nat → Option Entry} {s s' : σ} {es : List Ev} {op : Op σ} (r : RepC c live)
    (he : Even c.t live) (hop : ∀ ts, op = .timeout ts → ∃ k, k ≤ 15 ∧ ts = c.t.timestamp + 16 * k) (h : step cb c s op = .ok (some (c', s', es))) :
    ∃ live', Trace ⟨live, c.t.timestamp⟩ es ⟨live', c'.t.timestamp⟩ ∧ RepC c' live' ∧ Even c'.t live' ∧ Ord ⟨live, c.t.timestamp⟩ es ∧
      c'.t.timestamp = match op with | .timeout ts => ts | _ => c.t.timestamp := by
  cases op with
  | call p =>
    rw [step] at h
    -- the program runs as in the sweep of a last slot that is empty
    obtain ⟨live', g, sw, o⟩ := exec_kept (n := 1) (by decide) _ r (he.sw 1 16 0 0) _ _ _ h
    refine ⟨live', g.tr, g.rep, ?_, o, g.ts⟩
    obtain ⟨b, H, j, a1, a2, a3, a4⟩ := sw
    have hj : j = H := by rcases a3 with a3 | a3 <;> omega
    refine ⟨b, H, a1, a2, fun id e he => ?_⟩
    obtain ⟨A, s, h1, h2, h3, h4, _⟩ := a4 id e he
    exact ⟨A, s, h1, h2, h3, by omega⟩
  | term =>
    rw [step] at h
    cases h
    obtain ⟨o', ho', hg⟩ := step_spec cb (s := s) r .term
    rw [step] at ho'; cases ho'
    obtain ⟨live', t1, r1⟩ := hg _ _ _ rfl
    have hl : live' = fun _ => none := by
      cases t1 with | clear t1 => cases t1; rfl
    subst hl
    exact ⟨_, t1, r1, ⟨c.t.timestamp, 0, by simp [term], by simp [term], fun _ _ h => by cases h⟩, ord_one (by simp), rfl⟩
  | timeout ts =>
    obtain ⟨k, hk, rfl⟩ := hop ts rfl
    rw [step] at h
    split at h
    · next hg =>
      obtain ⟨⟨v, ret⟩, hv, h⟩ := Res.bind_eq_ok.1 h
      cases h
      have htime : sub64 (c.t.timestamp + 16 * k) c.t.timestamp = 16 * k := by unfold sub64; omega
      have hw : (if 16 * k / 16 < 16 then 16 * k / 16 else 16) % W32 = k := by split <;> omega
      unfold timeout at hv
      simp only [htime, hw] at hv
      by_cases h0 : k = 0
      · rw [if_pos h0] at hv
        cases hv
        refine ⟨live, .nil _, r, he, ord_nil, ?_⟩
        simp only; omega
      · rw [if_neg h0] at hv
        have hhead := r.rep.head
        rw [add32_lt (by omega)] at hv
        obtain ⟨o, ho, hv⟩ := Res.bind_eq_ok.1 hv
        cases hv
        unfold pre at ho
        obtain ⟨v, hv2, ho⟩ := Res.bind_eq_ok.1 ho
        cases v with
        | none => cases ho
        | some v =>
          obtain ⟨c2, s2, es2⟩ := v
          cases ho
          have r1 : RepC { c with t := { c.t with timestamp := c.t.timestamp + 16 * k, head := (c.t.head + k) % 16 } } live := by
            refine ⟨⟨r.rep.len, r.rep.wle, ?_, hg.2, r.rep.cell, r.rep.dom⟩, r.issued⟩
            simp only; omega
          have sw : Sw k c.t.head 0 c.t.wheel { c.t with timestamp := c.t.timestamp + 16 * k, head := (c.t.head + k) % 16 } live := by
            obtain ⟨b, H, a1, a2, a3⟩ := he
            refine ⟨b, H + k, H, by simp only; omega, by simp only; omega, .inl ⟨a2, rfl, hk⟩, fun id e hl => ?_⟩
            obtain ⟨A, s, h1, h2, h3, h4⟩ := a3 id e hl
            have hs : s < c.t.wheel := by
              obtain ⟨p', s', hp', hs', he'⟩ := r.rep.dom id (by rw [hl]; simp)
              have := (id_inj (Nat.mod_lt _ (by decide)) hp' (h1.symm.trans he')).1
              omega
            exact ⟨A, s, h1, h2, h3, h4, fun _ => .inl ⟨Nat.zero_le _, hs⟩⟩
          obtain ⟨live2, g2, _, o2, e2⟩ := slots_kept cb k hhead r1 (fun hc => absurd hc h0) sw _ _ _ hv2
          refine ⟨live2, .now (S := ⟨live, c.t.timestamp⟩) hg.1 g2.tr, g2.rep, e2, ?_, g2.ts⟩
          exact (ord_one (S := ⟨live, c.t.timestamp⟩) (ev := .now (c.t.timestamp + 16 * k)) (by simp)).append
            (.now (S := ⟨live, c.t.timestamp⟩) hg.1 (.nil _)) o2
    · cases h

theorem run_kept (cb : σ → Nat → Nat → Nat → Prog σ) (ops : List (Op σ)) : ∀ {c c' : Cfg} {live : Nat → Option Entry} {s s' : σ} {es : List Ev}, RepC c live →
    Even c.t live → Steady c.t.timestamp ops → run cb ops c s = .ok (some (c', s', es)) → Ord ⟨live, c.t.timestamp⟩ es := by
  induction ops with
  | nil =>
    intro c c' live s s' es r he hst h
    cases h
    exact ord_nil
  | cons op ops ih =>
    intro c c' live s s' es r he hst h
    obtain ⟨c1, s1, es1, es2, h1, h2, rfl⟩ := run_cons h
    have hop : ∀ ts, op = .timeout ts → ∃ k, k ≤ 15 ∧ ts = c.t.timestamp + 16 * k := by
      rintro ts rfl
      exact hst.1
    obtain ⟨live1, t1, r1, e1, o1, hts⟩ := step_kept cb r he hop h1
    have hst1 : Steady c1.t.timestamp ops := by
      cases op with
      | timeout ts => rw [hts]; exact hst.2
      | call p => rw [hts]; exact hst
      | term => rw [hts]; exact hst
    exact o1.append t1 (ih r1 e1 hst1 h2)

/-- **C129 (part).** If the function is called at times a whole number of ticks apart, and at most 15, then in every history a timer fires only
while no timer is pending that is due a tick or more before it. Missing: calls that lose time, see `timer_late_violated`, or come later. -/
theorem timer_order_partial {cb : σ → Nat → Nat → Nat → Prog σ} {ts0 : Nat} (h0 : ts0 < INVALID) {ops : List (Op σ)} {s0 s : σ} {c : Cfg} {es : List Ev}
    (hst : Steady ts0 ops) (hr : run cb ops ⟨init ts0, []⟩ s0 = .ok (some (c, s, es))) {es1 es2 es3 : List Ev} {T ty d id id' D ty' d' : Nat}
    (hes : es = es1 ++ .add T ty d id :: (es2 ++ .fire id' D ty' d' :: es3)) (hp : ¬ Resolved es2 id) : D < nowAfter ts0 es1 + T + 16 := by
  have r := repC_init h0
  have o := run_kept cb ops r ⟨ts0, 0, by simp [init], by simp [init], fun _ _ h => by cases h⟩ hst hr
  obtain ⟨o', ho', hg⟩ := run_spec cb ops (s := s0) r
  rw [hr] at ho'; cases ho'
  obtain ⟨live', tr, _⟩ := hg _ _ _ rfl
  subst hes
  obtain ⟨S1, t1, t2⟩ := tr.split
  cases t2 with
  | add hne hl t3 =>
    obtain ⟨S2, t4, t5⟩ := t3.split
    have hnow := t1.now_eq
    rcases t4.persist (id := id) (e := ⟨S1.now + T, ty, d⟩) (by simp [upd]) with h | h
    · exact absurd h hp
    · have h6 := o (es1 ++ .add T ty d id :: es2) id' D ty' d' es3 S2 (by simp) (t1.append (.add hne hl t4)) id _ h
      simp only [hnow, init] at h6
      exact h6

/-- **C129 is violated**: a timer of 256 ms fires before one of 16 ms when the call comes after 256 ms. -/
theorem timer_order_violated :
    events (run noop [.call fun s => .add (some fun _ => 0) 16 1 1 fun _ => .add (some fun _ => 0) 256 2 2 fun _ => .ret s, .timeout 256] ⟨init 0, []⟩ ()) =
      some [.add 16 1 1 1, .add 256 2 2 0, .now 256, .fire 0 256 2 2, .fire 1 16 1 1] := by
  decide +kernel

/-! ## An example

Calls every 48 ms: a timer of 40 ms, one of 50 ms and one that the callback adds. -/

example : Steady 0 ([.call fun s => .add (some fun _ => 0) 50 1 1 fun _ => .add (some fun _ => 0) 40 2 2 fun _ => .ret s, .timeout 48, .timeout 96] : List (Op Unit)) :=
  ⟨⟨3, by decide, rfl⟩, ⟨3, by decide, rfl⟩, trivial⟩

example : events (run noop [.call fun s => .add (some fun _ => 0) 50 1 1 fun _ => .add (some fun _ => 0) 40 2 2 fun _ => .ret s, .timeout 48, .timeout 96]
    ⟨init 0, []⟩ ()) = some [.add 50 1 1 3, .add 40 2 2 2, .now 48, .fire 2 40 2 2, .now 96, .fire 3 50 1 1] := by
  decide +kernel

end Verif.Timer
