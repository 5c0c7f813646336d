import Verif.Poll.WinInv

/-! # Requests that wait until nobody polls -/

namespace Verif.Poll.Win

open Table (dataInner)

/-- The mask that an operation makes of `op` -/
def target (op : Bits) (o : Op) : Bits := dropEdge ((op ||| o.add) &&& ~~~o.del)

/-- Taking a partial operation off the list -/
theorem Inv.pop {fd₀ G M p obj os lo} {o : Op} (h : Inv fd₀ G M p obj (o :: os) lo) (hf : o.full = false) {j0 : Nat} (hj : o.fdt = some j0)
    {obj' : Nat → Fdt} (hap0 : obj' j0 = { obj j0 with opIndex := none }) (hap : ∀ j, j ≠ j0 → obj' j = obj j) :
    Inv fd₀ G (fun j => if j = j0 then (obj j0).op.mask else M j) p obj' os (lo + 1) := by
  have hpd : ∀ j, (obj' j).pd = (obj j).pd := by
    intro j
    by_cases hj : j = j0
    · subst hj; rw [hap0]
    · rw [hap j hj]
  refine ⟨h.wf, ?_, ?_, ?_, ?_, ?_, ?_, ?_, ?_, ?_, ?_⟩
  · intro j
    by_cases hj : j = j0
    · subst hj; rw [hap0]; exact h.fd j
    · rw [hap j hj]; exact h.fd j
  · intro j
    by_cases hj : j = j0
    · subst hj; rw [hap0]; exact (h.held j).index none
    · rw [hap j hj]; exact h.held j
  · intro i j
    rw [hpd, hpd]
    exact h.inj i j
  · intro k o' h1 h2
    obtain ⟨i, q, h3, h4, h5⟩ := h.fulls (k + 1) o' (by simpa using h1) h2
    exact ⟨i, q, h3, h4, fun j => by rw [hpd]; exact h5 j⟩
  · intro k k' o1 o2 h1 h2 h3 h4 h5
    have := h.fullsInj (k + 1) (k' + 1) o1 o2 (by simpa using h1) (by simpa using h2) h3 h4 h5
    omega
  · intro i q hq
    rcases h.owned i q hq with ⟨j, hj⟩ | ⟨k, o', h1, h2, h3⟩
    · exact .inl ⟨j, by rw [hpd]; exact hj⟩
    · cases k with
      | zero =>
        simp only [List.getElem?_cons_zero, Option.some.injEq] at h1
        subst h1
        rw [hf] at h2; cases h2
      | succ k => exact .inr ⟨k, o', by simpa using h1, h2, h3⟩
  · intro k o' h1 h2
    obtain ⟨j, h3, h4, h5, h6, h7⟩ := h.parts (k + 1) o' (by simpa using h1) h2
    obtain ⟨j', h3', h4', -⟩ := h.parts 0 o (by simp) hf
    have hjj : j ≠ j0 := by
      intro hc
      subst hc
      rw [hj] at h3'
      cases h3'
      rw [h4] at h4'
      have := Option.some.inj h4'
      omega
    refine ⟨j, h3, ?_, ?_, ?_, h7⟩
    · rw [hap j hjj, h4]; congr 1; omega
    · rw [hap j hjj]; exact h5
    · rw [hap j hjj, if_neg hjj]; exact h6
  · intro j m hm
    by_cases hj' : j = j0
    · subst hj'; rw [hap0] at hm; cases hm
    · rw [hap j hj'] at hm
      obtain ⟨k, o', h1, h2, h3, h4⟩ := h.index j m hm
      cases k with
      | zero =>
        simp only [List.getElem?_cons_zero, Option.some.injEq] at h2
        subst h2
        rw [hj] at h4
        exact absurd (Option.some.inj h4).symm hj'
      | succ k => exact ⟨k, o', by omega, by simpa using h2, h3, h4⟩
  · intro j hm
    by_cases hj' : j = j0
    · subst hj'; rw [if_pos rfl, hap0]
    · rw [hap j hj'] at hm ⊢
      rw [if_neg hj']
      exact h.mask j hm
  · intro j i s c
    rw [hpd]
    exact h.data j i s c

/-- Doing a complete removal -/
theorem Inv.popFull {fd₀ G M p obj os lo} {o : Op} (h : Inv fd₀ G M p obj (o :: os) lo) (hf : o.full = true) :
    ∃ p', delFull o.pd p = .ok p' ∧ Inv fd₀ G M p' obj os (lo + 1) ∧ Same p p' ∧ p'.count ≤ p.count ∧ Calm p p' ∧
      Kept obj (fun _ => True) p p' := by
  obtain ⟨ev, k, hw⟩ := h.wf
  obtain ⟨i, ⟨s, c⟩, hpd, hen, hno⟩ := h.fulls 0 o (by simp) hf
  obtain ⟨p', ev', h1, h2, h3, h4, h5, h6, h7⟩ := delFull_ok hw hen
  have other : ∀ (i' : Nat) (q : Slot × PData), entry p i' = some q → some (dataInner i') ≠ o.pd → entry p' i' = some q := by
    intro i' q hq hne
    rw [h7]
    · exact hq
    · rintro rfl; exact hne hpd.symm
  have back : ∀ (i' : Nat) (q : Slot × PData), entry p' i' = some q → entry p i' = some q ∧ some (dataInner i') ≠ o.pd := by
    intro i' q hq
    have hne : i' ≠ i := by rintro rfl; rw [h6] at hq; cases hq
    rw [h7 i' hne] at hq
    refine ⟨hq, ?_⟩
    rw [hpd]
    intro hc
    exact hne (h.addr hq hen (Option.some.inj hc))
  refine ⟨p', by rw [hpd]; exact h1, ⟨⟨ev', k, h2⟩, h.fd, ?_, h.inj, ?_, ?_, ?_, ?_, ?_, h.mask, ?_⟩, h3, by omega, fun i' s' c' g1 g2 => ⟨s', c', (back i' _ g1).1, rfl, rfl⟩,
    fun j i' q _ hi' hq => other i' q hq (by rw [← hi']; exact hno j)⟩
  · intro j
    refine (h.held j).congr ?_
    intro i' q hi' hq
    exact other i' q hq (by rw [← hi']; exact hno j)
  · intro k' o' g1 g2
    obtain ⟨i', q, g3, g4, g5⟩ := h.fulls (k' + 1) o' (by simpa using g1) g2
    refine ⟨i', q, g3, other i' q g4 ?_, g5⟩
    intro hc
    have := h.fullsInj (k' + 1) 0 o' o (by simpa using g1) (by simp) g2 hf (by rw [g3, hc])
    omega
  · intro k1 k2 o1 o2 g1 g2 g3 g4 g5
    have := h.fullsInj (k1 + 1) (k2 + 1) o1 o2 (by simpa using g1) (by simpa using g2) g3 g4 g5
    omega
  · intro i' q hq
    obtain ⟨hq', hne⟩ := back i' q hq
    rcases h.owned i' q hq' with hj | ⟨k', o', g1, g2, g3⟩
    · exact .inl hj
    · cases k' with
      | zero =>
        simp only [List.getElem?_cons_zero, Option.some.injEq] at g1
        subst g1
        exact absurd g3.symm hne
      | succ k' => exact .inr ⟨k', o', by simpa using g1, g2, g3⟩
  · intro k' o' g1 g2
    obtain ⟨j, g3, g4, g5⟩ := h.parts (k' + 1) o' (by simpa using g1) g2
    exact ⟨j, g3, by rw [g4]; congr 1; omega, g5⟩
  · intro j m hm
    obtain ⟨k', o', g1, g2, g3, g4⟩ := h.index j m hm
    cases k' with
    | zero =>
      simp only [List.getElem?_cons_zero, Option.some.injEq] at g2
      subst g2
      rw [hf] at g3; cases g3
    | succ k' => exact ⟨k', o', by omega, by simpa using g2, g3, g4⟩
  · intro j i' s' c' g1 g2
    exact h.data j i' s' c' g1 (back i' _ g2).1

/-- A request done at once, for an object that has no operation pending -/
theorem Inv.addNow {e : Env} (he : ∀ n, e.alloc n = true) {fd₀ G M p obj os lo} (h : Inv fd₀ G M p obj os lo) {j : Nat}
    (hnone : (obj j).opIndex = none) (hroom : (obj j).op = NONE → p.count < 524288) (evs : Bits) {data : Nat} (hg : G j data) :
    ∃ f' p', addNow e evs data (obj j) p = .ok (0, f', p') ∧ Same p p' ∧ p'.count ≤ p.count + 1 ∧ Calm p p' ∧ Kept obj (fun i => i ≠ j) p p' ∧ f'.opIndex = none ∧
      f'.op = dropEdge ((obj j).op ||| evs) ∧ ∀ obj' : Nat → Fdt, obj' j = f' → (∀ i, i ≠ j → obj' i = obj i) →
      Inv fd₀ G (fun i => if i = j then (dropEdge ((obj j).op ||| evs)).mask else M i) p' obj' os lo := by
  obtain ⟨ev, k, hw⟩ := h.wf
  obtain ⟨f', p', h1, h2, h3, h4, h5, h6, h7, h8, h9, hca, h10⟩ := addNow_touches he hw (h.held j) hroom evs data
  refine ⟨f', p', h1, h3, h8, hca, h.kept h9, by rw [h6]; exact hnone, h7, ?_⟩
  intro obj' ha hb
  refine h.touch ha hb hnone (by rw [h6]; exact hnone) h2 h4 h5 h9 ?_ ?_ ?_
  · rw [if_pos rfl, h7]
  · intro i hi; rw [if_neg hi]
  · intro i s c g1 g2
    rcases h10 i s c g1 g2 with g3 | ⟨g3, g4⟩
    · rw [g3]; exact hg
    · exact h.data j i s c g3 g4

theorem Inv.delNow {fd₀ G M p obj os lo} (h : Inv fd₀ G M p obj os lo) {j : Nat}
    (hnone : (obj j).opIndex = none) (evs : Bits) {data : Nat} (hg : G j data) :
    ∃ f' p', delNow evs data (obj j) p = .ok (0, f', p') ∧ Same p p' ∧ p'.count ≤ p.count ∧ Calm p p' ∧ Kept obj (fun i => i ≠ j) p p' ∧ f'.opIndex = none ∧
      f'.op = dropEdge ((obj j).op &&& ~~~evs) ∧ ∀ obj' : Nat → Fdt, obj' j = f' → (∀ i, i ≠ j → obj' i = obj i) →
      Inv fd₀ G (fun i => if i = j then (dropEdge ((obj j).op &&& ~~~evs)).mask else M i) p' obj' os lo := by
  obtain ⟨ev, k, hw⟩ := h.wf
  obtain ⟨f', p', h1, h2, h3, h4, h5, h6, h7, h8, h9, hca, h10⟩ := delNow_touches hw (h.held j) evs data
  refine ⟨f', p', h1, h3, h8, hca, h.kept h9, by rw [h6]; exact hnone, h7, ?_⟩
  intro obj' ha hb
  refine h.touch ha hb hnone (by rw [h6]; exact hnone) h2 h4 h5 h9 ?_ ?_ ?_
  · rw [if_pos rfl, h7]
  · intro i hi; rw [if_neg hi]
  · intro i s c g1 g2
    rcases h10 i s c g1 g2 with g3 | ⟨g3, g4⟩
    · rw [g3]; exact hg
    · exact h.data j i s c g3 g4

theorem target_steps (op a d : Bits) : dropEdge (dropEdge (op ||| a) &&& ~~~d) = dropEdge ((op ||| a) &&& ~~~d) := by
  revert op a d; decide

theorem target_add0 {op : Bits} (h : op ≠ EDGE) (a : Bits) (ha : ¬a ≠ 0) : op = dropEdge (op ||| a) := by
  revert op a; decide

theorem target_del0 {op : Bits} (h : op ≠ EDGE) (a : Bits) (ha : ¬a ≠ 0) : op = dropEdge (op &&& ~~~a) := by
  revert op a; decide

/-- An operation does what was asked for. -/
theorem applyOp_ok {e : Env} (he : ∀ n, e.alloc n = true) {fd₀ G M} {s : Sys} {os lo} {o : Op} (h : Inv fd₀ G M s.p s.obj (o :: os) lo)
    (hroom : s.p.count < 524288) :
    ∃ s', applyOp e o s = .ok (0, s') ∧ Inv fd₀ G M s'.p s'.obj os (lo + 1) ∧ Same s.p s'.p ∧ s'.p.count ≤ s.p.count + 1 ∧ Calm s.p s'.p ∧
      (∀ i, (s.obj i).opIndex = none → s'.obj i = s.obj i) ∧ Kept s.obj (fun i => (s.obj i).opIndex = none) s.p s'.p := by
  unfold applyOp
  cases hf : o.full with
  | true =>
    rw [if_pos rfl]
    obtain ⟨p', h1, h2, h3, h4, h5, h6⟩ := h.popFull hf
    rw [h1]
    exact ⟨_, rfl, h2, h3, by simp only; omega, h5, fun _ _ => rfl, fun i k q _ => h6 i k q trivial⟩
  | false =>
    rw [if_neg (by decide)]
    obtain ⟨j, hj, hix, hne, hm, hg⟩ := h.parts 0 o (by simp) hf
    rw [hj]
    simp only
    have i1 := h.pop hf hj (obj' := (s.set j { s.obj j with opIndex := none } s.p).obj) (by simp [Sys.set]) (by intro i hi; simp [Sys.set, hi])
    generalize hs1 : s.set j { s.obj j with opIndex := none } s.p = s1 at i1
    have o1 : s1.obj j = { s.obj j with opIndex := none } := by rw [← hs1]; simp [Sys.set]
    have p1 : s1.p = s.p := by rw [← hs1]; rfl
    have n1 : (s1.obj j).opIndex = none := by rw [o1]
    have op1 : (s1.obj j).op = (s.obj j).op := by rw [o1]
    have hnorm := (h.held j).normal
    rw [← p1] at i1
    -- what is added
    have add : ∃ s2, applyAdd e o j s1 = .ok (0, s2) ∧ Same s1.p s2.p ∧ s2.p.count ≤ s1.p.count + 1 ∧ Calm s1.p s2.p ∧ (∀ i, i ≠ j → s2.obj i = s1.obj i) ∧ Kept s1.obj (fun i => i ≠ j) s1.p s2.p ∧ (s2.obj j).opIndex = none ∧
        (s2.obj j).op = dropEdge ((s.obj j).op ||| o.add) ∧
        Inv fd₀ G (fun i => if i = j then (dropEdge ((s.obj j).op ||| o.add)).mask else M i) s2.p s2.obj os (lo + 1) := by
      unfold applyAdd
      by_cases ha : o.add ≠ 0
      · rw [if_pos ha]
        obtain ⟨f', p', g1, g2, g3, gc, gk, g4, g5, g6⟩ := i1.addNow he n1 (fun _ => by rw [p1]; exact hroom) o.add hg
        rw [g1]
        simp only [Res.ok_bind]
        have oo : (s1.set j f' p').obj j = f' := by simp [Sys.set]
        refine ⟨_, rfl, g2, g3, gc, fun i hi => by simp [Sys.set, hi], gk, by rw [oo]; exact g4, by rw [oo, g5, op1], ?_⟩
        have := g6 (s1.set j f' p').obj oo (by intro i hi; simp [Sys.set, hi])
        rw [op1] at this
        have hM : (fun i => if i = j then (dropEdge ((s.obj j).op ||| o.add)).mask else (if i = j then (s.obj j).op.mask else M i)) =
            (fun i => if i = j then (dropEdge ((s.obj j).op ||| o.add)).mask else M i) := by
          funext i; by_cases hi : i = j <;> simp [hi]
        rw [hM] at this
        exact this
      · rw [if_neg ha]
        have hz := target_add0 hnorm o.add ha
        exact ⟨s1, rfl, Same.refl _, by omega, .refl _, fun _ _ => rfl, .refl _ _ _, n1, by rw [op1]; exact hz, by rw [← hz]; exact i1⟩
    obtain ⟨s2, a1, a2, a3, ac, ao, ak, a4, a5, a6⟩ := add
    rw [a1]
    simp only [Res.ok_bind]
    rw [if_neg (by decide)]
    have fin : ∀ i, (if i = j then (dropEdge (dropEdge ((s.obj j).op ||| o.add) &&& ~~~o.del)).mask else
        (if i = j then (dropEdge ((s.obj j).op ||| o.add)).mask else M i)) = M i := by
      intro i
      by_cases hi : i = j
      · subst hi; rw [if_pos rfl, target_steps]; exact hm
      · rw [if_neg hi, if_neg hi]
    have hsame : ∀ i, (s.obj i).opIndex = none → i ≠ j ∧ s2.obj i = s.obj i := by
      intro i hi
      have hij : i ≠ j := fun hc => by rw [hc, hix] at hi; cases hi
      refine ⟨hij, ?_⟩
      rw [ao i hij, ← hs1]
      simp [Sys.set, hij]
    have hk2 : Kept s.obj (fun i => (s.obj i).opIndex = none) s.p s2.p := by
      intro i k q hi hpd hq
      obtain ⟨hij, -⟩ := hsame i hi
      refine ak i k q hij ?_ (by rw [p1]; exact hq)
      rw [← hs1]
      simpa [Sys.set, hij] using hpd
    by_cases hd : o.del ≠ 0
    · rw [if_pos hd]
      obtain ⟨f', p', g1, g2, g3, gc, gk, g4, g5, g6⟩ := a6.delNow a4 o.del hg
      rw [g1]
      simp only [Res.ok_bind]
      have oo : (s2.set j f' p').obj j = f' := by simp [Sys.set]
      have := g6 (s2.set j f' p').obj oo (by intro i hi; simp [Sys.set, hi])
      rw [a5, funext fin] at this
      have sm := a2.trans g2
      rw [p1] at sm a3 ac
      refine ⟨_, rfl, this, sm, ?_, ac.trans gc, ?_, ?_⟩
      · show p'.count ≤ _
        omega
      · intro i hi
        have hij : i ≠ j := fun hc => by rw [hc, hix] at hi; cases hi
        show (if i = j then f' else s2.obj i) = _
        rw [if_neg hij, ao i hij, ← hs1]
        simp [Sys.set, hij]
      · intro i k q hi hpd hq
        obtain ⟨hij, ho⟩ := hsame i hi
        exact gk i k q hij (by rw [ho]; exact hpd) (hk2 i k q hi hpd hq)
    · rw [if_neg hd]
      rw [p1] at a2 a3 ac
      refine ⟨s2, rfl, ?_, a2, a3, ac, ?_, hk2⟩
      rotate_left
      · intro i hi
        have hij : i ≠ j := fun hc => by rw [hc, hix] at hi; cases hi
        rw [ao i hij, ← hs1]
        simp [Sys.set, hij]
      have hz := target_del0 (dropEdge_normal ((s.obj j).op ||| o.add)) o.del hd
      have : (fun i => if i = j then (dropEdge ((s.obj j).op ||| o.add)).mask else M i) = M := by
        funext i
        have := fin i
        rw [← hz] at this
        by_cases hi : i = j
        · rw [if_pos hi] at this ⊢; exact this
        · rw [if_neg hi]
      rw [this] at a6
      exact a6

/-- All of them do. -/
theorem applyOps_ok {e : Env} (he : ∀ n, e.alloc n = true) {fd₀ G M} : ∀ (os : List Op) {s : Sys} {lo}, Inv fd₀ G M s.p s.obj os lo →
    s.p.count + os.length ≤ 524288 →
    ∃ s', applyOps e os 0 s = .ok (0, s') ∧ Inv fd₀ G M s'.p s'.obj [] (lo + os.length) ∧ Same s.p s'.p ∧ s'.p.count ≤ s.p.count + os.length ∧
    Calm s.p s'.p ∧ (∀ i, (s.obj i).opIndex = none → s'.obj i = s.obj i) ∧ Kept s.obj (fun i => (s.obj i).opIndex = none) s.p s'.p
  | [], s, lo, h, _ => ⟨s, rfl, h, Same.refl _, Nat.le_refl _, .refl _, fun _ _ => rfl, .refl _ _ _⟩
  | o :: os, s, lo, h, hroom => by
    simp only [List.length_cons] at hroom
    obtain ⟨s1, h1, h2, h3, h4, hc1, ho1, hk1⟩ := applyOp_ok he h (by omega)
    obtain ⟨s2, h5, h6, h7, h8, hc2, ho2, hk2⟩ := applyOps_ok he os h2 (by omega)
    refine ⟨s2, ?_, ?_, h3.trans h7, ?_, hc1.trans hc2, ?_, ?_⟩
    · unfold applyOps
      rw [h1]
      exact h5
    · rw [List.length_cons, show lo + (os.length + 1) = lo + 1 + os.length by omega]; exact h6
    · simp only [List.length_cons]; omega
    · intro i hi
      have := ho1 i hi
      rw [ho2 i (by rw [this]; exact hi), this]
    · intro i k q hi hpd hq
      have := ho1 i hi
      exact hk2 i k q (by show (s1.obj i).opIndex = none; rw [this]; exact hi) (by rw [this]; exact hpd) (hk1 i k q hi hpd hq)

/-- With nothing pending the number of operations does not matter. -/
theorem Inv.nil {fd₀ G M p obj lo} (h : Inv fd₀ G M p obj [] lo) (lo' : Nat) : Inv fd₀ G M p obj [] lo' := by
  refine ⟨h.wf, h.fd, h.held, h.inj, h.fulls, h.fullsInj, h.owned, ?_, ?_, h.mask, h.data⟩
  · intro k o hk; simp at hk
  · intro j m hm
    obtain ⟨k, o, -, hk, -⟩ := h.index j m hm
    simp at hk

/-! ## Submitting -/

theorem merge_full (add : Bool) (evs op : Bits) (o : Op) : (merge add evs op o).full = true ↔ target op (merge add evs op o) = NONE := by
  obtain ⟨fu, a, d, fdt, pd, da⟩ := o
  unfold target merge
  cases add <;> (simp; revert evs op a d; decide +kernel)

theorem merge_target (add : Bool) (evs op : Bits) (o : Op) (h : (op ||| o.add) &&& ~~~o.del ≠ EDGE) :
    target op (merge add evs op o) = if add then dropEdge (target op o ||| evs) else dropEdge (target op o &&& ~~~evs) := by
  obtain ⟨fu, a, d, fdt, pd, da⟩ := o
  unfold target merge
  simp only at h ⊢
  cases add <;> (simp; revert h; revert evs op a d; decide +kernel)

/-- The place of an operation that is changed or appended -/
structure Put (os os' : List Op) (K : Nat) (o' : Op) : Prop where
  at' : os'[K]? = some o'
  other : ∀ k, k ≠ K → os'[k]? = os[k]?

/-- Where the operation of an object is put -/
def Place (f : Fdt) (os : List Op) (K : Nat) : Prop := f.opIndex = some K ∨ f.opIndex = none ∧ os[K]? = none

/-- A request that leaves something to wait for becomes, or joins, the pending operation of its object. -/
theorem Inv.putPart {fd₀ G M p obj os} (h : Inv fd₀ G M p obj os 0) {i K : Nat} {os' : List Op} {o' : Op} {M' : Spec.State} {obj' : Nat → Fdt}
    (hpl : Place (obj i) os K) (hput : Put os os' K o') (hfull : o'.full = false) (hfdt : o'.fdt = some i) (hg : G i o'.data)
    (hne : target (obj i).op o' ≠ NONE) (hm : (target (obj i).op o').mask = M' i) (hms : ∀ j, j ≠ i → M' j = M j)
    (hap0 : obj' i = { obj i with opIndex := some K }) (hap : ∀ j, j ≠ i → obj' j = obj j) :
    Inv fd₀ G M' p obj' os' 0 := by
  have hpd : ∀ j, (obj' j).pd = (obj j).pd := by
    intro j
    by_cases hj : j = i
    · subst hj; rw [hap0]
    · rw [hap j hj]
  -- what was at this place was the operation of this object
  have old : ∀ o, os[K]? = some o → o.full = false ∧ o.fdt = some i := by
    intro o ho
    rcases hpl with hp | ⟨-, hp⟩
    · obtain ⟨k, o2, g1, g2, g3, g4⟩ := h.index i K hp
      have : k = K := by omega
      subst this
      rw [ho] at g2
      cases g2
      exact ⟨g3, g4⟩
    · rw [ho] at hp; cases hp
  have fullNe : ∀ (k : Nat) o, os'[k]? = some o → o.full = true → os[k]? = some o := by
    intro k o g1 g2
    by_cases hk : k = K
    · subst hk; rw [hput.at'] at g1; cases g1; rw [hfull] at g2; cases g2
    · rw [hput.other k hk] at g1; exact g1
  refine ⟨h.wf, ?_, ?_, ?_, ?_, ?_, ?_, ?_, ?_, ?_, ?_⟩
  · intro j
    by_cases hj : j = i
    · subst hj; rw [hap0]; exact h.fd j
    · rw [hap j hj]; exact h.fd j
  · intro j
    by_cases hj : j = i
    · subst hj; rw [hap0]; exact (h.held j).index _
    · rw [hap j hj]; exact h.held j
  · intro a b
    rw [hpd, hpd]
    exact h.inj a b
  · intro k o g1 g2
    obtain ⟨a, q, g3, g4, g5⟩ := h.fulls k o (fullNe k o g1 g2) g2
    exact ⟨a, q, g3, g4, fun j => by rw [hpd]; exact g5 j⟩
  · intro k k' o1 o2 g1 g2 g3 g4 g5
    exact h.fullsInj k k' o1 o2 (fullNe k o1 g1 g3) (fullNe k' o2 g2 g4) g3 g4 g5
  · intro a q hq
    rcases h.owned a q hq with ⟨j, hj⟩ | ⟨k, o, g1, g2, g3⟩
    · exact .inl ⟨j, by rw [hpd]; exact hj⟩
    · right
      refine ⟨k, o, ?_, g2, g3⟩
      by_cases hk : k = K
      · subst hk; rw [(old o g1).1] at g2; cases g2
      · rw [hput.other k hk]; exact g1
  · intro k o g1 g2
    by_cases hk : k = K
    · subst hk
      rw [hput.at'] at g1
      cases g1
      refine ⟨i, hfdt, by rw [hap0]; simp, ?_, ?_, hg⟩
      · rw [hap0]; exact hne
      · rw [hap0]; exact hm
    · rw [hput.other k hk] at g1
      obtain ⟨j, g3, g4, g5, g6, g7⟩ := h.parts k o g1 g2
      have hj : j ≠ i := by
        rintro rfl
        rcases hpl with hp | ⟨hp, -⟩
        · rw [g4] at hp
          have := Option.some.inj hp
          omega
        · rw [g4] at hp; cases hp
      exact ⟨j, g3, by rw [hap j hj]; exact g4, by rw [hap j hj]; exact g5, by rw [hap j hj, hms j hj]; exact g6, g7⟩
  · intro j m hm2
    by_cases hj : j = i
    · subst hj
      rw [hap0] at hm2
      cases hm2
      exact ⟨K, o', by omega, hput.at', hfull, hfdt⟩
    · rw [hap j hj] at hm2
      obtain ⟨k, o, g1, g2, g3, g4⟩ := h.index j m hm2
      refine ⟨k, o, g1, ?_, g3, g4⟩
      by_cases hk : k = K
      · subst hk
        rw [(old o g2).2] at g4
        exact absurd (Option.some.inj g4).symm hj
      · rw [hput.other k hk]; exact g2
  · intro j hn
    by_cases hj : j = i
    · subst hj; rw [hap0] at hn; cases hn
    · rw [hap j hj] at hn ⊢
      rw [hms j hj]; exact h.mask j hn
  · intro j a s c
    rw [hpd]
    exact h.data j a s c

/-- A request that leaves nothing to wait for hands the entry of its object over to the operation. -/
theorem Inv.putFull {fd₀ G M p obj os} (h : Inv fd₀ G M p obj os 0) {i K : Nat} {os' : List Op} {o' : Op} {M' : Spec.State} {obj' : Nat → Fdt}
    (hpl : Place (obj i) os K) (hput : Put os os' K o') (hfull : o'.full = true) (hopd : o'.pd = (obj i).pd) (hne : (obj i).op ≠ NONE)
    (hm : M' i = Spec.nothing) (hms : ∀ j, j ≠ i → M' j = M j)
    (hap0 : obj' i = { obj i with pd := none, opIndex := none, op := NONE }) (hap : ∀ j, j ≠ i → obj' j = obj j) :
    Inv fd₀ G M' p obj' os' 0 := by
  obtain ⟨a0, s0, c0, ho⟩ := (h.held i).owns hne
  have old : ∀ o, os[K]? = some o → o.full = false ∧ o.fdt = some i := by
    intro o ho
    rcases hpl with hp | ⟨-, hp⟩
    · obtain ⟨k, o2, g1, g2, g3, g4⟩ := h.index i K hp
      have : k = K := by omega
      subst this
      rw [ho] at g2
      cases g2
      exact ⟨g3, g4⟩
    · rw [ho] at hp; cases hp
  have hpd : ∀ j, (obj' j).pd = none ∨ (obj' j).pd = (obj j).pd ∧ j ≠ i := by
    intro j
    by_cases hj : j = i
    · subst hj; rw [hap0]; exact .inl rfl
    · rw [hap j hj]; exact .inr ⟨rfl, hj⟩
  refine ⟨h.wf, ?_, ?_, ?_, ?_, ?_, ?_, ?_, ?_, ?_, ?_⟩
  · intro j
    by_cases hj : j = i
    · subst hj; rw [hap0]; exact h.fd j
    · rw [hap j hj]; exact h.fd j
  · intro j
    by_cases hj : j = i
    · subst hj; rw [hap0]
      exact ⟨show NONE ≠ EDGE by decide, (h.held j).fd, by simp, fun hc => absurd rfl hc⟩
    · rw [hap j hj]; exact h.held j
  · intro a b g1 g2
    rcases hpd a with ha | ⟨ha, ha'⟩
    · exact absurd ha g1
    · rcases hpd b with hb | ⟨hb, hb'⟩
      · rw [hb] at g2; exact absurd g2 g1
      · rw [ha] at g1 g2; rw [hb] at g2; exact h.inj a b g1 g2
  · intro k o g1 g2
    by_cases hk : k = K
    · subst hk
      rw [hput.at'] at g1
      cases g1
      refine ⟨a0, _, by rw [hopd]; exact ho.pd, ho.entry, ?_⟩
      intro j
      rcases hpd j with hb | ⟨hb, hb'⟩
      · rw [hb, hopd, ho.pd]; exact nofun
      · rw [hb, hopd]
        intro hc
        exact hb' (h.inj i j (by rw [ho.pd]; exact nofun) hc.symm).symm
    · rw [hput.other k hk] at g1
      obtain ⟨a, q, g3, g4, g5⟩ := h.fulls k o g1 g2
      refine ⟨a, q, g3, g4, ?_⟩
      intro j
      rcases hpd j with hb | ⟨hb, hb'⟩
      · rw [hb, g3]; exact nofun
      · rw [hb]; exact g5 j
  · intro k k' o1 o2 g1 g2 g3 g4 g5
    by_cases hk : k = K
    · subst hk
      by_cases hk' : k' = k
      · exact hk'.symm
      · rw [hput.at'] at g1; cases g1
        rw [hput.other k' hk'] at g2
        obtain ⟨a, q, -, -, g6⟩ := h.fulls k' o2 g2 g4
        exact absurd (by rw [← g5, hopd]) (g6 i)
    · rw [hput.other k hk] at g1
      by_cases hk' : k' = K
      · subst hk'
        rw [hput.at'] at g2; cases g2
        obtain ⟨a, q, -, -, g6⟩ := h.fulls k o1 g1 g3
        exact absurd (by rw [g5, hopd]) (g6 i)
      · rw [hput.other k' hk'] at g2
        exact h.fullsInj k k' o1 o2 g1 g2 g3 g4 g5
  · intro a q hq
    rcases h.owned a q hq with ⟨j, hj⟩ | ⟨k, o, g1, g2, g3⟩
    · by_cases hji : j = i
      · subst hji
        exact .inr ⟨K, o', hput.at', hfull, by rw [hopd]; exact hj⟩
      · exact .inl ⟨j, by rw [hap j hji]; exact hj⟩
    · right
      refine ⟨k, o, ?_, g2, g3⟩
      by_cases hk : k = K
      · subst hk; rw [(old o g1).1] at g2; cases g2
      · rw [hput.other k hk]; exact g1
  · intro k o g1 g2
    have hk : k ≠ K := by rintro rfl; rw [hput.at'] at g1; cases g1; rw [hfull] at g2; cases g2
    rw [hput.other k hk] at g1
    obtain ⟨j, g3, g4, g5, g6, g7⟩ := h.parts k o g1 g2
    have hj : j ≠ i := by
      rintro rfl
      rcases hpl with hp | ⟨hp, -⟩
      · rw [g4] at hp
        have := Option.some.inj hp
        omega
      · rw [g4] at hp; cases hp
    exact ⟨j, g3, by rw [hap j hj]; exact g4, by rw [hap j hj]; exact g5, by rw [hap j hj, hms j hj]; exact g6, g7⟩
  · intro j m hm2
    by_cases hj : j = i
    · subst hj; rw [hap0] at hm2; cases hm2
    · rw [hap j hj] at hm2
      obtain ⟨k, o, g1, g2, g3, g4⟩ := h.index j m hm2
      refine ⟨k, o, g1, ?_, g3, g4⟩
      by_cases hk : k = K
      · subst hk
        rw [(old o g2).2] at g4
        exact absurd (Option.some.inj g4).symm hj
      · rw [hput.other k hk]; exact g2
  · intro j hn
    by_cases hj : j = i
    · subst hj; rw [hap0, hm, ← mask_none]
    · rw [hap j hj] at hn ⊢
      rw [hms j hj]; exact h.mask j hn
  · intro j a s c g1 g2
    rcases hpd j with hb | ⟨hb, -⟩
    · rw [hb] at g1; cases g1
    · rw [hb] at g1; exact h.data j a s c g1 g2

/-- What `sc_sock_poll_submit` does, in terms of requests -/
def asked (add : Bool) (i : Nat) (evs : Bits) : Spec.Req := if add then .add i evs.mask else .del i evs.mask

theorem asked_at (add : Bool) (i : Nat) (evs v : Bits) (M : Spec.State) (h : v.mask = M i) :
    Spec.apply M (asked add i evs) i = (if add then dropEdge (v ||| evs) else dropEdge (v &&& ~~~evs)).mask := by
  unfold asked
  cases add
  · simp only [Bool.false_eq_true, if_false, Spec.apply, if_true]; rw [mask_del, h]
  · simp only [if_true, Spec.apply]; rw [mask_add, h]

theorem asked_other (add : Bool) (i : Nat) (evs : Bits) (M : Spec.State) (j : Nat) (hj : j ≠ i) : Spec.apply M (asked add i evs) j = M j := by
  unfold asked
  cases add <;> simp [Spec.apply, hj]

/-- Finding a place changes only the list, the room and the count of allocations. -/
theorem opSlot_ok (e : Env) (f : Fdt) (p : P) :
    (∃ n, opSlot e f p = (none, { p with n := n }) ∧ f.opIndex = none) ∨
    (∃ K n cap, opSlot e f p = (some (K, { p with ops := if f.opIndex = none then p.ops ++ [⟨false, NONE, NONE, none, none, 0⟩] else p.ops, n := n, opsCap := cap }),
        { p with ops := if f.opIndex = none then p.ops ++ [⟨false, NONE, NONE, none, none, 0⟩] else p.ops, n := n, opsCap := cap }) ∧
      ((f.opIndex = some K) ∨ (f.opIndex = none ∧ K = p.ops.length))) := by
  unfold opSlot
  cases hf : f.opIndex with
  | some m => exact .inr ⟨m, p.n, p.opsCap, rfl, .inl rfl⟩
  | none =>
    simp only
    by_cases h1 : p.ops.length = p.opsCap
    · by_cases h2 : p.opsCap ≥ 2147483647
      · rw [if_pos h1, if_pos h2]; exact .inl ⟨p.n, rfl, trivial⟩
      · by_cases h3 : (!e.allocOps p.n) = true
        · rw [if_pos h1, if_neg h2, if_pos h3]; exact .inl ⟨p.n + 1, rfl, trivial⟩
        · rw [if_pos h1, if_neg h2, if_neg h3]; exact .inr ⟨p.ops.length, p.n + 1, _, rfl, .inr ⟨trivial, rfl⟩⟩
    · rw [if_neg h1]; exact .inr ⟨p.ops.length, p.n, p.opsCap, rfl, .inr ⟨trivial, rfl⟩⟩

/-- **Submitting**: the request is granted, and is part of what will be waited for; or there is no memory, and nothing changes. -/
theorem submit_ok (e : Env) {fd₀ G M} {s : Sys} (h : Inv fd₀ G M s.p s.obj s.p.ops 0) (add : Bool) (evs : Bits) {data i : Nat} (hg : G i data)
    (hallow : (s.obj i).op = NONE → Spec.apply M (asked add i evs) i ≠ Spec.nothing) :
    ∃ rc wake s', submit e add evs data i s = .ok (rc, wake, s') ∧ (rc = 0 ∨ rc = -1) ∧
      Inv fd₀ G (if rc = 0 then Spec.apply M (asked add i evs) else M) s'.p s'.obj s'.p.ops 0 ∧
      (wake = true ↔ s.p.ops = [] ∧ s'.p.ops ≠ []) ∧ s'.p.polling = s.p.polling ∧ s'.p.events = s.p.events ∧ s'.p.cap = s.p.cap ∧
      s'.p.chunks = s.p.chunks ∧ s'.p.count = s.p.count ∧ s'.p.remaining = s.p.remaining ∧ s'.p.offset = s.p.offset ∧
      s'.p.ops.length ≤ s.p.ops.length + 1 ∧ s.p.ops.length ≤ s'.p.ops.length := by
  unfold submit
  simp only
  rcases opSlot_ok e (s.obj i) s.p with ⟨n, hs, hno⟩ | ⟨K, n, cap, hs, hK⟩
  · rw [hs]
    refine ⟨-1, false, _, rfl, .inr rfl, ?_, ?_, rfl, rfl, rfl, rfl, rfl, rfl, rfl, by simp, by simp⟩
    · rw [if_neg (by decide)]; exact h.congr rfl rfl rfl rfl
    · constructor
      · intro hc; cases hc
      · rintro ⟨h1, h2⟩; exact absurd h1 h2
  · rw [hs]
    simp only
    generalize hos : (if (s.obj i).opIndex = none then s.p.ops ++ [(⟨false, NONE, NONE, none, none, 0⟩ : Op)] else s.p.ops) = os
    -- the operation so far
    have hold : ∃ o, os[K]? = some o ∧ ((s.obj i).op ||| o.add) &&& ~~~o.del ≠ EDGE ∧ (target (s.obj i).op o).mask = M i ∧
        (∀ k, k ≠ K → os[k]? = s.p.ops[k]?) ∧ Place (s.obj i) s.p.ops K ∧ K < os.length ∧ s.p.ops.length ≤ os.length ∧ os.length ≤ s.p.ops.length + 1 ∧
        ((s.obj i).opIndex = none ∧ K = 0 ↔ s.p.ops = []) := by
      rcases hK with hK | ⟨hK, hKl⟩
      · have hne : ¬(s.obj i).opIndex = none := by rw [hK]; exact nofun
        rw [if_neg hne] at hos
        subst hos
        obtain ⟨k, o, g1, g2, g3, g4⟩ := h.index i K hK
        have : k = K := by omega
        subst this
        obtain ⟨j, g5, g6, g7, g8, -⟩ := h.parts k o g2 g3
        rw [g4] at g5
        cases g5
        have hlt := (List.getElem?_eq_some_iff.1 g2).1
        refine ⟨o, g2, ?_, g8, fun _ _ => rfl, .inl hK, hlt, Nat.le_refl _, by omega, ?_⟩
        · intro hc; rw [hc] at g7; exact g7 rfl
        · constructor
          · rintro ⟨hc, -⟩; exact absurd hc hne
          · intro hc; rw [hc] at hlt; simp at hlt
      · rw [if_pos hK] at hos
        subst hos hKl
        refine ⟨⟨false, NONE, NONE, none, none, 0⟩, by simp, ?_, ?_, ?_, .inr ⟨hK, by simp⟩, by simp, by simp, by simp, ?_⟩
        · have := (h.held i).normal
          intro hc
          apply this
          revert hc
          generalize (s.obj i).op = x
          revert x; decide
        · rw [← h.mask i hK]
          congr 1
          have := (h.held i).normal
          unfold Bits.Normal at this
          unfold target
          revert this
          generalize (s.obj i).op = x
          revert x; decide
        · intro k hk
          by_cases hlt : k < s.p.ops.length
          · rw [List.getElem?_append_left hlt]
          · rw [List.getElem?_eq_none (by simp; omega), List.getElem?_eq_none (by omega)]
        · simp [hK]
    obtain ⟨o, ho, hedge, hmask, hother, hplace, hlt, hle1, hle2, hwake⟩ := hold
    rw [rd_eq_ok.2 ho]
    simp only [Res.ok_bind]
    have htar := merge_target add evs (s.obj i).op o hedge
    have happ := asked_at add i evs (target (s.obj i).op o) M hmask
    rw [← htar] at happ
    have hlen : ∀ x : Op, (os.set K x) ≠ [] := by
      intro x hc
      have := congrArg List.length hc
      rw [List.length_set] at this
      simp at this
      rw [this] at hlt
      simp at hlt
    have put : ∀ x : Op, Put s.p.ops (os.set K x) K x := fun x =>
      ⟨List.getElem?_set_self hlt, fun k hk => by rw [List.getElem?_set_ne (Ne.symm hk)]; exact hother k hk⟩
    by_cases hfu : (merge add evs (s.obj i).op o).full = true
    · rw [if_pos hfu, wr_lt hlt]
      simp only [Res.ok_bind]
      have hnone := (merge_full add evs (s.obj i).op o).1 hfu
      rw [hnone, mask_none] at happ
      refine ⟨0, _, _, rfl, .inl rfl, ?_, ?_, rfl, rfl, rfl, rfl, rfl, rfl, rfl, by simp [Sys.set]; omega, by simp [Sys.set]; omega⟩
      · rw [if_pos rfl]
        have := h.putFull (M' := Spec.apply M (asked add i evs)) (obj' := fun j => if j = i then { s.obj i with pd := none, opIndex := none, op := NONE } else s.obj j)
          hplace (put { merge add evs (s.obj i).op o with pd := (s.obj i).pd, data := data }) hfu rfl
          (fun hc => hallow hc happ) happ (asked_other add i evs M) (by simp) (by intro j hj; simp [hj])
        exact this.congr rfl rfl rfl rfl
      · simp only [decide_eq_true_eq, Sys.set]
        rw [hwake]
        exact ⟨fun hc => ⟨hc, hlen _⟩, fun hc => hc.1⟩
    · rw [if_neg hfu, wr_lt hlt]
      have hfu : (merge add evs (s.obj i).op o).full = false := by simpa using hfu
      simp only [Res.ok_bind]
      have hnone : target (s.obj i).op (merge add evs (s.obj i).op o) ≠ NONE := by
        intro hc
        rw [(merge_full add evs (s.obj i).op o).2 hc] at hfu
        cases hfu
      refine ⟨0, _, _, rfl, .inl rfl, ?_, ?_, rfl, rfl, rfl, rfl, rfl, rfl, rfl, by simp [Sys.set]; omega, by simp [Sys.set]; omega⟩
      · rw [if_pos rfl]
        have := h.putPart (M' := Spec.apply M (asked add i evs)) (obj' := fun j => if j = i then { s.obj i with opIndex := some K } else s.obj j)
          hplace (put { merge add evs (s.obj i).op o with fdt := some i, data := data }) hfu rfl hg hnone happ.symm
          (asked_other add i evs M) (by simp) (by intro j hj; simp [hj])
        exact this.congr rfl rfl rfl rfl
      · simp only [decide_eq_true_eq, Sys.set]
        rw [hwake]
        exact ⟨fun hc => ⟨hc, hlen _⟩, fun hc => hc.1⟩

end Verif.Poll.Win
