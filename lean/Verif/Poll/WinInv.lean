import Verif.Poll.WinTable

/-! # Histories of the Windows poller: the invariant -/

namespace Verif.Poll.Win

open Table (dataInner)

/-- The poller `p` and the objects `obj` when `M` is to be waited for, with the operations `os` pending,
the first of which has number `lo`. `G j d` says that `d` may be the data of object `j`. -/
structure Inv (fd₀ : Nat → Int) (G : Nat → Nat → Prop) (M : Spec.State) (p : P) (obj : Nat → Fdt) (os : List Op) (lo : Nat) : Prop where
  wf : ∃ ev k, Wf p ev k
  fd : ∀ j, (obj j).fd = fd₀ j
  held : ∀ j, Held p (obj j)
  inj : ∀ i j, (obj i).pd ≠ none → (obj i).pd = (obj j).pd → i = j
  fulls : ∀ (k : Nat) o, os[k]? = some o → o.full = true → ∃ i q, o.pd = some (dataInner i) ∧ entry p i = some q ∧ ∀ j, (obj j).pd ≠ o.pd
  fullsInj : ∀ (k k' : Nat) o o', os[k]? = some o → os[k']? = some o' → o.full = true → o'.full = true → o.pd = o'.pd → k = k'
  owned : ∀ i q, entry p i = some q → (∃ j, (obj j).pd = some (dataInner i)) ∨ ∃ (k : Nat) (o : Op), os[k]? = some o ∧ o.full = true ∧ o.pd = some (dataInner i)
  parts : ∀ (k : Nat) o, os[k]? = some o → o.full = false → ∃ j, o.fdt = some j ∧ (obj j).opIndex = some (lo + k) ∧
    dropEdge (((obj j).op ||| o.add) &&& ~~~o.del) ≠ NONE ∧ (dropEdge (((obj j).op ||| o.add) &&& ~~~o.del)).mask = M j ∧ G j o.data
  index : ∀ j m, (obj j).opIndex = some m → ∃ (k : Nat) (o : Op), m = lo + k ∧ os[k]? = some o ∧ o.full = false ∧ o.fdt = some j
  mask : ∀ j, (obj j).opIndex = none → (obj j).op.mask = M j
  data : ∀ j i s c, (obj j).pd = some (dataInner i) → entry p i = some (s, c) → G j c.data

theorem entry_congr {p p' : P} (h1 : p'.events = p.events) (h2 : p'.chunks = p.chunks) (i : Nat) : entry p' i = entry p i := by
  unfold entry getCell
  rw [h1, h2]

theorem Wf.congr {p p' : P} {ev : List Slot} {k : Nat} (h : Wf p ev k) (h1 : p'.events = p.events) (h2 : p'.chunks = p.chunks)
    (h3 : p'.cap = p.cap) (h4 : p'.count = p.count) : Wf p' ev k := by
  refine ⟨⟨by rw [h1]; exact h.events, h.klt, by rw [h3]; exact h.cap, by rw [h3]; exact h.len, by rw [h2]; exact h.chunks⟩,
    by rw [h4]; exact h.count, ?_⟩
  intro i s hs hf
  have := h.cells i s hs hf
  unfold getCell at this ⊢
  rw [h2]
  exact this

/-- An object keeps what it has if its entry does not change. -/
theorem Held.congr {p p' : P} {f : Fdt} (h : Held p f) (he : ∀ i q, f.pd = some (dataInner i) → entry p i = some q → entry p' i = some q) :
    Held p' f := by
  refine ⟨h.normal, h.fd, h.none, fun hn => ?_⟩
  obtain ⟨i, s, c, ho⟩ := h.owns hn
  exact ⟨i, s, c, ho.pd, he i _ ho.pd ho.entry, ho.fd, ho.ev, ho.edge, ho.level⟩

/-- What an object says of its entry does not depend on its place among the operations. -/
theorem Held.index {p : P} {f : Fdt} (h : Held p f) (m : Option Nat) : Held p { f with opIndex := m } := by
  refine ⟨h.normal, h.fd, h.none, fun hn => ?_⟩
  obtain ⟨i, s, c, ho⟩ := h.owns hn
  exact ⟨i, s, c, ho.pd, ho.entry, ho.fd, ho.ev, ho.edge, ho.level⟩

/-- The invariant does not depend on the other members. -/
theorem Inv.congr {fd₀ G M p obj os lo} (h : Inv fd₀ G M p obj os lo) {p' : P} (h1 : p'.events = p.events) (h2 : p'.chunks = p.chunks)
    (h3 : p'.cap = p.cap) (h4 : p'.count = p.count) : Inv fd₀ G M p' obj os lo := by
  have he : ∀ i, entry p' i = entry p i := entry_congr h1 h2
  obtain ⟨ev, k, hw⟩ := h.wf
  refine ⟨⟨ev, k, hw.congr h1 h2 h3 h4⟩, h.fd, fun j => (h.held j).congr (fun i q _ hq => by rw [he]; exact hq), h.inj, ?_, h.fullsInj, ?_,
    h.parts, h.index, h.mask, ?_⟩
  · intro k o h5 h6
    obtain ⟨i, q, h7, h8, h9⟩ := h.fulls k o h5 h6
    exact ⟨i, q, h7, by rw [he]; exact h8, h9⟩
  · intro i q hq
    rw [he] at hq
    exact h.owned i q hq
  · intro j i s c h5 h6
    rw [he] at h6
    exact h.data j i s c h5 h6

/-- Two addresses of entries in use are the same only if the entries are. -/
theorem Inv.addr {fd₀ G M p obj os lo} (h : Inv fd₀ G M p obj os lo) {i j : Nat} {q r : Slot × PData} (hi : entry p i = some q)
    (hj : entry p j = some r) (hd : dataInner i = dataInner j) : i = j := by
  obtain ⟨ev, k, hw⟩ := h.wf
  exact dataInner_inj hw.toShape (hw.lt hi) (hw.lt hj) hd

/-- What a change for one object does to the table: nothing, or it changes one entry, which is the one the object has or had. -/
def Touches (p p' : P) (f f' : Fdt) : Prop :=
  (f'.pd = f.pd ∧ ∀ j, entry p' j = entry p j) ∨
  ∃ i, i < p'.cap ∧ p.cap ≤ p'.cap ∧ (∀ j, j ≠ i → entry p' j = entry p j) ∧
    (f.pd = some (dataInner i) ∨ f.pd = none ∧ entry p i = none) ∧
    (f'.pd = some (dataInner i) ∨ f'.pd = none ∧ entry p' i = none)

/-- A change for object `j0` that has no operation pending (any more), or has not yet -/
theorem Inv.touch {fd₀ G M p obj os lo} (h : Inv fd₀ G M p obj os lo) {j0 : Nat} {f' : Fdt} {p' : P} {M' : Spec.State} {obj' : Nat → Fdt}
    (hap0 : obj' j0 = f') (hap : ∀ j, j ≠ j0 → obj' j = obj j)
    (hnone : (obj j0).opIndex = none) (hnone' : f'.opIndex = none)
    (hwf : ∃ ev k, Wf p' ev k) (hheld : Held p' f') (hfd : f'.fd = (obj j0).fd) (ht : Touches p p' (obj j0) f')
    (hmask : f'.op.mask = M' j0) (hmasks : ∀ j, j ≠ j0 → M' j = M j)
    (hdata : ∀ i s c, f'.pd = some (dataInner i) → entry p' i = some (s, c) → G j0 c.data) :
    Inv fd₀ G M' p' obj' os lo := by
  obtain ⟨ev, k, hw⟩ := h.wf
  obtain ⟨ev', k', hw'⟩ := hwf
  -- entries of others do not change
  have key : ∀ (a : Nat) (q : Slot × PData), entry p a = some q → (∀ b, (obj j0).pd = some b → b ≠ dataInner a) → entry p' a = some q := by
    intro a q hq hne
    rcases ht with ⟨-, he⟩ | ⟨i, -, -, he, hold, -⟩
    · rw [he]; exact hq
    · rw [he]
      · exact hq
      · intro hai
        rcases hold with hold | ⟨-, hold⟩
        · exact hne _ hold (by rw [hai])
        · rw [hai, hold] at hq; cases hq
  have keyBack : ∀ (a : Nat) (q : Slot × PData), entry p' a = some q → (f'.pd = some (dataInner a)) ∨ entry p a = some q ∧ (obj j0).pd ≠ some (dataInner a) ∨
      (f'.pd = (obj j0).pd ∧ entry p a = some q) := by
    intro a q hq
    rcases ht with ⟨he', he⟩ | ⟨i, hi, hcap, he, hold, hnew⟩
    · exact .inr (.inr ⟨he', by rw [← he]; exact hq⟩)
    · by_cases hai : a = i
      · subst hai
        rcases hnew with hnew | ⟨-, hnew⟩
        · exact .inl hnew
        · rw [hnew] at hq; cases hq
      · rw [he a hai] at hq
        right; left
        refine ⟨hq, ?_⟩
        rcases hold with hold | ⟨hold, -⟩
        · rw [hold]
          intro hc
          have hlt := hw.lt hq
          exact hai (dataInner_inj hw'.toShape (by omega) hi (Option.some.inj hc).symm)
        · rw [hold]; exact nofun
  -- the new address belongs to nobody else
  have fresh : ∀ (a : Nat) (q : Slot × PData), entry p a = some q → (obj j0).pd ≠ some (dataInner a) → f'.pd ≠ some (dataInner a) := by
    intro a q hq hne hc
    rcases ht with ⟨he', -⟩ | ⟨i, hi, hcap, -, hold, hnew⟩
    · rw [he'] at hc; exact hne hc
    · rcases hnew with hnew | ⟨hnew, -⟩
      · rw [hnew] at hc
        have hlt := hw.lt hq
        have : i = a := dataInner_inj hw'.toShape hi (by omega) (Option.some.inj hc)
        subst this
        rcases hold with hold | ⟨-, hold⟩
        · exact hne hold
        · rw [hold] at hq; cases hq
      · rw [hnew] at hc; cases hc
  have held_pd : ∀ j, (obj j).pd ≠ none → ∃ i s c, Owns p (obj j) i s c := fun j hj => (h.held j).owns (fun hc => hj ((h.held j).none.1 hc))
  have other : ∀ j, j ≠ j0 → ∀ (a : Nat), (obj j).pd = some (dataInner a) → (obj j0).pd ≠ some (dataInner a) := by
    intro j hj a hpd hc
    exact hj (h.inj j j0 (by rw [hpd]; exact nofun) (by rw [hpd, hc]))
  have injKey : ∀ j, j ≠ j0 → (obj j).pd ≠ none → (obj j).pd ≠ f'.pd := by
    intro j hj hpd hc
    obtain ⟨i, s, c, ho⟩ := held_pd j hpd
    rw [ho.pd] at hc
    exact fresh i _ ho.entry (other j hj i ho.pd) hc.symm
  refine ⟨⟨ev', k', hw'⟩, ?_, ?_, ?_, ?_, h.fullsInj, ?_, ?_, ?_, ?_, ?_⟩
  · intro j
    by_cases hj : j = j0
    · subst hj; rw [hap0, hfd]; exact h.fd j
    · rw [hap j hj]; exact h.fd j
  · intro j
    by_cases hj : j = j0
    · subst hj; rw [hap0]; exact hheld
    · rw [hap j hj]
      refine (h.held j).congr ?_
      intro i q hpd hq
      refine key i q hq ?_
      intro b hb hc
      subst hc
      exact other j hj i hpd hb
  · intro i j hi hij
    by_cases hi0 : i = j0
    · by_cases hj0 : j = j0
      · rw [hi0, hj0]
      · subst hi0
        rw [hap0] at hi hij
        rw [hap j hj0] at hij
        exact absurd hij.symm (injKey j hj0 (by rw [← hij]; exact hi))
    · rw [hap i hi0] at hi hij
      by_cases hj0 : j = j0
      · subst hj0
        rw [hap0] at hij
        exact absurd hij (injKey i hi0 hi)
      · rw [hap j hj0] at hij
        exact h.inj i j hi hij
  · intro k o h5 h6
    obtain ⟨i, q, h7, h8, h9⟩ := h.fulls k o h5 h6
    refine ⟨i, q, h7, key i q h8 ?_, ?_⟩
    · intro b hb hc
      subst hc
      exact h9 j0 (by rw [hb, h7])
    · intro j
      by_cases hj : j = j0
      · subst hj
        rw [hap0, h7]
        exact fresh i q h8 (by rw [← h7]; exact h9 j)
      · rw [hap j hj]; exact h9 j
  · intro i q hq
    rcases keyBack i q hq with hb | ⟨hb, hne⟩ | ⟨hb1, hb2⟩
    · exact .inl ⟨j0, by rw [hap0]; exact hb⟩
    · rcases h.owned i q hb with ⟨j, hj⟩ | hh
      · left
        refine ⟨j, ?_⟩
        rw [hap j (fun hc => hne (by rw [← hc]; exact hj))]
        exact hj
      · exact .inr hh
    · rcases h.owned i q hb2 with ⟨j, hj⟩ | hh
      · left
        refine ⟨j, ?_⟩
        by_cases hj0 : j = j0
        · subst hj0; rw [hap0, hb1]; exact hj
        · rw [hap j hj0]; exact hj
      · exact .inr hh
  · intro k o h5 h6
    obtain ⟨j, h7, h8, h9, h10, h11⟩ := h.parts k o h5 h6
    have hj : j ≠ j0 := fun hc => by rw [hc, hnone] at h8; cases h8
    refine ⟨j, h7, ?_, ?_, ?_, h11⟩
    · rw [hap j hj]; exact h8
    · rw [hap j hj]; exact h9
    · rw [hap j hj, hmasks j hj]; exact h10
  · intro j m hm
    by_cases hj : j = j0
    · subst hj; rw [hap0, hnone'] at hm; cases hm
    · rw [hap j hj] at hm; exact h.index j m hm
  · intro j hm
    by_cases hj : j = j0
    · subst hj; rw [hap0]; exact hmask
    · rw [hap j hj] at hm ⊢
      rw [hmasks j hj]; exact h.mask j hm
  · intro j i s c hpd hq
    by_cases hj : j = j0
    · subst hj; rw [hap0] at hpd; exact hdata i s c hpd hq
    · rw [hap j hj] at hpd
      obtain ⟨i', s', c', ho⟩ := held_pd j (by rw [hpd]; exact nofun)
      have hq' := key i' _ ho.entry (by
        intro b hb hc
        subst hc
        exact other j hj i' ho.pd hb)
      rw [ho.pd] at hpd
      have hii : i' = i := dataInner_inj hw'.toShape (hw'.lt hq') (hw'.lt hq) (Option.some.inj hpd)
      subst hii
      rw [hq'] at hq
      cases hq
      exact h.data j i' _ _ ho.pd ho.entry

/-- Nothing is found anew: what an entry has was found for the same descriptor. -/
def Calm (p p' : P) : Prop := ∀ i s c, entry p' i = some (s, c) → s.rev ≠ some Rev.zero → ∃ s' c', entry p i = some (s', c') ∧ s'.rev = s.rev ∧ s'.fd = s.fd

theorem Calm.refl (p : P) : Calm p p := fun _ s c h _ => ⟨s, c, h, rfl, rfl⟩

theorem Calm.trans {p q r : P} (h : Calm p q) (h' : Calm q r) : Calm p r := by
  intro i s c g1 g2
  obtain ⟨s', c', g3, g4, g5⟩ := h' i s c g1 g2
  obtain ⟨s'', c'', g6, g7, g8⟩ := h i s' c' g3 (by rw [g4]; exact g2)
  exact ⟨s'', c'', g6, g7.trans g4, g8.trans g5⟩

/-- The entries of these objects stay as they are. -/
def Kept (obj : Nat → Fdt) (J : Nat → Prop) (p p' : P) : Prop :=
  ∀ i k q, J i → (obj i).pd = some (dataInner k) → entry p k = some q → entry p' k = some q

theorem Kept.refl (obj : Nat → Fdt) (J : Nat → Prop) (p : P) : Kept obj J p p := fun _ _ _ _ _ h => h

theorem Inv.kept {fd₀ G M p obj os lo} (h : Inv fd₀ G M p obj os lo) {j : Nat} {p' : P} {f' : Fdt} (ht : Touches p p' (obj j) f') :
    Kept obj (fun i => i ≠ j) p p' := by
  intro i k q hij hpd hq
  rcases ht with ⟨-, he⟩ | ⟨i0, -, -, hoth, hold, -⟩
  · rw [he]; exact hq
  · by_cases hk : k = i0
    · subst hk
      rcases hold with ho | ⟨-, hn⟩
      · exact absurd (h.inj i j (by rw [hpd]; exact (fun hc => by cases hc)) (hpd.trans ho.symm)) hij
      · rw [hn] at hq; cases hq
    · rw [hoth k hk]; exact hq

/-! ## Changes at once -/

theorem addNow_touches {e : Env} (he : ∀ n, e.alloc n = true) {p : P} {ev : List Slot} {k : Nat} (h : Wf p ev k) {f : Fdt} (hf : Held p f)
    (hroom : f.op = NONE → p.count < 524288) (evs : Bits) (data : Nat) :
    ∃ f' p', addNow e evs data f p = .ok (0, f', p') ∧ (∃ ev' k', Wf p' ev' k') ∧ Same p p' ∧ Held p' f' ∧ f'.fd = f.fd ∧
      f'.opIndex = f.opIndex ∧ f'.op = dropEdge (f.op ||| evs) ∧ p'.count ≤ p.count + 1 ∧ Touches p p' f f' ∧ Calm p p' ∧
      (∀ i s c, f'.pd = some (dataInner i) → entry p' i = some (s, c) → c.data = data ∨ f.pd = some (dataInner i) ∧ entry p i = some (s, c)) := by
  obtain ⟨f', p', ev', k', h1, h2, h3, h4, h5, h6, h7, h8, h9, h10⟩ := addNow_ok he h hf hroom evs data
  refine ⟨f', p', h1, ⟨ev', k', h2⟩, h3, h4, h5, h6, h7, by split at h8 <;> omega, ?_, ?_, ?_⟩
  · rcases h10 with ⟨rfl, rfl⟩ | ⟨-, -, i, s, c, ho, -, -, hfree, hold, hoth⟩
    · exact .inl ⟨rfl, fun _ => rfl⟩
    · refine .inr ⟨i, ho.lt h2, h9, hoth, ?_, .inl ho.pd⟩
      by_cases h0 : f.op = NONE
      · exact .inr ⟨hf.none.1 h0, hfree h0⟩
      · exact .inl (hold h0)
  · rcases h10 with ⟨rfl, rfl⟩ | ⟨-, -, i, s, c, ho, hz, -, -, -, hoth⟩
    · exact .refl _
    · intro j s' c' g1 g2
      by_cases hj : j = i
      · subst hj; rw [ho.entry] at g1; cases g1; exact absurd hz g2
      · rw [hoth j hj] at g1; exact ⟨s', c', g1, rfl, rfl⟩
  · intro i s c hpd hq
    rcases h10 with ⟨rfl, rfl⟩ | ⟨-, -, i', s', c', ho, -, hd, -⟩
    · exact .inr ⟨hpd, hq⟩
    · left
      rw [ho.pd] at hpd
      have : i' = i := dataInner_inj h2.toShape (ho.lt h2) (h2.lt hq) (Option.some.inj hpd)
      subst this
      rw [ho.entry] at hq
      cases hq
      exact hd

theorem delNow_touches {p : P} {ev : List Slot} {k : Nat} (h : Wf p ev k) {f : Fdt} (hf : Held p f) (evs : Bits) (data : Nat) :
    ∃ f' p', delNow evs data f p = .ok (0, f', p') ∧ (∃ ev' k', Wf p' ev' k') ∧ Same p p' ∧ Held p' f' ∧ f'.fd = f.fd ∧
      f'.opIndex = f.opIndex ∧ f'.op = dropEdge (f.op &&& ~~~evs) ∧ p'.count ≤ p.count ∧ Touches p p' f f' ∧ Calm p p' ∧
      (∀ i s c, f'.pd = some (dataInner i) → entry p' i = some (s, c) → c.data = data ∨ f.pd = some (dataInner i) ∧ entry p i = some (s, c)) := by
  obtain ⟨f', p', ev', h1, h2, h3, h4, h5, h6, h7, h8, h9, h10⟩ := delNow_ok h hf evs data
  refine ⟨f', p', h1, ⟨ev', k, h2⟩, h3, h4, h5, h6, h7, h8, ?_, ?_, ?_⟩
  · rcases h10 with ⟨rfl, rfl⟩ | ⟨-, i, hpd, hi, hoth, hh⟩
    · exact .inl ⟨rfl, fun _ => rfl⟩
    · refine .inr ⟨i, by omega, by omega, hoth, .inl hpd, ?_⟩
      rcases hh with ⟨h0, hn⟩ | ⟨-, s, c, s', c', -, ho, -⟩
      · exact .inr ⟨h4.none.1 h0, hn⟩
      · exact .inl ho.pd
  · rcases h10 with ⟨rfl, rfl⟩ | ⟨-, i, hpd, hi, hoth, hh⟩
    · exact .refl _
    · intro j s' c' g1 g2
      by_cases hj : j = i
      · subst hj
        rcases hh with ⟨h0, hn⟩ | ⟨-, s, c, s', c', ho, ho', hr, -⟩
        · rw [hn] at g1; cases g1
        · rw [ho'.entry] at g1; cases g1; exact ⟨s, c, ho.entry, hr.symm, by rw [ho.fd, ho'.fd, h5]⟩
      · rw [hoth j hj] at g1; exact ⟨s', c', g1, rfl, rfl⟩
  · intro i s c hpd hq
    rcases h10 with ⟨rfl, rfl⟩ | ⟨-, i', hpd', hi', hoth, hh⟩
    · exact .inr ⟨hpd, hq⟩
    · left
      rcases hh with ⟨h0, hn⟩ | ⟨-, s', c', s'', c'', -, ho, -, hd⟩
      · rw [h4.none.1 h0] at hpd; cases hpd
      · rw [ho.pd] at hpd
        have : i' = i := dataInner_inj h2.toShape (ho.lt h2) (h2.lt hq) (Option.some.inj hpd)
        subst this
        rw [ho.entry] at hq
        cases hq
        exact hd

end Verif.Poll.Win
