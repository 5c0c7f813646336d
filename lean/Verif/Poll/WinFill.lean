import Verif.Poll.WinSoft

/-! # The results of a wait on Windows -/

namespace Verif.Poll.Win

open Table (dataInner)

/-- Whether `WSAPoll` found something for entry `i` -/
def nz (p : P) (i : Nat) : Bool :=
  match entry p i with
  | some (s, _) => s.rev ≠ some Rev.zero
  | none => false

/-- What entry `i` tells: the events and the data, if there is something new to tell -/
def found (p : P) (i : Nat) : Option (Bits × Nat) :=
  match entry p i with
  | some (⟨_, _, some r⟩, c) => if r = Rev.zero ∨ tell r c.edge = NONE then none else some (tell r c.edge, c.data)
  | _ => none

/-- What the entries from `lo` and below `hi` tell, in order -/
def events (p : P) (lo hi : Nat) : List (Bits × Nat) := (List.range' lo (hi - lo)).filterMap (found p)

/-- An entry after its events were taken -/
def mark (q : Option (Slot × PData)) : Option (Slot × PData) :=
  match q with
  | some (⟨fd, ev, some r⟩, c) => if r = Rev.zero then q else some (⟨fd, ev, some r⟩, { c with edge := told r c.edge })
  | _ => q

/-- From `lo`, at most `m` entries have something. -/
def Busy (p : P) (lo : Nat) (m : Int) : Prop := ∀ N : Nat, (((List.range' lo N).countP (nz p) : Nat) : Int) ≤ m

theorem found_congr {p p' : P} {i : Nat} (h : entry p' i = entry p i) : found p' i = found p i := by unfold found; rw [h]
theorem nz_congr {p p' : P} {i : Nat} (h : entry p' i = entry p i) : nz p' i = nz p i := by unfold nz; rw [h]

theorem countP_mono {p p' : P} {lo : Nat} (h : ∀ i, lo ≤ i → nz p' i = true → nz p i = true) (N : Nat) :
    (List.range' lo N).countP (nz p') ≤ (List.range' lo N).countP (nz p) := by
  apply List.countP_mono_left
  intro x hx
  exact h x (by rw [List.mem_range'_1] at hx; exact hx.1)

theorem Busy.mono {p p' : P} {lo : Nat} {m : Int} (hb : Busy p lo m) (h : ∀ i, lo ≤ i → nz p' i = true → nz p i = true) : Busy p' lo m := by
  intro N
  have := countP_mono h N
  have := hb N
  omega

theorem Busy.next {p : P} {i : Nat} {m : Int} (hb : Busy p i m) : Busy p (i + 1) (if nz p i then m - 1 else m) := by
  intro N
  have := hb (N + 1)
  rw [List.range'_succ, List.countP_cons] at this
  split at this <;> rename_i h
  · rw [if_pos h]; omega
  · rw [if_neg h]; omega

theorem Busy.none {p : P} {i : Nat} (hb : Busy p i 0) {j : Nat} (hj : i ≤ j) : nz p j = false := by
  have := hb (j - i + 1)
  have h0 : (List.range' i (j - i + 1)).countP (nz p) = 0 := by omega
  rw [List.countP_eq_zero] at h0
  have := h0 j (by rw [List.mem_range'_1]; omega)
  simpa using this

theorem found_none {p : P} {i : Nat} (h : nz p i = false) : found p i = none := by
  unfold nz at h
  unfold found
  cases he : entry p i with
  | none => rfl
  | some q =>
    obtain ⟨⟨fd, ev, rev⟩, c⟩ := q
    rw [he] at h
    simp only [ne_eq, decide_not, Bool.not_eq_false', decide_eq_true_eq] at h
    subst h
    simp

theorem events_nil {p : P} {lo hi : Nat} (h : ∀ i, lo ≤ i → nz p i = false) : events p lo hi = [] := by
  unfold events
  rw [List.filterMap_eq_nil_iff]
  intro x hx
  rw [List.mem_range'_1] at hx
  exact found_none (h x hx.1)

theorem events_cons {p : P} {lo hi : Nat} (h : lo < hi) : events p lo hi = (found p lo).toList ++ events p (lo + 1) hi := by
  unfold events
  rw [show hi - lo = (hi - (lo + 1)) + 1 by omega, List.range'_succ, List.filterMap_cons]
  cases found p lo <;> rfl

theorem events_congr {p p' : P} {lo hi : Nat} (h : ∀ i, lo ≤ i → entry p' i = entry p i) : events p' lo hi = events p lo hi := by
  unfold events
  generalize hi - lo = n
  induction n generalizing lo with
  | zero => rfl
  | succ n ih =>
    rw [List.range'_succ, List.filterMap_cons, List.filterMap_cons, found_congr (h lo (Nat.le_refl _)), ih (fun i hi => h i (by omega))]

theorem events_self (p : P) (lo : Nat) : events p lo lo = [] := by simp [events]

/-- What the loop does from entry `i` on, up to entry `stop` -/
structure Filled (p : P) (i : Nat) (room : Nat) (out : List (Bits × Nat)) (p' : P) (stop : Nat) : Prop where
  soft : Soft p p'
  le : i ≤ stop
  cap : stop ≤ p.cap
  told : out = events p i stop
  before : ∀ j, j < i → entry p' j = entry p j
  after : ∀ j, stop ≤ j → entry p' j = entry p j
  marked : ∀ j, i ≤ j → j < stop → entry p' j = mark (entry p j)
  len : out.length ≤ room
  all : out.length < room → stop = p.cap ∧ p'.remaining = 0 ∧ p'.offset = p.offset
  rest : out.length = room → p'.offset = stop ∧ Busy p' stop p'.remaining ∧ 0 ≤ p'.remaining

theorem fillLoop_ok : ∀ (fuel i : Nat) (acc : List (Bits × Nat)) (p : P), (∃ ev k, Wf p ev k) → i ≤ p.cap → p.cap < fuel + i →
    acc.length < 1024 → 0 ≤ p.remaining → Busy p i p.remaining →
    ∃ out p' stop, fillLoop fuel i acc p = .ok (acc.reverse ++ out, p') ∧ Filled p i (1024 - acc.length) out p' stop
  | 0, i, acc, p, _, hi, hf, _, _, _ => by omega
  | fuel + 1, i, acc, p, hw, hi, hf, hacc, hr, hb => by
    obtain ⟨ev, k, hw⟩ := hw
    unfold fillLoop
    by_cases hc : i < p.cap ∧ p.remaining > 0
    · rw [if_pos hc]
      -- what is told, then the rest
      have core : ∃ p1, (eventInner i p = .ok (((found p i).map (·.1)).getD NONE, p1)) ∧ Soft p p1 ∧ (∀ j, j ≠ i → entry p1 j = entry p j) ∧
          entry p1 i = mark (entry p i) ∧ p1.offset = p.offset ∧ p1.remaining = (if nz p i then p.remaining - 1 else p.remaining) ∧
          (∀ e d, found p i = some (e, d) → e ≠ NONE ∧ ∃ c, getCell p1 (dataInner i) = .ok c ∧ c.data = d) := by
        rcases eventInner_ok hw hc.1 with ⟨e1, hz⟩ | ⟨s, c, r, p1, he, hs, hz, e1, sf, en, ens, r1, o1⟩
        · have hnz : nz p i = false := by
            unfold nz
            rcases hz with hz | ⟨s, c, hz, hs⟩
            · rw [hz]
            · rw [hz]; simp [hs]
          refine ⟨p, by rw [found_none hnz]; exact e1, .refl p, fun _ _ => rfl, ?_, rfl, by rw [hnz]; rfl, ?_⟩
          · unfold mark
            rcases hz with hz | ⟨⟨fd, ev', rev⟩, c, hz, hs⟩
            · rw [hz]
            · rw [hz]
              simp only at hs
              subst hs
              simp
          · intro e d hh; rw [found_none hnz] at hh; cases hh
        · obtain ⟨fd, ev', rev⟩ := s
          simp only at hs
          subst hs
          have hnz : nz p i = true := by unfold nz; rw [he]; simpa using hz
          obtain ⟨ev1, k1, w1⟩ := sf.wf ⟨ev, k, hw⟩
          obtain ⟨g1, g2, g3⟩ := (entry_some w1.events).1 en
          refine ⟨p1, ?_, sf, ens, ?_, o1, by rw [hnz]; exact r1, ?_⟩
          · rw [e1]
            unfold found
            rw [he]
            simp only
            by_cases ht : tell r c.edge = NONE
            · rw [if_pos (.inr ht), ht]; rfl
            · rw [if_neg (fun h => h.elim hz ht)]; rfl
          · rw [en, he]
            unfold mark
            simp only
            rw [if_neg hz]
          · intro e d hh
            unfold found at hh
            rw [he] at hh
            simp only at hh
            split at hh
            · cases hh
            · next hn =>
              cases hh
              exact ⟨fun h => hn (.inr h), _, g3, rfl⟩
      obtain ⟨p1, e1, sf, ens, en, o1, r1, hfd⟩ := core
      rw [e1]
      simp only [Res.ok_bind]
      have hcap1 := sf.cap
      have hr1 : 0 ≤ p1.remaining := by rw [r1]; split <;> omega
      have hb1 : Busy p1 (i + 1) p1.remaining := by
        rw [r1]
        exact hb.next.mono (fun j hj h => by rw [nz_congr (ens j (by omega))] at h; exact h)
      have hev : ∀ hi, events p1 (i + 1) hi = events p (i + 1) hi := fun hi => events_congr (fun j hj => ens j (by omega))
      have glue : ∀ (room : Nat) (out : List (Bits × Nat)) (p' : P) (stop : Nat), Filled p1 (i + 1) room out p' stop →
          ∀ room', ((found p i).toList ++ out).length ≤ room' → (room' - ((found p i).toList).length = room) →
          Filled p i room' ((found p i).toList ++ out) p' stop := by
        intro room out p' stop hF room' hl hroom
        have hol := hF.len
        have hle := hF.le
        rw [List.length_append] at hl
        refine ⟨sf.trans hF.soft, by omega, by rw [← hcap1]; exact hF.cap, ?_, ?_, ?_, ?_, by rw [List.length_append]; exact hl, ?_, ?_⟩
        · rw [events_cons (by omega), hF.told, hev]
        · intro j hj; rw [hF.before j (by omega), ens j (by omega)]
        · intro j hj; rw [hF.after j hj, ens j (by omega)]
        · intro j h1 h2
          by_cases hji : j = i
          · subst hji; rw [hF.before j (by omega), en]
          · rw [hF.marked j (by omega) h2, ens j hji]
        · intro hlt
          rw [List.length_append] at hlt
          obtain ⟨a1, a2, a3⟩ := hF.all (by omega)
          exact ⟨a1.trans hcap1, a2, a3.trans o1⟩
        · intro heq
          rw [List.length_append] at heq
          exact hF.rest (by omega)
      cases hfo : found p i with
      | none =>
        simp only [Option.map_none, Option.getD_none]
        rw [if_neg (by simp)]
        obtain ⟨out, p', stop, h1, h2⟩ := fillLoop_ok fuel (i + 1) acc p1 (sf.wf ⟨ev, k, hw⟩) (by omega) (by omega) hacc hr1 hb1
        refine ⟨out, p', stop, h1, ?_⟩
        have := glue _ _ _ _ h2 (1024 - acc.length) (by rw [hfo]; simpa using h2.len) (by rw [hfo]; simp)
        rw [hfo] at this
        simpa using this
      | some ed =>
        obtain ⟨e, d⟩ := ed
        obtain ⟨hne, c, hcell, hd⟩ := hfd e d hfo
        simp only [Option.map_some, Option.getD_some]
        rw [if_pos hne, hcell]
        simp only [Res.ok_bind]
        rw [hd]
        by_cases hfull : ((e, d) :: acc).length = 1024
        · rw [if_pos hfull]
          simp only [List.length_cons] at hfull
          refine ⟨[(e, d)], { p1 with offset := i + 1 }, i + 1, by simp, ?_⟩
          have hs2 : Soft p1 { p1 with offset := i + 1 } := .of_eq rfl rfl rfl rfl rfl rfl rfl
          have hF : Filled p1 (i + 1) 0 [] { p1 with offset := i + 1 } (i + 1) := by
            refine ⟨hs2, Nat.le_refl _, by omega, by rw [events_self], fun _ _ => rfl, fun _ _ => rfl, fun j h1 h2 => by omega, Nat.le_refl _, ?_, ?_⟩
            · intro h; simp at h
            · intro _
              refine ⟨rfl, ?_, hr1⟩
              exact hb1.mono (fun j hj h => h)
          have := glue _ _ _ _ hF (1024 - acc.length) (by rw [hfo]; simp; omega) (by rw [hfo]; simp; omega)
          rw [hfo] at this
          simpa using this
        · rw [if_neg hfull]
          simp only [List.length_cons] at hfull
          obtain ⟨out, p', stop, h1, h2⟩ := fillLoop_ok fuel (i + 1) ((e, d) :: acc) p1 (sf.wf ⟨ev, k, hw⟩) (by omega) (by omega) (by simp; omega) hr1 hb1
          refine ⟨(e, d) :: out, p', stop, by rw [h1]; simp, ?_⟩
          have hl := h2.len
          simp only [List.length_cons] at hl
          have := glue _ _ _ _ h2 (1024 - acc.length) (by rw [hfo]; simp; omega) (by rw [hfo]; simp; omega)
          rw [hfo] at this
          simpa using this
    · rw [if_neg hc]
      have hno : ∀ j, i ≤ j → nz p j = false := by
        intro j hj
        by_cases hic : i < p.cap
        · have : p.remaining = 0 := by omega
          rw [this] at hb
          exact hb.none hj
        · unfold nz
          cases he : entry p j with
          | none => rfl
          | some q => have := hw.lt he; omega
      refine ⟨[], { p with remaining := 0 }, p.cap, by simp, ?_⟩
      refine ⟨.of_eq rfl rfl rfl rfl rfl rfl rfl, hi, Nat.le_refl _, (events_nil hno).symm, fun _ _ => rfl, fun _ _ => rfl, ?_, by simp, fun _ => ⟨rfl, rfl, rfl⟩, ?_⟩
      · intro j h1 h2
        have hn := hno j h1
        show entry p j = mark (entry p j)
        unfold nz at hn
        unfold mark
        cases he : entry p j with
        | none => rfl
        | some q =>
          obtain ⟨⟨fd, ev', rev⟩, c⟩ := q
          rw [he] at hn
          simp only [ne_eq, decide_not, Bool.not_eq_false', decide_eq_true_eq] at hn
          subst hn
          simp
      · intro h; simp at h; omega

/-- **Results**: a wait gives the events that were found and not given yet, in order; if they do not all fit, the next wait
goes on where this one stopped. -/
theorem fill_ok {p : P} (hw : ∃ ev k, Wf p ev k) (ho : p.offset ≤ p.cap) (hr : 0 ≤ p.remaining) (hb : Busy p p.offset p.remaining) :
    ∃ out p' stop, fill p = .ok (out, p') ∧ Filled p p.offset 1024 out p' stop := by
  unfold fill
  obtain ⟨out, p', stop, h1, h2⟩ := fillLoop_ok (p.cap + 1) p.offset [] p hw ho (by omega) (by simp) hr hb
  exact ⟨out, p', stop, by simpa using h1, by simpa using h2⟩

/-- With nothing expected nothing is looked at. -/
theorem fill_zero {p : P} (hr : p.remaining ≤ 0) : fill p = .ok ([], { p with remaining := 0 }) := by
  unfold fill fillLoop
  rw [if_neg (by omega)]
  rfl

end Verif.Poll.Win
