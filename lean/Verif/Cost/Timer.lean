import Verif.Timer.Late

/-! # What a timer costs, in memory and in work -/

namespace Verif.Timer

open Spec

/-! ## The timers that are pending, told from the events alone -/

/-- The ids of the pending timers after one more event. -/
def pendStep (l : List Nat) : Ev → List Nat
  | .add _ _ _ id => id :: l
  | .cancel id => l.filter (· ≠ id)
  | .fire id _ _ _ => l.filter (· ≠ id)
  | .clear => []
  | .addFail => l
  | .now _ => l

/-- The ids of the timers that are pending after the events: added, and since then neither
cancelled nor fired nor cleared. -/
def pend (es : List Ev) : List Nat := es.foldl pendStep []

/-- The list names the pending timers, each once. -/
structure Names (l : List Nat) (live : Nat → Option Entry) : Prop where
  nodup : l.Nodup
  mem : ∀ id, id ∈ l ↔ live id ≠ none

theorem Names.drop {l : List Nat} {live : Nat → Option Entry} (h : Names l live) (id : Nat) :
    Names (l.filter (· ≠ id)) (upd live id none) := by
  refine ⟨h.nodup.filter _, fun x => ?_⟩
  have := h.mem x
  simp only [List.mem_filter, upd]
  by_cases hx : x = id <;> simp [hx]
  simpa [hx] using this

theorem Names.trace {S S' : State} {es : List Ev} (t : Trace S es S') : ∀ {l : List Nat},
    Names l S.live → Names (es.foldl pendStep l) S'.live := by
  induction t with
  | nil S => intro l h; exact h
  | @add S timeout type data id es S' _ hl _ ih =>
    intro l h
    refine ih ⟨List.nodup_cons.2 ⟨fun hm => (h.mem id).1 hm hl, h.nodup⟩, fun x => ?_⟩
    have := h.mem x
    simp only [pendStep, List.mem_cons, upd]
    by_cases hx : x = id
    · simp [hx]
    · simpa [hx] using this
  | addFail _ ih => intro l h; exact ih h
  | cancel _ ih => intro l h; exact ih (h.drop _)
  | clear _ ih => intro l h; exact ih ⟨List.nodup_nil, fun x => by simp [pendStep]⟩
  | now _ _ ih => intro l h; exact ih h
  | fire _ _ _ ih => intro l h; exact ih (h.drop _)

/-! ## When the wheel grows -/

/-- The search for a free cell that finds none has seen only pending timers. -/
theorem findFree_full {t : T} {live : Nat → Option Entry} (r : Rep t live) {p : Nat} (hp : p < 16) (n : Nat) :
    ∀ seq, seq + n = t.wheel → findFree t.list (p * t.wheel) n seq = .ok none →
      ∀ q, seq ≤ q → q < t.wheel → live (mkid q p) ≠ none := by
  induction n with
  | zero => intro seq h _ q h1 h2; omega
  | succ n ih =>
    intro seq h hf q h1 h2
    obtain ⟨c, hc1, hc2⟩ := r.cell p seq hp (by omega)
    simp only [findFree] at hf
    rw [add32_idx hp (by omega) r.wle, rd_eq_ok.2 hc1, Res.ok_bind] at hf
    by_cases hi : c.timeout = INVALID
    · rw [if_pos hi] at hf; cases hf
    · rw [if_neg hi] at hf
      by_cases hq : q = seq
      · subst hq; rw [hc2]; simp [entry, hi]
      · exact ih (seq + 1) (by omega) hf q (by omega) h2

theorem expand_wheel {al : Alloc Nat} {t t' : T} (hw : t.wheel ≤ 11184810) (h : expand al t = .ok (true, t')) :
    t'.wheel = 4 ∨ t'.wheel = 2 * t.wheel := by
  unfold expand at h
  obtain ⟨_, -, h⟩ := Res.bind_eq_ok.1 h
  split at h
  · cases h
  · cases al with
    | none => cases h
    | some fill =>
      simp only at h
      split at h
      · next h0 =>
        obtain ⟨l, -, h⟩ := Res.bind_eq_ok.1 h
        cases h
        simp only
        right; rw [mul32_lt (by omega)]; omega
      · next h0 =>
        cases h
        exact .inl rfl

/-- The wheel only grows when all cells of one slot are taken, and then it doubles. -/
theorem add_grow {al : Alloc Nat} {t t' : T} {live : Nat → Option Entry} (r : Rep t live) {timeout type data id : Nat}
    (h : add al t timeout type data = .ok (t', id)) :
    t'.wheel = t.wheel ∨ t'.wheel ≤ 4 ∨ (t'.wheel = 2 * t.wheel ∧ ∃ p, p < 16 ∧ ∀ q, q < t.wheel → live (mkid q p) ≠ none) := by
  have hpos : (timeout / 16 + t.head) % W32 % 16 = (timeout / 16 + t.head) % 16 := by omega
  have hp : (timeout / 16 + t.head) % 16 < 16 := by omega
  unfold add at h
  simp only [hpos] at h
  generalize (timeout / 16 + t.head) % 16 = p at *
  rw [mul32_idx hp r.wle] at h
  have hadd : ∀ {u u' : T} {a b c d e f : Nat}, addAt u a b c d e f = .ok (u', id) → u'.wheel = u.wheel := by
    intro u u' a b c d e f h
    unfold addAt at h
    obtain ⟨_, _, h⟩ := Res.bind_eq_ok.1 h
    obtain ⟨_, _, h⟩ := Res.bind_eq_ok.1 h
    cases h; rfl
  obtain ⟨f, hf, h⟩ := Res.bind_eq_ok.1 h
  cases f with
  | some s => exact .inl (hadd h)
  | none =>
    simp only at h
    obtain ⟨⟨ok, u⟩, hu, h⟩ := Res.bind_eq_ok.1 h
    cases ok with
    | false =>
      simp only [Bool.not_false, if_true] at h
      cases h
      rcases expand_spec r al with he | ⟨_, he, _⟩
      · rw [he] at hu; cases hu; exact .inl rfl
      · rw [he] at hu; cases hu
    | true =>
      simp only [Bool.not_true, Bool.false_eq_true, if_false] at h
      obtain ⟨_, _, h⟩ := Res.bind_eq_ok.1 h
      obtain ⟨_, _, h⟩ := Res.bind_eq_ok.1 h
      have h1 := hadd h
      rcases expand_wheel r.wle hu with h2 | h2
      · right; left; omega
      · right; right
        exact ⟨by omega, p, hp, fun q hq => findFree_full r hp t.wheel 0 (by omega) hf q (by omega) hq⟩

theorem names_room {l : List Nat} {live : Nat → Option Entry} (h : Names l live) {p w : Nat} (hp : p < 16)
    (hl : ∀ q, q < w → live (mkid q p) ≠ none) : w ≤ l.length := by
  have hn : ((List.range w).map (mkid · p)).Nodup :=
    List.pairwise_map.2 ((List.nodup_range (n := w)).imp fun hab he => hab (id_inj hp hp he).1)
  have := hn.length_le_of_subset (l₂ := l) (by
    intro x hx
    obtain ⟨q, hq, rfl⟩ := List.mem_map.1 hx
    exact (h.mem _).2 (hl q (List.mem_range.1 hq)))
  simpa using this

/-- The wheel is as it was, or small, or less than twice the number of timers that were pending
at some moment. -/
def Grown (l : List Nat) (es : List Ev) (w w' : Nat) : Prop :=
  w' = w ∨ w' ≤ 4 ∨ ∃ es1, es1 <+: es ∧ w' + 2 ≤ 2 * (es1.foldl pendStep l).length

theorem Grown.step {l : List Nat} {es : List Ev} {ev : List Ev} {w w1 w' : Nat} (h : Grown l ev w w1)
    (h' : Grown (ev.foldl pendStep l) es w1 w') : Grown l (ev ++ es) w w' := by
  rcases h' with h' | h' | ⟨es1, hp, h'⟩
  · rw [h']
    rcases h with h | h | ⟨es1, hp, h⟩
    · exact .inl h
    · exact .inr (.inl h)
    · exact .inr (.inr ⟨es1, hp.trans (List.prefix_append _ _), h⟩)
  · exact .inr (.inl h')
  · refine .inr (.inr ⟨ev ++ es1, (List.prefix_append_right_inj _).2 hp, ?_⟩)
    rw [List.foldl_append]; exact h'

theorem pre_ok {es es' : List Ev} {o : Res (Out σ)} {c' : Cfg} {s' : σ} (h : pre es o = .ok (some (c', s', es'))) :
    ∃ es1, o = .ok (some (c', s', es1)) ∧ es' = es ++ es1 := by
  unfold pre at h
  obtain ⟨v, hv, h⟩ := Res.bind_eq_ok.1 h
  cases v with
  | none => cases h
  | some v => obtain ⟨a, b, es2⟩ := v; cases h; exact ⟨es2, hv, rfl⟩

theorem exec_grow (p : Prog σ) : ∀ {c c' : Cfg} {live : Nat → Option Entry} {l : List Nat} {s' : σ} {es : List Ev},
    RepC c live → Names l live → exec p c = .ok (some (c', s', es)) → Grown l es c.t.wheel c'.t.wheel := by
  induction p with
  | ret s => intro c c' live l s' es r hn h; cases h; exact .inl rfl
  | add al timeout type data k ih =>
    intro c c' live l s' es r hn h
    rw [exec] at h
    by_cases hg : timeout + c.t.timestamp < INVALID
    · rw [if_pos hg] at h
      obtain ⟨⟨t', id⟩, ha, h⟩ := Res.bind_eq_ok.1 h
      simp only at h
      have hgrow := add_grow r.rep ha
      have hg1 : Grown l [.add timeout type data id] c.t.wheel t'.wheel := by
        rcases hgrow with h | h | ⟨h, p, hp, hl⟩
        · exact .inl h
        · exact .inr (.inl h)
        · refine .inr (.inr ⟨_, List.prefix_refl _, ?_⟩)
          have := names_room hn hp hl
          simp only [List.foldl_cons, List.foldl_nil, pendStep, List.length_cons]; omega
      rcases add_spec r.rep al hg (type := type) (data := data) with h1 | ⟨t1, s, h1, hl, r', hs, hw, hh, hts⟩
      · rw [h1] at ha; cases ha
        rw [if_pos rfl] at h
        obtain ⟨es1, hx, rfl⟩ := pre_ok h
        exact Grown.step (ev := [.addFail]) (w1 := c.t.wheel) (.inl rfl) (ih _ r hn hx)
      · rw [h1] at ha
        have hp : (timeout / 16 + c.t.head) % 16 < 16 := by omega
        generalize (timeout / 16 + c.t.head) % 16 = p at *
        have hne : mkid s p ≠ INVALID := mkid_ne hp (by have := r'.wle; omega)
        cases ha
        rw [if_neg hne] at h
        obtain ⟨es1, hx, rfl⟩ := pre_ok h
        have rc : RepC ⟨t', (mkid s p) :: c.issued⟩ (upd live (mkid s p) (some ⟨c.t.timestamp + timeout, type, data⟩)) := by
          refine ⟨r', ?_⟩
          intro id hid
          rcases List.mem_cons.1 hid with rfl | hid
          · exact ⟨p, s, hp, hs, rfl⟩
          · obtain ⟨p', s', h1, h2, h3⟩ := r.issued id hid
            exact ⟨p', s', h1, by simp only; omega, h3⟩
        refine hg1.step (ih _ rc ?_ hx)
        exact Names.trace (S := ⟨live, c.t.timestamp⟩) (.add hne hl (.nil _)) hn
    · rw [if_neg hg] at h; cases h
  | cancel id k ih =>
    intro c c' live l s' es r hn h
    rw [exec] at h
    by_cases hg : id = INVALID ∨ id ∈ c.issued
    · rw [if_pos hg] at h
      obtain ⟨⟨t', x⟩, ha, h⟩ := Res.bind_eq_ok.1 h
      simp only at h
      obtain ⟨es1, hx, rfl⟩ := pre_ok h
      by_cases hid : id = INVALID
      · have : cancel c.t id = .ok (c.t, id) := by unfold cancel; rw [if_pos hid]
        rw [this] at ha; cases ha
        refine Grown.step (w1 := c.t.wheel) (.inl rfl) (ih r (live := live) ?_ hx)
        have hnone : upd live id none = live := by
          funext x; unfold upd; split
          · next hx =>
            subst hx
            rcases hl : live x with _ | e
            · rfl
            · obtain ⟨p, s, hp, hs, he⟩ := r.rep.dom _ (by rw [hl]; simp)
              exact absurd (he.symm.trans hid) (mkid_ne hp (by have := r.rep.wle; omega))
          · rfl
        have := hn.drop id
        rw [hnone] at this
        exact this
      · have hm : id ∈ c.issued := hg.resolve_left hid
        obtain ⟨p, s, hp, hs, rfl⟩ := r.issued id hm
        obtain ⟨t1, h1, r', hw, hh, hts⟩ := cancel_spec r.rep hp hs
        rw [h1] at ha; cases ha
        have rc : RepC { c with t := t' } (upd live (mkid s p) none) :=
          ⟨r', fun id hid => by rw [hw]; exact r.issued id hid⟩
        exact Grown.step (w1 := t'.wheel) (.inl hw) (ih rc (hn.drop _) hx)
    · rw [if_neg hg] at h; cases h
  | clear k ih =>
    intro c c' live l s' es r hn h
    rw [exec] at h
    obtain ⟨t', h1, r', hts, hw⟩ := clear_spec r.rep
    rw [h1, Res.ok_bind] at h
    obtain ⟨es1, hx, rfl⟩ := pre_ok h
    have rc : RepC { c with t := t' } (fun _ => none) := ⟨r', fun id hid => by rw [hw]; exact r.issued id hid⟩
    exact Grown.step (w1 := t'.wheel) (.inl hw) (ih rc ⟨List.nodup_nil, fun x => by simp [pendStep]⟩ hx)

theorem exec_names {p : Prog σ} {c c' : Cfg} {live : Nat → Option Entry} {l : List Nat} {s' : σ} {es : List Ev}
    (r : RepC c live) (hn : Names l live) (h : exec p c = .ok (some (c', s', es))) :
    ∃ live', RepC c' live' ∧ Names (es.foldl pendStep l) live' ∧ c.t.wheel ≤ c'.t.wheel := by
  obtain ⟨o, ho, hg⟩ := exec_spec p r
  rw [h] at ho; cases ho
  obtain ⟨live', g⟩ := hg _ _ _ rfl
  exact ⟨live', g.rep, Names.trace g.tr hn, g.wheel⟩

theorem cells_grow (cb : σ → Nat → Nat → Nat → Prog σ) {head : Nat} (hh : head < 16) (n : Nat) :
    ∀ {i : Nat} {c c' : Cfg} {live : Nat → Option Entry} {l : List Nat} {s s' : σ} {es : List Ev}, RepC c live → Names l live →
      i + n ≤ c.t.wheel → cells cb head n i (mul32 c.t.wheel head) c s = .ok (some (c', s', es)) →
      Grown l es c.t.wheel c'.t.wheel ∧ ∃ live', RepC c' live' ∧ Names (es.foldl pendStep l) live' := by
  induction n with
  | zero => intro i c c' live l s s' es r hn _ h; cases h; exact ⟨.inl rfl, live, r, hn⟩
  | succ n ih =>
    intro i c c' live l s s' es r hn hi h
    have hbase : mul32 c.t.wheel head = head * c.t.wheel := by
      have := mul32_idx hh r.rep.wle
      unfold mul32 at this ⊢; rw [Nat.mul_comm]; exact this
    obtain ⟨item, hc1, hc2⟩ := r.rep.cell head i hh (by omega)
    rw [cells] at h
    simp only [hbase] at h
    rw [add32_idx hh (by omega) r.rep.wle, rd_eq_ok.2 hc1, Res.ok_bind] at h
    by_cases hdue : item.timeout ≤ c.t.timestamp
    · rw [if_pos hdue] at h
      have hlt := idx_lt hh (show i < c.t.wheel by omega)
      rw [wr_lt (by rw [r.rep.len]; omega), Res.ok_bind] at h
      have r1 := r.rep.set hh (show i < c.t.wheel by omega) { item with timeout := INVALID }
      rw [show entry { item with timeout := INVALID } = none by simp [entry]] at r1
      have rc1 := RepC.mk (c := ⟨_, c.issued⟩) r1 r.issued
      obtain ⟨o, ho, h⟩ := Res.bind_eq_ok.1 h
      cases o with
      | none => cases h
      | some v =>
        obtain ⟨c2, s2, es2⟩ := v
        simp only at h
        obtain ⟨es3, hx, rfl⟩ := pre_ok h
        have g2 := exec_grow _ rc1 (hn.drop (mkid i head)) ho
        obtain ⟨live2, r2, hn2, hw2⟩ := exec_names rc1 (hn.drop (mkid i head)) ho
        simp only at g2 hw2
        obtain ⟨g3, live3, r3, hn3⟩ := ih (i := i + 1) r2 hn2 (by omega) hx
        have := Grown.step (ev := [.fire (mkid i head) item.timeout item.type item.data]) (l := l) (w := c.t.wheel) (.inl rfl) (g2.step g3)
        refine ⟨this, live3, r3, ?_⟩
        simp only [List.cons_append, List.foldl_cons, List.foldl_append]
        exact hn3
    · rw [if_neg hdue, ← hbase] at h
      exact ih (i := i + 1) r hn (by omega) h

theorem slots_grow (cb : σ → Nat → Nat → Nat → Prog σ) (n : Nat) :
    ∀ {head : Nat} {c c' : Cfg} {live : Nat → Option Entry} {l : List Nat} {s s' : σ} {es : List Ev}, head < 16 → RepC c live → Names l live →
      slots cb n head c s = .ok (some (c', s', es)) →
      Grown l es c.t.wheel c'.t.wheel ∧ ∃ live', RepC c' live' ∧ Names (es.foldl pendStep l) live' := by
  induction n with
  | zero => intro head c c' live l s s' es _ r hn h; cases h; exact ⟨.inl rfl, live, r, hn⟩
  | succ n ih =>
    intro head c c' live l s s' es hh r hn h
    rw [slots] at h
    obtain ⟨o, ho, h⟩ := Res.bind_eq_ok.1 h
    cases o with
    | none => cases h
    | some v =>
      obtain ⟨c1, s1, es1⟩ := v
      simp only at h
      obtain ⟨es3, hx, rfl⟩ := pre_ok h
      obtain ⟨g1, live1, r1, hn1⟩ := cells_grow cb hh c.t.wheel (i := 0) r hn (by omega) ho
      obtain ⟨g2, live2, r2, hn2⟩ := ih (Nat.mod_lt _ (by decide)) r1 hn1 hx
      exact ⟨g1.step g2, live2, r2, by rw [List.foldl_append]; exact hn2⟩

theorem step_grow (cb : σ → Nat → Nat → Nat → Prog σ) {c c' : Cfg} {live : Nat → Option Entry} {l : List Nat} {s s' : σ} {es : List Ev}
    {op : Op σ} (r : RepC c live) (hn : Names l live) (h : step cb c s op = .ok (some (c', s', es))) :
    Grown l es c.t.wheel c'.t.wheel := by
  cases op with
  | call p => exact exec_grow _ r hn h
  | term => cases h; exact .inr (.inl (by simp [term]))
  | timeout ts =>
    rw [step] at h
    by_cases hg : c.t.timestamp ≤ ts ∧ ts < INVALID
    · rw [if_pos hg] at h
      obtain ⟨⟨v, ret⟩, hv, h⟩ := Res.bind_eq_ok.1 h
      cases h
      unfold timeout at hv
      simp only at hv
      generalize hw : (if sub64 ts c.t.timestamp / TICK < WHEEL_COUNT then sub64 ts c.t.timestamp / TICK else WHEEL_COUNT) % W32 = w at hv
      by_cases h0 : w = 0
      · rw [if_pos h0] at hv; cases hv; exact .inl rfl
      · rw [if_neg h0] at hv
        obtain ⟨o, ho, hv⟩ := Res.bind_eq_ok.1 hv
        cases hv
        obtain ⟨es3, hx, rfl⟩ := pre_ok ho
        have r1 : RepC { c with t := { c.t with timestamp := ts, head := add32 c.t.head w % WHEEL_COUNT } } live :=
          ⟨⟨r.rep.len, r.rep.wle, Nat.mod_lt _ (by decide), hg.2, r.rep.cell, r.rep.dom⟩, r.issued⟩
        exact Grown.step (w1 := c.t.wheel) (.inl rfl) (slots_grow cb w r.rep.head r1 hn hx).1
    · rw [if_neg hg] at h; cases h

theorem run_grow (cb : σ → Nat → Nat → Nat → Prog σ) (ops : List (Op σ)) :
    ∀ {c c' : Cfg} {live : Nat → Option Entry} {l : List Nat} {s s' : σ} {es : List Ev}, RepC c live → Names l live →
      run cb ops c s = .ok (some (c', s', es)) → Grown l es c.t.wheel c'.t.wheel ∧ c'.t.list.length = c'.t.wheel * 32 := by
  induction ops with
  | nil => intro c c' live l s s' es r hn h; cases h; exact ⟨.inl rfl, r.rep.len⟩
  | cons op ops ih =>
    intro c c' live l s s' es r hn h
    obtain ⟨c1, s1, es1, es2, h1, h2, rfl⟩ := run_cons h
    obtain ⟨o, ho, hg⟩ := step_spec cb (s := s) r op
    rw [h1] at ho; cases ho
    obtain ⟨live1, t1, r1⟩ := hg _ _ _ rfl
    obtain ⟨g2, hl⟩ := ih r1 (Names.trace t1 hn) h2
    exact ⟨(step_grow cb r hn h1).step g2, hl⟩

/-- **C137.** A timer's memory is in proportion to the largest number of timers that were
pending at the same moment, however many were added over time: if never more than `N` were,
the array has at most `64·(N − 1)` cells, or 128. This is for every client and every history, with
adding and cancelling inside callbacks. -/
theorem timer_memory (cb : σ → Nat → Nat → Nat → Prog σ) (ops : List (Op σ)) (ts0 : Nat) (h0 : ts0 < INVALID) (s0 : σ)
    {c : Cfg} {s : σ} {es : List Ev} (h : run cb ops ⟨init ts0, []⟩ s0 = .ok (some (c, s, es))) {N : Nat}
    (hN : ∀ es1, es1 <+: es → (pend es1).length ≤ N) : c.t.list.length ≤ max 128 (64 * (N - 1)) := by
  obtain ⟨g, hl⟩ := run_grow cb ops (l := []) (repC_init h0) ⟨List.nodup_nil, fun x => by simp⟩ h
  rw [hl]
  rcases g with g | g | ⟨es1, hp, g⟩
  · rw [g]; simp [init]
  · omega
  · have := hN es1 hp
    unfold pend at this
    omega

/-! ## What adding costs -/

/-- `findFree` (timer/sc_timer.c:122-127) with the number of cells that are looked at. -/
def findFreeC (l : List Cell) (wheelPos : Nat) : (n seq : Nat) → Res (Option Nat × Nat)
  | 0, _ => .ok (none, 0)
  | n + 1, seq => do
    let c ← rd l (add32 wheelPos seq)
    if c.timeout = INVALID then return (some seq, 1)
    else
      let (r, k) ← findFreeC l wheelPos n (seq + 1)
      return (r, k + 1)

/-- The counting does not change the search. -/
theorem findFreeC_fst (l : List Cell) (wp n : Nat) : ∀ seq, (do let (r, _) ← findFreeC l wp n seq; return r) = findFree l wp n seq := by
  induction n with
  | zero => intro seq; rfl
  | succ n ih =>
    intro seq
    simp only [findFreeC, findFree]
    cases hr : rd l (add32 wp seq) with
    | ub => rfl
    | ok c =>
      simp only [Res.ok_bind]
      split
      · rfl
      · rw [← ih]
        cases findFreeC l wp n (seq + 1) with
        | ub => rfl
        | ok v => rfl

/-- How many cells `sc_timer_add` looks at in its search, timer/sc_timer.c:116-127. -/
def addLooks (t : T) (timeout : Nat) : Res Nat := do
  let offset := (timeout / TICK + t.head) % W32
  let pos := offset % WHEEL_COUNT
  let (_, k) ← findFreeC t.list (mul32 pos t.wheel) t.wheel 0
  return k

theorem findFreeC_spec {t : T} {live : Nat → Option Entry} (r : Rep t live) {p : Nat} (hp : p < 16) (n : Nat) :
    ∀ seq, seq + n = t.wheel →
      (findFreeC t.list (p * t.wheel) n seq = .ok (none, n) ∧ ∀ q, seq ≤ q → q < t.wheel → live (mkid q p) ≠ none) ∨
      (∃ s, seq ≤ s ∧ s < t.wheel ∧ findFreeC t.list (p * t.wheel) n seq = .ok (some s, s - seq + 1) ∧
        live (mkid s p) = none ∧ ∀ q, seq ≤ q → q < s → live (mkid q p) ≠ none) := by
  induction n with
  | zero => intro seq h; exact .inl ⟨rfl, fun q h1 h2 => by omega⟩
  | succ n ih =>
    intro seq h
    obtain ⟨c, hc1, hc2⟩ := r.cell p seq hp (by omega)
    simp only [findFreeC]
    rw [add32_idx hp (by omega) r.wle, rd_eq_ok.2 hc1, Res.ok_bind]
    by_cases hi : c.timeout = INVALID
    · rw [if_pos hi]
      refine .inr ⟨seq, Nat.le_refl _, by omega, by rw [Nat.sub_self]; rfl, by rw [hc2]; simp [entry, hi], fun q h1 h2 => by omega⟩
    · rw [if_neg hi]
      have hseq : live (mkid seq p) ≠ none := by rw [hc2]; simp [entry, hi]
      rcases ih (seq + 1) (by omega) with ⟨h1, h2⟩ | ⟨s, h1, h2, h3, h4, h5⟩
      · left
        rw [h1]
        refine ⟨rfl, fun q hq1 hq2 => ?_⟩
        by_cases hq : q = seq
        · rw [hq]; exact hseq
        · exact h2 q (by omega) hq2
      · right
        refine ⟨s, by omega, h2, ?_, h4, fun q hq1 hq2 => ?_⟩
        · rw [h3]
          simp only [Res.ok_bind, Res.pure_eq]
          rw [show s - (seq + 1) + 1 + 1 = s - seq + 1 by omega]
        · by_cases hq : q = seq
          · rw [hq]; exact hseq
          · exact h5 q (by omega) hq2

theorem addLooks_le {t : T} {live : Nat → Option Entry} (r : Rep t live) {l : List Nat} (hn : Names l live) (timeout : Nat) :
    ∃ k, addLooks t timeout = .ok k ∧ k ≤ l.length + 1 ∧ k ≤ t.wheel := by
  have hpos : (timeout / 16 + t.head) % W32 % 16 = (timeout / 16 + t.head) % 16 := by omega
  have hp : (timeout / 16 + t.head) % 16 < 16 := by omega
  unfold addLooks
  simp only [hpos]
  generalize (timeout / 16 + t.head) % 16 = p at *
  rw [mul32_idx hp r.wle]
  rcases findFreeC_spec r hp t.wheel 0 (by omega) with ⟨h1, h2⟩ | ⟨s, h1, h2, h3, h4, h5⟩
  · rw [h1]
    have := names_room hn hp (fun q hq => h2 q (Nat.zero_le _) hq)
    exact ⟨_, rfl, by omega, by omega⟩
  · rw [h3]
    have := names_room hn hp (fun q hq => h5 q (Nat.zero_le _) hq)
    exact ⟨_, rfl, by omega, by omega⟩

/-- **C138**, adding. After any history, adding a timer looks at no more cells than there are
pending timers, and one. -/
theorem add_cost_partial (cb : σ → Nat → Nat → Nat → Prog σ) (ops : List (Op σ)) (ts0 : Nat) (h0 : ts0 < INVALID) (s0 : σ)
    {c : Cfg} {s : σ} {es : List Ev} (h : run cb ops ⟨init ts0, []⟩ s0 = .ok (some (c, s, es))) (timeout : Nat) :
    ∃ k, addLooks c.t timeout = .ok k ∧ k ≤ (pend es).length + 1 := by
  obtain ⟨o, ho, hg⟩ := run_spec cb ops (s := s0) (repC_init h0)
  rw [h] at ho; cases ho
  obtain ⟨live, t1, r⟩ := hg _ _ _ rfl
  have hn : Names (pend es) live := Names.trace t1 ⟨List.nodup_nil, fun x => by simp⟩
  obtain ⟨k, h1, h2, -⟩ := addLooks_le r.rep hn timeout
  exact ⟨k, h1, h2⟩

/-! ## Many timers with the same timeout -/

/-- `n` timers with the same timeout are added, one after the other; with the number of cells
that are looked at. -/
def addMany (al : Alloc Nat) (timeout type data : Nat) : Nat → T → Res (T × Nat)
  | 0, t => .ok (t, 0)
  | n + 1, t => do
    let (t, k) ← addMany al timeout type data n t
    let k1 ← addLooks t timeout
    let (t, _) ← add al t timeout type data
    return (t, k + k1)

/-- The first `m` cells of the slot `p` are taken, the others are free. -/
structure Filled (t : T) (p m : Nat) : Prop where
  live : ∃ live, Rep t live ∧ (∀ q, q < m → live (mkid q p) ≠ none) ∧ ∀ q, m ≤ q → live (mkid q p) = none
  le : m ≤ t.wheel

theorem expand_some {fill : Nat → Nat} {t t' : T} (hw : t.wheel < 5592405) : expand (some fill) t ≠ .ok (false, t') := by
  intro h
  unfold expand at h
  obtain ⟨_, -, h⟩ := Res.bind_eq_ok.1 h
  rw [if_neg (by omega)] at h
  simp only at h
  split at h
  · obtain ⟨l, -, h⟩ := Res.bind_eq_ok.1 h
    cases h
  · cases h

theorem filled_add {t : T} {p m : Nat} (f : Filled t p m) {timeout type data : Nat} (hp : p = (timeout / 16 + t.head) % 16)
    (ht : timeout + t.timestamp < INVALID) (hm : m < 5592405) (fill : Nat → Nat) :
    ∃ t' k id, addLooks t timeout = .ok k ∧ m ≤ k ∧ add (some fill) t timeout type data = .ok (t', id) ∧ Filled t' p (m + 1) ∧
      t'.head = t.head ∧ t'.timestamp = t.timestamp := by
  obtain ⟨⟨live, r, hf1, hf2⟩, hle⟩ := f
  have hpos : (timeout / 16 + t.head) % W32 % 16 = (timeout / 16 + t.head) % 16 := by omega
  have hp16 : p < 16 := by omega
  have hup : ∀ q, (q < m + 1 → upd live (mkid m p) (some ⟨t.timestamp + timeout, type, data⟩) (mkid q p) ≠ none) ∧
      (m + 1 ≤ q → upd live (mkid m p) (some ⟨t.timestamp + timeout, type, data⟩) (mkid q p) = none) := by
    intro q
    unfold upd
    by_cases hq : q = m
    · rw [hq, if_pos rfl]; exact ⟨fun _ => by simp, fun h => by omega⟩
    · rw [if_neg (fun he => hq (id_inj hp16 hp16 he).1)]
      exact ⟨fun h => hf1 q (by omega), fun h => hf2 q (by omega)⟩
  unfold addLooks add
  simp only [hpos, ← hp]
  rw [mul32_idx hp16 r.wle, ← findFreeC_fst]
  rcases findFreeC_spec r hp16 t.wheel 0 (by omega) with ⟨h1, h2⟩ | ⟨s, h1, h2, h3, h4, h5⟩
  · -- the slot is full
    have hmw : m = t.wheel := by
      apply Classical.byContradiction
      intro hne
      exact h2 m (Nat.zero_le _) (by omega) (hf2 m (Nat.le_refl _))
    rw [h1]
    simp only [Res.ok_bind, Res.pure_eq]
    rcases expand_spec r (some fill) with he | ⟨t', he, r', hw, hh, hts, hnew⟩
    · exact absurd he (expand_some (by omega))
    · rw [he]
      simp only [Res.ok_bind, Bool.not_true, Bool.false_eq_true, if_false]
      rw [mul32_idx hp16 r'.wle, add32_idx hp16 hw r'.wle]
      obtain ⟨c, hc1, hc2⟩ := hnew p t.wheel hp16 (by omega) hw
      rw [rd_eq_ok.2 hc1, Res.ok_bind]
      simp only [hc2, decide_true, cassert_true, Res.ok_bind]
      obtain ⟨g1, g2⟩ := addAt_spec r' hp16 hw (timeout := timeout) (type := type) (data := data) (by rw [hts]; exact ht)
      refine ⟨_, _, _, rfl, by omega, g1, ⟨⟨_, g2, ?_⟩, by simp only; omega⟩, hh, hts⟩
      rw [hts, ← hmw]
      exact ⟨fun q => (hup q).1, fun q => (hup q).2⟩
  · have hsm : s = m := by
      have a : ¬ s < m := fun hlt => hf1 s hlt h4
      have b : ¬ m < s := fun hlt => h5 m (Nat.zero_le _) hlt (hf2 m (Nat.le_refl _))
      omega
    subst hsm
    rw [h3]
    simp only [Res.ok_bind, Res.pure_eq]
    rw [add32_idx hp16 h2 r.wle]
    obtain ⟨g1, g2⟩ := addAt_spec r hp16 h2 (type := type) (data := data) ht
    exact ⟨_, _, _, rfl, by omega, g1, ⟨⟨_, g2, fun q => (hup q).1, fun q => (hup q).2⟩, by simp only; omega⟩, rfl, rfl⟩

theorem addMany_spec {ts0 timeout type data : Nat} (ht : timeout + ts0 < INVALID) (fill : Nat → Nat) (n : Nat) (hn : n ≤ 5592405) :
    ∃ t k, addMany (some fill) timeout type data n (init ts0) = .ok (t, k) ∧ n * n ≤ 2 * k + n ∧ Filled t (timeout / 16 % 16) n ∧
      t.head = 0 ∧ t.timestamp = ts0 := by
  induction n with
  | zero =>
    refine ⟨init ts0, 0, rfl, by omega, ⟨⟨fun _ => none, (repC_init (by omega)).rep, fun q h => by omega, fun q _ => rfl⟩, Nat.zero_le _⟩, rfl, rfl⟩
  | succ n ih =>
    obtain ⟨t, k, h1, h2, f, hh, hts⟩ := ih (by omega)
    obtain ⟨t', k', id, g1, g2, g3, g4, g5, g6⟩ := filled_add f (timeout := timeout) (type := type) (data := data) (by rw [hh]; rfl)
      (by rw [hts]; exact ht) (by omega) fill
    refine ⟨t', k + k', ?_, ?_, g4, by omega, by omega⟩
    · rw [addMany, h1]
      simp only [Res.ok_bind, g1, g3, Res.pure_eq]
    · have : (n + 1) * (n + 1) = n * n + 2 * n + 1 := by grind
      omega

/-- **C138 is violated** as a promise that adding is cheap: timers with the same timeout wait
in the same slot, and each new one looks at all that are there. Adding `n` of them looks at
`n·(n−1)/2` cells at least. -/
theorem same_timeout_violated {ts0 timeout : Nat} (ht : timeout + ts0 < INVALID) (type data : Nat) (fill : Nat → Nat) {n : Nat}
    (hn : n ≤ 5592405) :
    ∃ t k, addMany (some fill) timeout type data n (init ts0) = .ok (t, k) ∧ n * (n - 1) / 2 ≤ k := by
  obtain ⟨t, k, h1, h2, -⟩ := addMany_spec ht (type := type) (data := data) fill n hn
  refine ⟨t, k, h1, ?_⟩
  have : n * (n - 1) = n * n - n := by rw [Nat.mul_sub_one]
  omega

/-! ## What polling costs -/

/-- `slots` (timer/sc_timer.c:181-202) with the number of cells that are looked at: the inner
loop looks at each of the `wheel` cells of the slot once. -/
def slotsC (cb : σ → Nat → Nat → Nat → Prog σ) : (wheels head : Nat) → Cfg → σ → Res (Out σ × Nat)
  | 0, _, c, s => .ok (some (c, s, []), 0)
  | n + 1, head, c, s => do
    let w := c.t.wheel
    let r ← cells cb head c.t.wheel 0 (mul32 c.t.wheel head) c s
    match r with
    | none => .ok (none, w)
    | some (c, s, es) =>
      let (o, k) ← slotsC cb n ((head + 1) % WHEEL_COUNT) c s
      return (o.map fun (c, s, es') => (c, s, es ++ es'), w + k)

/-- The counting does not change the sweep. -/
theorem slotsC_fst (cb : σ → Nat → Nat → Nat → Prog σ) (n : Nat) : ∀ head c s,
    (do let (o, _) ← slotsC cb n head c s; return o) = slots cb n head c s := by
  induction n with
  | zero => intro head c s; rfl
  | succ n ih =>
    intro head c s
    rw [slotsC, slots]
    cases cells cb head c.t.wheel 0 (mul32 c.t.wheel head) c s with
    | ub => rfl
    | ok o =>
      simp only [Res.ok_bind]
      cases o with
      | none => rfl
      | some v =>
        obtain ⟨c1, s1, es1⟩ := v
        simp only
        rw [← ih]
        cases slotsC cb n ((head + 1) % 16) c1 s1 with
        | ub => rfl
        | ok v => rfl

/-- `sc_timer_timeout` (timer/sc_timer.c:163-204) with the number of cells that are looked at
in place of the return value. -/
def timeoutC (cb : σ → Nat → Nat → Nat → Prog σ) (ts : Nat) (c : Cfg) (s : σ) : Res (Out σ × Nat) := do
  let time := sub64 ts c.t.timestamp
  let wheels := (if time / TICK < WHEEL_COUNT then time / TICK else WHEEL_COUNT) % W32
  if wheels = 0 then return (some (c, s, []), 0)
  let head := c.t.head
  let t := { c.t with timestamp := ts, head := (add32 c.t.head wheels) % WHEEL_COUNT }
  let (o, k) ← slotsC cb wheels head { c with t := t } s
  return (o.map fun (c, s, es) => (c, s, [.now ts] ++ es), k)

/-- The counting does not change the poll. -/
theorem timeoutC_fst (cb : σ → Nat → Nat → Nat → Prog σ) (ts : Nat) (c : Cfg) (s : σ) :
    (do let (o, _) ← timeoutC cb ts c s; return o) = (do let (o, _) ← timeout cb ts c s; return o) := by
  unfold timeoutC timeout
  simp only
  generalize (if sub64 ts c.t.timestamp / TICK < WHEEL_COUNT then sub64 ts c.t.timestamp / TICK else WHEEL_COUNT) % W32 = w
  by_cases h0 : w = 0
  · simp only [if_pos h0, Res.pure_eq, Res.ok_bind]
  · simp only [if_neg h0, ← slotsC_fst]
    generalize slotsC cb _ _ _ _ = x
    cases x with
    | ub => simp only [Res.ub_bind, pre]
    | ok v => simp only [Res.ok_bind, Res.pure_eq, pre]

theorem slotsC_le (cb : σ → Nat → Nat → Nat → Prog σ) (n : Nat) : ∀ {head : Nat} {c : Cfg} {live : Nat → Option Entry} {s : σ},
    head < 16 → RepC c live → ∀ {c' s' es k}, slotsC cb n head c s = .ok (some (c', s', es), k) →
      k ≤ n * c'.t.wheel ∧ n * c.t.wheel ≤ k ∧ c.t.wheel ≤ c'.t.wheel := by
  induction n with
  | zero => intro head c live s _ r c' s' es k h; cases h; omega
  | succ n ih =>
    intro head c live s hh r c' s' es k h
    rw [slotsC] at h
    obtain ⟨o, ho, h⟩ := Res.bind_eq_ok.1 h
    cases o with
    | none => cases h
    | some v =>
      obtain ⟨c1, s1, es1⟩ := v
      simp only at h
      obtain ⟨⟨o2, k2⟩, h2, h⟩ := Res.bind_eq_ok.1 h
      cases o2 with
      | none => cases h
      | some v2 =>
        obtain ⟨c2, s2, es2⟩ := v2
        cases h
        obtain ⟨o', ho', hg⟩ := cells_spec cb hh c.t.wheel (i := 0) (s := s) r (by omega)
        rw [ho] at ho'; cases ho'
        obtain ⟨live1, g1, -⟩ := hg _ _ _ rfl
        obtain ⟨a1, a2, a3⟩ := ih (Nat.mod_lt _ (by decide)) g1.rep h2
        have := g1.wheel
        have e1 := Nat.mul_le_mul_left n this
        simp only
        refine ⟨?_, ?_, by omega⟩ <;> rw [Nat.succ_mul] <;> omega

/-- **C138**, polling. A poll looks at no more cells than sixteen slots of the wheel have, so
at `32·(N − 1)` or 64, if never more than `N` timers were pending at the same moment. -/
theorem poll_cost_partial (cb : σ → Nat → Nat → Nat → Prog σ) (ops : List (Op σ)) (ts0 : Nat) (h0 : ts0 < INVALID) (s0 : σ)
    {c c' : Cfg} {s s' : σ} {es es' : List Ev} (h : run cb ops ⟨init ts0, []⟩ s0 = .ok (some (c, s, es))) {ts k : Nat}
    (hts : c.t.timestamp ≤ ts) (hti : ts < INVALID) (hp : timeoutC cb ts c s = .ok (some (c', s', es'), k)) {N : Nat}
    (hN : ∀ es1, es1 <+: es ++ es' → (pend es1).length ≤ N) : k ≤ max 64 (32 * (N - 1)) := by
  obtain ⟨o, ho, hg⟩ := run_spec cb ops (s := s0) (repC_init h0)
  rw [h] at ho; cases ho
  obtain ⟨live, t1, r⟩ := hg _ _ _ rfl
  have hn0 : Names [] (fun _ : Nat => (none : Option Entry)) := ⟨List.nodup_nil, fun x => by simp⟩
  have hn : Names (pend es) live := Names.trace t1 hn0
  have g := (run_grow cb ops (l := []) (repC_init h0) hn0 h).1
  have hstep : step cb c s (.timeout ts) = .ok (some (c', s', es')) := by
    rw [step, if_pos ⟨hts, hti⟩, ← timeoutC_fst, hp]; rfl
  have g2 := step_grow cb r hn hstep
  have hk : k ≤ 16 * c'.t.wheel := by
    unfold timeoutC at hp
    simp only at hp
    generalize hw : (if sub64 ts c.t.timestamp / TICK < WHEEL_COUNT then sub64 ts c.t.timestamp / TICK else WHEEL_COUNT) % W32 = w at hp
    have hw16 : w ≤ 16 := by rw [← hw]; split <;> omega
    split at hp
    · cases hp; omega
    · obtain ⟨⟨o2, k2⟩, h2, hp⟩ := Res.bind_eq_ok.1 hp
      cases o2 with
      | none => cases hp
      | some v =>
        obtain ⟨c2, s2, es2⟩ := v
        cases hp
        have r1 : RepC { c with t := { c.t with timestamp := ts, head := add32 c.t.head w % WHEEL_COUNT } } live :=
          ⟨⟨r.rep.len, r.rep.wle, Nat.mod_lt _ (by decide), hti, r.rep.cell, r.rep.dom⟩, r.issued⟩
        have := (slotsC_le cb w r.rep.head r1 h2).1
        exact Nat.le_trans this (Nat.mul_le_mul_right _ hw16)
  have gg := g.step (l := []) g2
  rcases gg with gg | gg | ⟨es1, hpre, gg⟩
  · rw [gg] at hk; simp [init] at hk; omega
  · omega
  · have := hN es1 hpre
    unfold pend at this
    omega

/-- **C138 is violated** for polling: the wheel never shrinks. After `n` timers were added and
all of them removed, so that none is pending, the poll of a single tick still looks at `n`
cells or more, each time. -/
theorem poll_idle_violated (cb : σ → Nat → Nat → Nat → Prog σ) (s : σ) {ts0 timeout : Nat} (ht : timeout + ts0 < INVALID) (h16 : ts0 + 16 < INVALID)
    (type data : Nat) (fill : Nat → Nat) {n : Nat} (hn : n ≤ 5592405) :
    ∃ t t' k looks, addMany (some fill) timeout type data n (init ts0) = .ok (t, k) ∧ clear t = .ok t' ∧ Rep t' (fun _ => none) ∧
      ∃ o, timeoutC cb (ts0 + 16) ⟨t', []⟩ s = .ok (o, looks) ∧ n ≤ looks := by
  obtain ⟨t, k, h1, h2, f, hh, hts⟩ := addMany_spec ht (type := type) (data := data) fill n hn
  obtain ⟨live, r, -⟩ := f.live
  obtain ⟨t', hc, r', hts', hw⟩ := clear_spec r
  have hle := f.le
  refine ⟨t, t', k, t'.wheel, h1, hc, r', ?_⟩
  have htime : sub64 (ts0 + 16) t'.timestamp = 16 := by rw [hts', hts]; unfold sub64; omega
  unfold timeoutC
  simp only [htime]
  have r1 : RepC ⟨{ t' with timestamp := ts0 + 16, head := add32 t'.head 1 % 16 }, []⟩ (fun _ => none) :=
    ⟨⟨r'.len, r'.wle, Nat.mod_lt _ (by decide), h16, r'.cell, r'.dom⟩, fun id h => by cases h⟩
  obtain ⟨o, ho, -⟩ := cells_spec cb r'.head t'.wheel (i := 0) (s := s) r1 (by simp only; omega)
  rw [show (if 16 / 16 < 16 then 16 / 16 else 16) % W32 = 1 from rfl, if_neg (by decide)]
  simp only [slotsC]
  simp only at ho
  rw [ho, Res.ok_bind]
  cases o with
  | none => exact ⟨_, rfl, by omega⟩
  | some v => obtain ⟨c1, s1, es1⟩ := v; exact ⟨_, rfl, by omega⟩

/-! ## Examples -/

/-- A program that adds `n` timers with the same timeout. -/
def sameProg (timeout : Nat) : Nat → Prog Unit
  | 0 => .ret ()
  | n + 1 => .add (some fun _ => 0) timeout 0 0 fun _ => sameProg timeout n

/-- Five timers in one slot: the array has `64·(5 − 1)` cells, which is the bound. -/
example : (match run (σ := Unit) (fun s _ _ _ => .ret s) [.call fun _ => sameProg 40 5] ⟨init 1000, []⟩ () with
    | .ok (some (c, _, es)) => decide (c.t.list.length = 256 ∧ (pend es).length = 5)
    | _ => false) = true := by decide +kernel

/-- Added and fired, again and again: the array keeps its first size. -/
example : (match run (σ := Unit) (fun s _ _ _ => .ret s)
      [.call fun _ => sameProg 10 4, .timeout 1016, .call fun _ => sameProg 10 4, .timeout 1032, .call fun _ => sameProg 10 4]
      ⟨init 1000, []⟩ () with
    | .ok (some (c, _, es)) => decide (c.t.list.length = 128 ∧ (pend es).length = 4 ∧
        (es.filter fun e => match e with | .add .. => true | _ => false).length = 12)
    | _ => false) = true := by decide +kernel

example : (match addMany (some fun _ => 0) 40 0 0 9 (init 1000) with
    | .ok (t, k) => decide (t.wheel = 16 ∧ k = 42)
    | .ub => false) = true := by decide +kernel

end Verif.Timer
