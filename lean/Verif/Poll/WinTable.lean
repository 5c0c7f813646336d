import Verif.Poll.Win

/-! # What changes of the table of the Windows poller do -/

namespace Verif.Poll.Win

open Table (dataInner size capacity in_bounds injective)

/-- The chunks below and at `k` exist, with their sizes; the others do not. -/
structure Chunks (ch : List (Option (List (Option PData)))) (k : Nat) : Prop where
  len : ch.length = 16
  have' : ∀ x, x ≤ k → ∃ l, ch[x]? = some (some l) ∧ l.length = size x
  not : ∀ x, k < x → x < 16 → ch[x]? = some none

/-- The shape of the memory -/
structure Shape (p : P) (ev : List Slot) (k : Nat) : Prop where
  events : p.events = some ev
  klt : k < 16
  cap : p.cap = capacity k
  len : ev.length = p.cap
  chunks : Chunks p.chunks k

def valid (s : Slot) : Bool := s.fd ≠ INVALID

/-- A table in order: every entry in use is complete and knows its number, and their number is known. -/
structure Wf (p : P) (ev : List Slot) (k : Nat) : Prop extends Shape p ev k where
  count : p.count = ev.countP valid
  cells : ∀ i s, ev[i]? = some s → s.fd ≠ INVALID → ∃ b r c, s.ev = some b ∧ s.rev = some r ∧
    getCell p (dataInner i) = .ok c ∧ c.index = i

/-- The members that changes of the table leave alone -/
structure Same (p p' : P) : Prop where
  ops : p'.ops = p.ops
  opsCap : p'.opsCap = p.opsCap
  polling : p'.polling = p.polling
  remaining : p'.remaining = p.remaining
  offset : p'.offset = p.offset

theorem Same.refl (p : P) : Same p p := ⟨rfl, rfl, rfl, rfl, rfl⟩

theorem Same.trans {p q r : P} (h : Same p q) (h' : Same q r) : Same p r :=
  ⟨h'.ops.trans h.ops, h'.opsCap.trans h.opsCap, h'.polling.trans h.polling, h'.remaining.trans h.remaining, h'.offset.trans h.offset⟩

/-- Entry `i`, if it is in use -/
def entry (p : P) (i : Nat) : Option (Slot × PData) :=
  match p.events with
  | none => none
  | some ev =>
    match ev[i]? with
    | none => none
    | some s =>
      if s.fd = INVALID then none
      else
        match getCell p (dataInner i) with
        | .ok c => some (s, c)
        | .ub => none

theorem entry_some {p : P} {ev : List Slot} (he : p.events = some ev) {i : Nat} {s : Slot} {c : PData} :
    entry p i = some (s, c) ↔ ev[i]? = some s ∧ s.fd ≠ INVALID ∧ getCell p (dataInner i) = .ok c := by
  unfold entry
  rw [he]
  simp only
  cases hs : ev[i]? with
  | none => simp
  | some s' =>
    simp only
    by_cases hf : s'.fd = INVALID
    · rw [if_pos hf]; simp; rintro rfl hc; exact absurd hf hc
    · rw [if_neg hf]
      cases hc : getCell p (dataInner i) with
      | ub => simp
      | ok c' => simp; rintro rfl rfl; exact hf

theorem Wf.entry_none {p : P} {ev : List Slot} {k : Nat} (h : Wf p ev k) {i : Nat} :
    entry p i = none ↔ ∀ s, ev[i]? = some s → s.fd = INVALID := by
  constructor
  · intro he s hs
    apply Decidable.byContradiction
    intro hf
    obtain ⟨_, _, c, -, -, hc, -⟩ := h.cells i s hs hf
    have := (entry_some h.events (c := c)).2 ⟨hs, hf, hc⟩
    rw [he] at this
    cases this
  · intro hh
    cases he : entry p i with
    | none => rfl
    | some q =>
      obtain ⟨s, c⟩ := q
      obtain ⟨h1, h2, -⟩ := (entry_some h.events).1 he
      exact absurd (hh s h1) h2

theorem cap_lt {p : P} {ev : List Slot} {k : Nat} (h : Shape p ev k) : p.cap ≤ 524288 := by
  rw [h.cap]
  have : 2 ^ k ≤ 2 ^ 15 := Nat.pow_le_pow_right (by decide) (by have := h.klt; omega)
  unfold capacity
  omega

theorem dataInner_inj {p : P} {ev : List Slot} {k : Nat} (h : Shape p ev k) {i j : Nat} (hi : i < p.cap) (hj : j < p.cap)
    (hd : dataInner i = dataInner j) : i = j := by
  have := cap_lt h
  exact injective (by omega) (by omega) hd

theorem Wf.lt {p : P} {ev : List Slot} {k : Nat} (h : Wf p ev k) {i : Nat} {q : Slot × PData} (he : entry p i = some q) : i < p.cap := by
  obtain ⟨s, c⟩ := q
  have := ((entry_some h.events).1 he).1
  have := (List.getElem?_eq_some_iff.1 this).1
  rw [h.len] at this
  exact this

theorem getSlot_ok {p : P} {ev : List Slot} {k : Nat} (h : Shape p ev k) {i : Nat} {s : Slot} (hs : ev[i]? = some s) :
    getSlot p i = .ok s := by
  unfold getSlot
  rw [h.events]
  exact rd_eq_ok.2 hs

theorem setSlot_ok {p : P} {ev : List Slot} {k : Nat} (h : Shape p ev k) {i : Nat} (hi : i < p.cap) (s : Slot) :
    setSlot p i s = .ok { p with events := some (ev.set i s) } ∧ Shape { p with events := some (ev.set i s) } (ev.set i s) k := by
  unfold setSlot
  rw [h.events]
  simp only
  rw [wr_lt (by rw [h.len]; exact hi)]
  exact ⟨rfl, ⟨rfl, h.klt, h.cap, by rw [List.length_set]; exact h.len, h.chunks⟩⟩

theorem setCell_ok {p : P} {ev : List Slot} {k : Nat} (h : Shape p ev k) {i : Nat} (hi : i < p.cap) (c : PData) :
    ∃ ch, setCell p (dataInner i) c = .ok { p with chunks := ch } ∧ Shape { p with chunks := ch } ev k ∧
      getCell { p with chunks := ch } (dataInner i) = .ok c ∧
      (∀ j, j < p.cap → j ≠ i → getCell { p with chunks := ch } (dataInner j) = getCell p (dataInner j)) := by
  obtain ⟨b1, b2⟩ := in_bounds h.klt (by rw [← h.cap]; exact hi)
  obtain ⟨l, h1, h2⟩ := h.chunks.have' _ b1
  have hlen : (dataInner i).1 < p.chunks.length := by rw [h.chunks.len]; have := h.klt; omega
  unfold setCell
  rw [rd_eq_ok.2 h1]
  simp only [Res.ok_bind]
  rw [wr_lt (by rw [h2]; exact b2)]
  simp only [Res.ok_bind]
  rw [wr_lt hlen]
  simp only [Res.ok_bind]
  refine ⟨_, rfl, ⟨h.events, h.klt, h.cap, h.len, ⟨by rw [List.length_set]; exact h.chunks.len, ?_, ?_⟩⟩, ?_, ?_⟩
  · intro x hx
    by_cases hxi : x = (dataInner i).1
    · subst hxi
      exact ⟨_, List.getElem?_set_self hlen, by rw [List.length_set]; exact h2⟩
    · obtain ⟨l', h3, h4⟩ := h.chunks.have' x hx
      exact ⟨l', by rw [List.getElem?_set_ne (Ne.symm hxi)]; exact h3, h4⟩
  · intro x hx hx'
    rw [List.getElem?_set_ne (by omega)]
    exact h.chunks.not x hx hx'
  · unfold getCell
    simp only
    rw [rd_eq_ok.2 (List.getElem?_set_self hlen)]
    simp only [Res.ok_bind]
    rw [rd_eq_ok.2 (List.getElem?_set_self (by rw [h2]; exact b2))]
    rfl
  · intro j hj hji
    have hne : dataInner j ≠ dataInner i := fun hc => hji (dataInner_inj h hj hi hc)
    unfold getCell
    simp only
    by_cases hx : (dataInner j).1 = (dataInner i).1
    · rw [hx, rd_eq_ok.2 (List.getElem?_set_self hlen), rd_eq_ok.2 h1]
      simp only [Res.ok_bind]
      have hy : (dataInner i).2 ≠ (dataInner j).2 := fun hc => hne (Prod.ext hx hc.symm)
      unfold rd
      rw [List.getElem?_set_ne hy]
    · unfold rd
      rw [List.getElem?_set_ne (Ne.symm hx)]

theorem getCell_events (p : P) (e : Option (List Slot)) (a : Nat × Nat) : getCell { p with events := e } a = getCell p a := rfl
theorem getCell_count (p : P) (n : Nat) (a : Nat × Nat) : getCell { p with count := n } a = getCell p a := rfl

theorem countP_set {ev : List Slot} {i : Nat} {s s' : Slot} (h : ev[i]? = some s) :
    (ev.set i s').countP valid + (if valid s then 1 else 0) = ev.countP valid + (if valid s' then 1 else 0) := by
  induction ev generalizing i with
  | nil => simp at h
  | cons a l ih =>
    cases i with
    | zero =>
      simp only [List.getElem?_cons_zero, Option.some.injEq] at h
      subst h
      simp only [List.set_cons_zero, List.countP_cons]
      omega
    | succ i =>
      simp only [List.getElem?_cons_succ] at h
      simp only [List.set_cons_succ, List.countP_cons]
      have := ih h
      omega

/-- What the end of `sc_sock_poll_add` does to entry `i` -/
theorem addEnd_ok {p : P} {ev : List Slot} {k : Nat} (h : Shape p ev k) {i : Nat} {s : Slot} (hs : ev[i]? = some s) {c : PData}
    (hc : getCell p (dataInner i) = .ok c) (mask : Bits) (data : Nat) (f : Fdt) :
    ∃ p', addEnd mask i (dataInner i) data f p = .ok (0, { f with op := mask }, p') ∧
      Shape p' (ev.set i { s with ev := some (pollBits mask), rev := some Rev.zero }) k ∧ p'.count = p.count ∧ Same p p' ∧ p'.cap = p.cap ∧
      p'.n = p.n ∧
      getCell p' (dataInner i) = .ok { c with edge := if mask &&& EDGE ≠ 0 then c.edge ||| EDGE else c.edge, data := data } ∧
      (∀ j, j < p.cap → j ≠ i → getCell p' (dataInner j) = getCell p (dataInner j)) := by
  have hi : i < p.cap := by rw [← h.len]; exact (List.getElem?_eq_some_iff.1 hs).1
  unfold addEnd
  rw [getSlot_ok h hs]
  simp only [Res.ok_bind]
  obtain ⟨e1, h1⟩ := setSlot_ok h hi { s with ev := some (pollBits mask), rev := some Rev.zero }
  rw [e1]
  simp only [Res.ok_bind]
  rw [getCell_events, hc]
  simp only [Res.ok_bind]
  obtain ⟨ch, e2, h2, h3, h4⟩ := setCell_ok h1 (i := i) hi
    { c with edge := if mask &&& EDGE ≠ 0 then c.edge ||| EDGE else c.edge, data := data }
  rw [e2]
  exact ⟨_, rfl, h2, rfl, ⟨rfl, rfl, rfl, rfl, rfl⟩, rfl, rfl, h3, h4⟩

/-- What an object that is waited for has in the table; an object that is not has nothing. -/
structure Owns (p : P) (f : Fdt) (i : Nat) (s : Slot) (c : PData) : Prop where
  pd : f.pd = some (dataInner i)
  entry : entry p i = some (s, c)
  fd : s.fd = f.fd
  ev : s.ev = some (pollBits f.op)
  edge : c.edge &&& EDGE ≠ 0 ↔ f.op &&& EDGE ≠ 0
  level : c.edge &&& EDGE = 0 → c.edge = NONE

structure Held (p : P) (f : Fdt) : Prop where
  normal : f.op.Normal
  fd : f.fd ≠ INVALID
  none : f.op = NONE ↔ f.pd = none
  owns : f.op ≠ NONE → ∃ i s c, Owns p f i s c

theorem Owns.lt {p : P} {ev : List Slot} {k : Nat} (h : Wf p ev k) {f : Fdt} {i : Nat} {s : Slot} {c : PData} (ho : Owns p f i s c) :
    i < p.cap := h.lt ho.entry

theorem Owns.index {p : P} {ev : List Slot} {k : Nat} (h : Wf p ev k) {f : Fdt} {i : Nat} {s : Slot} {c : PData} (ho : Owns p f i s c) :
    getCell p (dataInner i) = .ok c ∧ c.index = i ∧ ev[i]? = some s ∧ s.fd ≠ INVALID := by
  obtain ⟨h1, h2, h3⟩ := (entry_some h.events).1 ho.entry
  obtain ⟨_, _, c', -, -, h4, h5⟩ := h.cells i s h1 h2
  rw [h3] at h4
  cases h4
  exact ⟨h3, h5, h1, h2⟩

/-- Changing one entry keeps the table in order. -/
theorem wf_set {p p' : P} {ev : List Slot} {k : Nat} (h : Wf p ev k) {i : Nat} {s s' : Slot} {c' : PData} (hs : ev[i]? = some s)
    (hsh : Shape p' (ev.set i s') k)
    (hcount : p'.count + (if valid s then 1 else 0) = p.count + (if valid s' then 1 else 0))
    (hc : getCell p' (dataInner i) = .ok c')
    (hnew : s'.fd ≠ INVALID → s'.ev.isSome = true ∧ s'.rev.isSome = true ∧ c'.index = i)
    (hothers : ∀ j, j < p.cap → j ≠ i → getCell p' (dataInner j) = getCell p (dataInner j)) :
    Wf p' (ev.set i s') k ∧ entry p' i = (if s'.fd = INVALID then none else some (s', c')) ∧ (∀ j, j ≠ i → entry p' j = entry p j) := by
  have hi : i < ev.length := (List.getElem?_eq_some_iff.1 hs).1
  refine ⟨⟨hsh, ?_, ?_⟩, ?_, ?_⟩
  · have := countP_set (s' := s') hs
    have := h.count
    omega
  · intro j t ht hf
    by_cases hj : j = i
    · subst hj
      rw [List.getElem?_set_self hi] at ht
      cases ht
      obtain ⟨h1, h2, h3⟩ := hnew hf
      obtain ⟨b, hb⟩ := Option.isSome_iff_exists.1 h1
      obtain ⟨r, hr⟩ := Option.isSome_iff_exists.1 h2
      exact ⟨b, r, c', hb, hr, hc, h3⟩
    · rw [List.getElem?_set_ne (Ne.symm hj)] at ht
      obtain ⟨b, r, c, h1, h2, h3, h4⟩ := h.cells j t ht hf
      have hjl : j < p.cap := by rw [← h.len]; exact (List.getElem?_eq_some_iff.1 ht).1
      exact ⟨b, r, c, h1, h2, by rw [hothers j hjl hj]; exact h3, h4⟩
  · unfold entry
    rw [hsh.events]
    simp only
    rw [List.getElem?_set_self hi]
    simp only
    split
    · rfl
    · rw [hc]
  · intro j hj
    unfold entry
    rw [hsh.events, h.events]
    simp only
    rw [List.getElem?_set_ne (Ne.symm hj)]
    cases ht : ev[j]? with
    | none => rfl
    | some t =>
      have hjl : j < p.cap := by rw [← h.len]; exact (List.getElem?_eq_some_iff.1 ht).1
      simp only
      rw [hothers j hjl hj]

theorem freeChunk_eq {ch : List (Option (List (Option PData)))} {k : Nat} (h : Chunks ch k) (hk : k + 1 < 16) : freeChunk ch = some (k + 1) := by
  unfold freeChunk
  rw [show (List.range 16).drop 1 = List.range' 1 15 by decide]
  have key : ∀ n m, m ≤ k + 1 → k + 1 < m + n → m + n ≤ 16 →
      (List.range' m n).find? (fun x => ch[x]? == some none) = some (k + 1) := by
    intro n
    induction n with
    | zero => intro m h1 h2 h3; omega
    | succ n ih =>
      intro m h1 h2 h3
      rw [List.range'_succ, List.find?_cons]
      by_cases hm : m = k + 1
      · subst hm
        rw [h.not _ (by omega) (by omega)]
        simp
      · obtain ⟨l, h4, -⟩ := h.have' m (by omega)
        rw [h4]
        exact ih (m + 1) (by omega) (by omega) (by omega)
  exact key 15 1 (by omega) (by omega) (by omega)

/-- `sc_sock_poll_expand` makes room, keeps the entries, and leaves the table in order. -/
theorem expand_ok {e : Env} (he : ∀ n, e.alloc n = true) {p : P} {ev : List Slot} {k : Nat} (h : Wf p ev k) (hroom : p.count < 524288) :
    ∃ p' ev' k', expand e p = .ok (true, p') ∧ Wf p' ev' k' ∧ Same p p' ∧ p'.count = p.count ∧ p'.count < p'.cap ∧ p.cap ≤ p'.cap ∧
      (∀ i, entry p' i = entry p i) := by
  have hle : p.count ≤ p.cap := by
    rw [h.count, ← h.len]
    exact List.countP_le_length
  unfold expand
  by_cases hfull : p.count = p.cap
  · rw [if_pos hfull, if_neg (by omega)]
    have hk : k + 1 < 16 := by
      apply Decidable.byContradiction
      intro hc
      have : k = 15 := by have := h.klt; omega
      have hcap := h.cap
      rw [this] at hcap
      have : capacity 15 = 524288 := by decide
      omega
    rw [h.events]
    simp only
    rw [if_neg (by simp [he]), freeChunk_eq h.chunks hk]
    simp only
    rw [if_neg (by simp [he])]
    have hcap2 : p.cap * 2 = capacity (k + 1) := by rw [h.cap]; unfold capacity; rw [Nat.pow_succ]; omega
    have hsize : size (k + 1) = p.cap := by rw [h.cap]; rfl
    have hcell : ∀ i, i < p.cap →
        getCell { p with n := p.n + 2, chunks := p.chunks.set (k + 1) (some (List.replicate p.cap none)),
                         events := some (ev ++ List.replicate p.cap ⟨INVALID, none, none⟩), cap := p.cap * 2 } (dataInner i) =
        getCell p (dataInner i) := by
      intro i hi
      obtain ⟨b1, -⟩ := in_bounds h.klt (by rw [← h.cap]; exact hi)
      unfold getCell rd
      simp only
      rw [List.getElem?_set_ne (by omega)]
    have hev : ∀ (i : Nat) (s : Slot), (ev ++ List.replicate p.cap (⟨INVALID, none, none⟩ : Slot))[i]? = some s → s.fd ≠ INVALID → ev[i]? = some s := by
      intro i s hs hf
      rw [List.getElem?_append] at hs
      split at hs
      · exact hs
      · have := List.mem_of_getElem? hs
        rw [List.mem_replicate] at this
        rw [this.2] at hf
        exact absurd rfl hf
    refine ⟨_, ev ++ List.replicate p.cap ⟨INVALID, none, none⟩, k + 1, rfl, ⟨⟨rfl, hk, hcap2, ?_, ⟨?_, ?_, ?_⟩⟩, ?_, ?_⟩,
      ⟨rfl, rfl, rfl, rfl, rfl⟩, rfl, ?_, ?_, ?_⟩
    · rw [List.length_append, List.length_replicate, h.len]; simp only; omega
    · rw [List.length_set]; exact h.chunks.len
    · intro x hx
      by_cases hxk : x = k + 1
      · subst hxk
        exact ⟨_, List.getElem?_set_self (by rw [h.chunks.len]; exact hk), by rw [List.length_replicate, hsize]⟩
      · simp only
        rw [List.getElem?_set_ne (Ne.symm hxk)]
        exact h.chunks.have' x (by omega)
    · intro x hx hx'
      simp only
      rw [List.getElem?_set_ne (by omega)]
      exact h.chunks.not x (by omega) hx'
    · rw [List.countP_append, ← h.count, List.countP_replicate]
      simp [valid]
    · intro i s hs hf
      have hs' := hev i s hs hf
      obtain ⟨b, r, c, h1, h2, h3, h4⟩ := h.cells i s hs' hf
      have hi : i < p.cap := by rw [← h.len]; exact (List.getElem?_eq_some_iff.1 hs').1
      exact ⟨b, r, c, h1, h2, by rw [hcell i hi]; exact h3, h4⟩
    · simp only
      have : 1 ≤ 2 ^ k := Nat.one_le_two_pow
      have hcap := h.cap
      unfold capacity at hcap
      omega
    · simp only; omega
    · intro i
      unfold entry
      rw [h.events]
      simp only
      by_cases hi : i < ev.length
      · rw [List.getElem?_append_left hi]
        rw [hcell i (by rw [← h.len]; exact hi)]
      · rw [List.getElem?_eq_none (Nat.le_of_not_lt hi)]
        cases ht : (ev ++ List.replicate p.cap (⟨INVALID, none, none⟩ : Slot))[i]? with
        | none => rfl
        | some t =>
          simp only
          by_cases hf : t.fd = INVALID
          · rw [if_pos hf]
          · have := hev i t ht hf
            rw [List.getElem?_eq_none (Nat.le_of_not_lt hi)] at this
            cases this
  · rw [if_neg hfull]
    exact ⟨p, ev, k, rfl, h, Same.refl p, rfl, by omega, Nat.le_refl _, fun _ => rfl⟩

/-- There is an entry that is not used if not all are. -/
theorem freeSlot_ok {p : P} {ev : List Slot} {k : Nat} (h : Wf p ev k) (hlt : p.count < p.cap) :
    ∃ i s, freeSlot p = .ok (some i) ∧ ev[i]? = some s ∧ s.fd = INVALID := by
  unfold freeSlot
  rw [h.events]
  simp only
  rw [List.take_of_length_le (by rw [h.len]; exact Nat.le_refl _)]
  cases hf : ev.findIdx? (fun s => decide (s.fd = INVALID)) with
  | none =>
    rw [List.findIdx?_eq_none_iff] at hf
    have : ev.countP valid = ev.length := by
      rw [List.countP_eq_length]
      intro a ha
      have := hf a ha
      simp only [decide_eq_false_iff_not] at this
      simp [valid, this]
    have := h.count
    have := h.len
    omega
  | some i =>
    rw [List.findIdx?_eq_some_iff_getElem] at hf
    obtain ⟨hi, h1, -⟩ := hf
    exact ⟨i, ev[i], rfl, List.getElem?_eq_getElem hi, by simpa using h1⟩

theorem or_edge {op evs : Bits} (h : op ≠ dropEdge (op ||| evs)) (hn : op ≠ EDGE) : dropEdge (op ||| evs) ≠ NONE := by
  revert op evs; decide

/-- The edge mask after `sc_sock_poll_add` -/
theorem edge_add (op evs old : Bits) (h0 : op = NONE → old = NONE) (h1 : old &&& EDGE ≠ 0 ↔ op &&& EDGE ≠ 0) (h2 : old &&& EDGE = 0 → old = NONE)
    (hne : op ≠ dropEdge (op ||| evs)) (hn : op ≠ EDGE) :
    let m := dropEdge (op ||| evs)
    let new := if m &&& EDGE ≠ 0 then old ||| EDGE else old
    (new &&& EDGE ≠ 0 ↔ m &&& EDGE ≠ 0) ∧ (new &&& EDGE = 0 → new = NONE) := by
  revert op evs old; decide

/-- `sc_sock_poll_add` when nobody polls -/
theorem addNow_ok {e : Env} (he : ∀ n, e.alloc n = true) {p : P} {ev : List Slot} {k : Nat} (h : Wf p ev k) {f : Fdt} (hf : Held p f)
    (hroom : f.op = NONE → p.count < 524288) (evs : Bits) (data : Nat) :
    ∃ f' p' ev' k', addNow e evs data f p = .ok (0, f', p') ∧ Wf p' ev' k' ∧ Same p p' ∧ Held p' f' ∧ f'.fd = f.fd ∧
      f'.opIndex = f.opIndex ∧ f'.op = dropEdge (f.op ||| evs) ∧ p'.count ≤ p.count + (if f.op = NONE then 1 else 0) ∧ p.cap ≤ p'.cap ∧
      (f' = f ∧ p' = p ∨ f'.op ≠ f.op ∧ f'.op ≠ NONE ∧ ∃ i s c, Owns p' f' i s c ∧ s.rev = some Rev.zero ∧ c.data = data ∧
        (f.op = NONE → entry p i = none) ∧ (f.op ≠ NONE → f.pd = some (dataInner i)) ∧ (∀ j, j ≠ i → entry p' j = entry p j)) := by
  unfold addNow
  simp only
  by_cases hm : f.op = dropEdge (f.op ||| evs)
  · rw [if_pos hm]
    exact ⟨f, p, ev, k, rfl, h, Same.refl p, hf, rfl, rfl, hm, by omega, Nat.le_refl _, .inl ⟨rfl, rfl⟩⟩
  · rw [if_neg hm]
    have hne := or_edge hm hf.normal
    by_cases h0 : f.op = NONE
    · rw [if_pos h0]
      obtain ⟨p1, ev1, k1, e1, w1, s1, c1, l1, cap1, en1⟩ := expand_ok he h (hroom h0)
      rw [e1]
      simp only [Res.ok_bind]
      rw [if_neg (by decide)]
      obtain ⟨i, s, e2, g1, g2⟩ := freeSlot_ok w1 l1
      have e2' : freeSlot { p1 with count := p1.count + 1 } = .ok (some i) := e2
      rw [e2']
      simp only [Res.ok_bind]
      have hi : i < p1.cap := by rw [← w1.len]; exact (List.getElem?_eq_some_iff.1 g1).1
      have sh1 : Shape { p1 with count := p1.count + 1 } ev1 k1 := ⟨w1.events, w1.klt, w1.cap, w1.len, w1.chunks⟩
      obtain ⟨ch, e3, sh2, cell2, oth2⟩ := setCell_ok sh1 (i := i) hi ⟨NONE, i, data⟩
      rw [e3]
      simp only [Res.ok_bind]
      rw [getSlot_ok sh2 g1]
      simp only [Res.ok_bind]
      obtain ⟨e4, sh3⟩ := setSlot_ok sh2 (i := i) hi { s with fd := f.fd }
      rw [e4]
      simp only [Res.ok_bind]
      have g3 : (ev1.set i { s with fd := f.fd })[i]? = some { s with fd := f.fd } := List.getElem?_set_self (by rw [w1.len]; exact hi)
      obtain ⟨p', e5, sh4, cnt, sm, cap', n', cell5, oth5⟩ := addEnd_ok sh3 g3 (c := ⟨NONE, i, data⟩) cell2 (dropEdge (f.op ||| evs)) data
        { f with pd := some (dataInner i) }
      rw [e5]
      rw [List.set_set] at sh4
      obtain ⟨w5, en5, ens⟩ := wf_set w1 g1 sh4 (by
          rw [cnt]
          simp [valid, g2, hf.fd]) cell5 (fun _ => ⟨rfl, rfl, rfl⟩) (by
        intro j hj hji
        rw [oth5 j hj hji, getCell_events]
        exact oth2 j hj hji)
      rw [if_neg hf.fd] at en5
      obtain ⟨ed1, ed2⟩ := edge_add f.op evs NONE (fun _ => rfl) (by rw [h0]) (fun _ => rfl) hm hf.normal
      refine ⟨_, p', _, k1, rfl, w5, s1.trans ?_, ?_, rfl, rfl, rfl, ?_, by rw [cap']; exact cap1, .inr ⟨Ne.symm hm, hne, i, _, _, ⟨rfl, en5, rfl, rfl, ed1, ed2⟩, rfl, rfl, ?_, ?_, ?_⟩⟩
      · exact ⟨sm.ops, sm.opsCap, sm.polling, sm.remaining, sm.offset⟩
      · refine ⟨dropEdge_normal _, hf.fd, ?_, fun _ => ⟨i, _, _, rfl, en5, rfl, rfl, ed1, ed2⟩⟩
        simp [hne]
      · rw [cnt, if_pos h0]; simp only; omega
      · intro _
        rw [← en1]
        exact w1.entry_none.2 (fun s' hs' => by rw [g1] at hs'; cases hs'; exact g2)
      · intro hc; exact absurd h0 hc
      · intro j hj
        rw [ens j hj, en1]
    · rw [if_neg h0]
      obtain ⟨i, s, c, ho⟩ := hf.owns h0
      obtain ⟨q1, q2, q3, q4⟩ := ho.index h
      rw [ho.pd]
      simp only
      rw [q1]
      simp only [Res.ok_bind]
      rw [q2]
      obtain ⟨p', e5, sh4, cnt, sm, cap', n', cell5, oth5⟩ := addEnd_ok h.toShape q3 q1 (dropEdge (f.op ||| evs)) data f
      rw [e5]
      obtain ⟨w5, en5, ens⟩ := wf_set h q3 sh4 (by rw [cnt]; simp [valid]) cell5 (fun _ => ⟨rfl, rfl, q2⟩) oth5
      rw [if_neg (by exact q4)] at en5
      obtain ⟨ed1, ed2⟩ := edge_add f.op evs c.edge (fun hc => absurd hc h0) ho.edge ho.level hm hf.normal
      have own : Owns p' { f with op := dropEdge (f.op ||| evs) } i _ _ := ⟨ho.pd, en5, ho.fd, rfl, ed1, ed2⟩
      refine ⟨_, p', _, k, rfl, w5, sm, ⟨dropEdge_normal _, hf.fd, ?_, fun _ => ⟨i, _, _, own⟩⟩, rfl, rfl, rfl, ?_, by rw [cap']; exact Nat.le_refl _,
        .inr ⟨Ne.symm hm, hne, i, _, _, own, rfl, rfl, fun hc => absurd hc h0, fun _ => rfl, ens⟩⟩
      · simp [hne, ho.pd]
      · rw [cnt]; omega

/-- `sc_sock_poll_del_full` -/
theorem delFull_ok {p : P} {ev : List Slot} {k : Nat} (h : Wf p ev k) {i : Nat} {s : Slot} {c : PData} (he : entry p i = some (s, c)) :
    ∃ p' ev', delFull (some (dataInner i)) p = .ok p' ∧ Wf p' ev' k ∧ Same p p' ∧ p'.count + 1 = p.count ∧ p'.cap = p.cap ∧
      entry p' i = none ∧ (∀ j, j ≠ i → entry p' j = entry p j) := by
  obtain ⟨h1, h2, h3⟩ := (entry_some h.events).1 he
  obtain ⟨_, _, c', -, -, h4, h5⟩ := h.cells i s h1 h2
  rw [h3] at h4
  cases h4
  have hi : i < p.cap := h.lt he
  unfold delFull
  simp only
  rw [h3]
  simp only [Res.ok_bind]
  rw [h5, getSlot_ok h.toShape h1]
  simp only [Res.ok_bind]
  obtain ⟨e1, sh1⟩ := setSlot_ok h.toShape hi { s with fd := INVALID }
  rw [e1]
  simp only [Res.ok_bind]
  have sh2 : Shape { p with events := some (ev.set i { s with fd := INVALID }), count := p.count - 1 } (ev.set i { s with fd := INVALID }) k :=
    ⟨sh1.events, sh1.klt, sh1.cap, sh1.len, sh1.chunks⟩
  obtain ⟨ch, e3, sh3, cell3, oth3⟩ := setCell_ok sh2 (i := i) hi { edge := NONE, index := i, data := c.data }
  rw [e3]
  have hpos : 0 < p.count := by
    rw [h.count, List.countP_pos_iff]
    exact ⟨s, List.mem_of_getElem? h1, by simp [valid, h2]⟩
  obtain ⟨w, en, ens⟩ := wf_set h h1 sh3 (by simp [valid, h2]; omega) cell3 (fun hc => absurd rfl hc) (fun j hj hji => oth3 j hj hji)
  rw [if_pos rfl] at en
  exact ⟨_, _, rfl, w, ⟨rfl, rfl, rfl, rfl, rfl⟩, by simp only; omega, rfl, en, ens⟩

theorem edge_del (op evs old : Bits) (h1 : old &&& EDGE ≠ 0 ↔ op &&& EDGE ≠ 0) (h2 : old &&& EDGE = 0 → old = NONE)
    (hne : dropEdge (op &&& ~~~evs) ≠ NONE) :
    let m := dropEdge (op &&& ~~~evs)
    let new := if m &&& EDGE = 0 then NONE else old
    (new &&& EDGE ≠ 0 ↔ m &&& EDGE ≠ 0) ∧ (new &&& EDGE = 0 → new = NONE) := by
  revert op evs old; decide

theorem del_same {op evs : Bits} (h : op &&& evs = 0) (hn : op ≠ EDGE) : op = dropEdge (op &&& ~~~evs) := by
  revert op evs; decide

theorem del_diff {op evs : Bits} (h : op &&& evs ≠ 0) : dropEdge (op &&& ~~~evs) ≠ op ∧ op ≠ NONE := by
  revert op evs; decide

/-- `sc_sock_poll_del` when nobody polls -/
theorem delNow_ok {p : P} {ev : List Slot} {k : Nat} (h : Wf p ev k) {f : Fdt} (hf : Held p f) (evs : Bits) (data : Nat) :
    ∃ f' p' ev', delNow evs data f p = .ok (0, f', p') ∧ Wf p' ev' k ∧ Same p p' ∧ Held p' f' ∧ f'.fd = f.fd ∧
      f'.opIndex = f.opIndex ∧ f'.op = dropEdge (f.op &&& ~~~evs) ∧ p'.count ≤ p.count ∧ p'.cap = p.cap ∧
      (f' = f ∧ p' = p ∨ f'.op ≠ f.op ∧ ∃ i, f.pd = some (dataInner i) ∧ i < p.cap ∧ (∀ j, j ≠ i → entry p' j = entry p j) ∧
        (f'.op = NONE ∧ entry p' i = none ∨
         f'.op ≠ NONE ∧ ∃ s c s' c', Owns p f i s c ∧ Owns p' f' i s' c' ∧ s'.rev = s.rev ∧ c'.data = data)) := by
  unfold delNow
  by_cases h0 : f.op &&& evs = 0
  · rw [if_pos h0]
    exact ⟨f, p, ev, rfl, h, Same.refl p, hf, rfl, rfl, del_same h0 hf.normal, Nat.le_refl _, rfl, .inl ⟨rfl, rfl⟩⟩
  · rw [if_neg h0]
    obtain ⟨hd, hn⟩ := del_diff h0
    obtain ⟨i, s, c, ho⟩ := hf.owns hn
    simp only
    by_cases hm : dropEdge (f.op &&& ~~~evs) = NONE
    · rw [if_pos hm, ho.pd]
      obtain ⟨p', ev', e1, w, sm, cnt, cap', en, ens⟩ := delFull_ok h ho.entry
      rw [e1]
      refine ⟨_, p', ev', rfl, w, sm, ⟨dropEdge_normal _, hf.fd, by simp [hm], fun hc => absurd hm hc⟩, rfl, rfl, rfl, by omega, cap',
        .inr ⟨hd, i, rfl, ho.lt h, ens, .inl ⟨hm, en⟩⟩⟩
    · rw [if_neg hm, ho.pd]
      obtain ⟨q1, q2, q3, q4⟩ := ho.index h
      simp only
      rw [q1]
      simp only [Res.ok_bind]
      rw [q2, getSlot_ok h.toShape q3]
      simp only [Res.ok_bind]
      obtain ⟨e1, sh1⟩ := setSlot_ok h.toShape (ho.lt h) { s with ev := some (pollBits (dropEdge (f.op &&& ~~~evs))) }
      rw [e1]
      simp only [Res.ok_bind]
      obtain ⟨ch, e3, sh3, cell3, oth3⟩ := setCell_ok sh1 (i := i) (ho.lt h)
        { edge := if dropEdge (f.op &&& ~~~evs) &&& EDGE = 0 then NONE else c.edge, index := i, data := data }
      rw [e3]
      obtain ⟨_, r, c', k1, k2, k3, k4⟩ := h.cells i s q3 q4
      obtain ⟨w, en, ens⟩ := wf_set h q3 sh3 (by simp [valid]) cell3 (fun _ => ⟨rfl, by simp [k2], rfl⟩) (fun j hj hji => oth3 j hj hji)
      rw [if_neg (by exact q4)] at en
      obtain ⟨ed1, ed2⟩ := edge_del f.op evs c.edge ho.edge ho.level hm
      have own : Owns { p with events := some (ev.set i { s with ev := some (pollBits (dropEdge (f.op &&& ~~~evs))) }), chunks := ch }
        { fd := f.fd, op := dropEdge (f.op &&& ~~~evs), pd := some (dataInner i), opIndex := f.opIndex } i _ _ := ⟨rfl, en, ho.fd, rfl, ed1, ed2⟩
      exact ⟨_, _, _, rfl, w, ⟨rfl, rfl, rfl, rfl, rfl⟩, ⟨dropEdge_normal _, hf.fd, by simp [hm], fun _ => ⟨i, _, _, own⟩⟩, rfl, rfl, rfl,
        Nat.le_refl _, rfl, .inr ⟨hd, i, rfl, ho.lt h, ens, .inr ⟨hm, s, c, _, _, ho, own, rfl, rfl⟩⟩⟩

end Verif.Poll.Win
