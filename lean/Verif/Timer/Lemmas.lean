import Verif.Timer.Spec

/-! # The wheel holds the pending timers -/

namespace Verif.Timer

open Spec

/-- The timer a cell holds. -/
def entry (c : Cell) : Option Entry :=
  if c.timeout = INVALID then none else some ⟨c.timeout, c.type, c.data⟩

/-- The timer structure holds the pending timers `live`. -/
structure Rep (t : T) (live : Nat → Option Entry) : Prop where
  len : t.list.length = t.wheel * 32
  wle : t.wheel ≤ 11184810
  head : t.head < 16
  ts : t.timestamp < INVALID
  cell : ∀ p s, p < 16 → s < t.wheel →
    ∃ c, t.list[p * t.wheel + s]? = some c ∧ live (mkid s p) = entry c
  dom : ∀ id, live id ≠ none → ∃ p s, p < 16 ∧ s < t.wheel ∧ id = mkid s p

theorem mul32_lt {a b : Nat} (h : a * b < W32) : mul32 a b = a * b := Nat.mod_eq_of_lt h
theorem add32_lt {a b : Nat} (h : a + b < W32) : add32 a b = a + b := Nat.mod_eq_of_lt h

theorem idx_lt {p s w : Nat} (hp : p < 16) (hs : s < w) : p * w + s < w * 16 := by
  have := Nat.mul_le_mul_right w (show p ≤ 15 by omega)
  omega

theorem idx_inj {p s p' s' w : Nat} (hs : s < w) (hs' : s' < w) (h : p * w + s = p' * w + s') :
    p = p' ∧ s = s' := by
  rcases Nat.lt_trichotomy p p' with h1 | h1 | h1
  · have := Nat.mul_le_mul_right w (show p + 1 ≤ p' by omega)
    rw [Nat.add_mul] at this; omega
  · subst h1; omega
  · have := Nat.mul_le_mul_right w (show p' + 1 ≤ p by omega)
    rw [Nat.add_mul] at this; omega

theorem mul32_idx {p w : Nat} (hp : p < 16) (hw : w ≤ 11184810) : mul32 p w = p * w := by
  apply mul32_lt
  have := Nat.mul_le_mul_right w (show p ≤ 15 by omega)
  omega

theorem add32_idx {p s w : Nat} (hp : p < 16) (hs : s < w) (hw : w ≤ 11184810) :
    add32 (p * w) s = p * w + s := by
  apply add32_lt
  have := idx_lt hp hs
  omega

theorem mkid_eq {s p : Nat} : mkid s p = s * W32 + p := rfl

theorem mkid_ne {s p : Nat} (hp : p < 16) (hs : s ≤ 11184810) : mkid s p ≠ INVALID := by
  rw [mkid_eq]; omega

theorem id_eq {s p : Nat} (hp : p < 16) (hs : s ≤ 11184810) :
    ((s <<< 32) % W64) ||| p = mkid s p := by
  have h1 : (s <<< 32) % W64 = s <<< 32 := by
    rw [Nat.shiftLeft_eq]; apply Nat.mod_eq_of_lt; omega
  rw [h1, ← Nat.shiftLeft_add_eq_or_of_lt (by omega : p < 2 ^ 32), Nat.shiftLeft_eq]
  rfl

theorem id_inj {s p s' p' : Nat} (hp : p < 16) (hp' : p' < 16)
    (h : mkid s p = mkid s' p') : s = s' ∧ p = p' := by rw [mkid_eq, mkid_eq] at h; omega

/-- Writing one cell. -/
theorem Rep.set {t : T} {live : Nat → Option Entry} (r : Rep t live) {p s : Nat} (hp : p < 16)
    (hs : s < t.wheel) (c : Cell) :
    Rep { t with list := t.list.set (p * t.wheel + s) c } (upd live (mkid s p) (entry c)) := by
  refine ⟨by simpa using r.len, r.wle, r.head, r.ts, ?_, ?_⟩
  · intro p' s' hp' hs'
    obtain ⟨c', h1, h2⟩ := r.cell p' s' hp' hs'
    by_cases he : p * t.wheel + s = p' * t.wheel + s'
    · obtain ⟨rfl, rfl⟩ := idx_inj hs hs' he
      have := (List.getElem?_eq_some_iff.1 h1).1
      exact ⟨c, by simp [this], by simp [upd]⟩
    · refine ⟨c', by simp [List.getElem?_set_ne he, h1], ?_⟩
      have : mkid s' p' ≠ mkid s p := by
        intro h; obtain ⟨rfl, rfl⟩ := id_inj hp' hp h; exact he rfl
      simp [upd, this, h2]
  · intro id hid
    unfold upd at hid
    split at hid
    · next h => exact ⟨p, s, hp, hs, h⟩
    · exact r.dom id hid

/-! ## clear -/

theorem clearLoop_eq (n : Nat) : ∀ (i : Nat) (l : List Cell), i + n ≤ l.length →
    ∃ l', clearLoop n i l = .ok l' ∧ l'.length = l.length ∧
      (∀ j, i ≤ j → j < i + n → ∃ c, l'[j]? = some c ∧ c.timeout = INVALID) ∧
      (∀ j, j < i → l'[j]? = l[j]?) := by
  induction n with
  | zero => intro i l _; exact ⟨l, rfl, rfl, by omega, fun _ _ => rfl⟩
  | succ n ih =>
    intro i l h
    obtain ⟨l', h1, h2, h3, h4⟩ := ih (i + 1)
      (l.set i { l[i] with timeout := INVALID, data := 0 }) (by simp; omega)
    refine ⟨l', ?_, by simpa using h2, ?_, ?_⟩
    · simp only [clearLoop]
      rw [rd_lt (by omega), Res.ok_bind, wr_lt (by omega), Res.ok_bind, h1]
    · intro j hj1 hj2
      by_cases hj : j = i
      · subst hj
        rw [h4 j (by omega)]
        exact ⟨_, List.getElem?_set_self (by omega), rfl⟩
      · exact h3 j (by omega) (by omega)
    · intro j hj
      rw [h4 j (by omega), List.getElem?_set_ne (by omega)]

theorem clear_spec {t : T} {live : Nat → Option Entry} (r : Rep t live) :
    ∃ t', clear t = .ok t' ∧ Rep t' (fun _ => none) ∧ t'.timestamp = t.timestamp ∧
      t'.wheel = t.wheel := by
  have hcap : mul32 t.wheel 16 = t.wheel * 16 := mul32_lt (by have := r.wle; omega)
  obtain ⟨l', h1, h2, h3, _⟩ := clearLoop_eq (t.wheel * 16) 0 t.list (by rw [r.len]; omega)
  refine ⟨{ t with head := 0, list := l' }, ?_, ?_, rfl, rfl⟩
  · unfold clear; simp only [hcap]; rw [h1]; rfl
  · refine ⟨by simp [h2, r.len], r.wle, by simp, r.ts, ?_, by simp⟩
    intro p s hp hs
    obtain ⟨c, hc1, hc2⟩ := h3 (p * t.wheel + s) (by omega) (by have := idx_lt hp hs; simp at *; omega)
    exact ⟨c, hc1, by simp [entry, hc2]⟩

/-! ## expand -/

theorem copyCells_getElem? {dst src : List Cell} {d s n : Nat} (h1 : d + n ≤ dst.length)
    (h2 : s + n ≤ src.length) :
    ∃ l', copyCells dst d src s n = .ok l' ∧ l'.length = dst.length ∧
      ∀ j, l'[j]? = if d ≤ j ∧ j < d + n then src[s + (j - d)]? else dst[j]? := by
  refine ⟨_, by simp only [copyCells, h1, h2, and_self, if_true]; rfl, by simp; omega, ?_⟩
  intro j
  by_cases hj1 : j < d
  · rw [List.append_assoc, List.getElem?_append_left (by simp; omega)]
    simp [hj1]; omega
  · by_cases hj2 : j < d + n
    · rw [List.append_assoc, List.getElem?_append_right (by simp; omega),
        List.getElem?_append_left (by simp; omega)]
      have : d ≤ j ∧ j < d + n := ⟨by omega, hj2⟩
      simp only [List.length_take, this, if_true, and_self]
      rw [List.getElem?_take_of_lt (by omega), List.getElem?_drop]
      congr 1; omega
    · rw [List.append_assoc, List.getElem?_append_right (by simp; omega),
        List.getElem?_append_right (by simp; omega)]
      have : ¬ (d ≤ j ∧ j < d + n) := by omega
      simp only [List.length_take, this, if_false, List.getElem?_drop, List.length_drop]
      congr 1; omega

theorem copyLoop_eq {old : List Cell} {w : Nat} (hw : w ≤ 5592405) (ho : old.length = w * 32)
    (n : Nat) : ∀ (i : Nat) (new : List Cell), i + n = 16 → new.length = 2 * w * 32 →
      ∃ l', copyLoop old w n i new = .ok l' ∧ l'.length = new.length ∧
        ∀ p s, p < 16 → s < 2 * w →
          l'[p * (2 * w) + s]? =
            if i ≤ p ∧ s < w then old[p * w + s]? else new[p * (2 * w) + s]? := by
  induction n with
  | zero =>
    intro i new hi hn
    refine ⟨new, rfl, rfl, ?_⟩
    intro p s hp hs
    rw [if_neg (by omega)]
  | succ n ih =>
    intro i new hi hn
    have e1 : mul32 i w = i * w := mul32_idx (by omega) (by omega)
    have hle : i * w ≤ 15 * w := Nat.mul_le_mul_right w (show i ≤ 15 by omega)
    have e2 : mul32 (i * w) 2 = i * (2 * w) := by
      rw [mul32_lt (by omega), Nat.mul_assoc, Nat.mul_comm w 2]
    have e3 : i * (2 * w) = 2 * (i * w) := by rw [Nat.mul_left_comm]
    obtain ⟨l1, h1, h2, h3⟩ := copyCells_getElem? (dst := new) (src := old) (d := i * (2 * w))
      (s := i * w) (n := w) (by omega) (by omega)
    obtain ⟨l', h4, h5, h6⟩ := ih (i + 1) l1 (by omega) (by omega)
    refine ⟨l', ?_, by omega, ?_⟩
    · simp only [copyLoop, e1, e2, h1, Res.ok_bind, h4]
    · intro p s hp hs
      rw [h6 p s hp hs]
      by_cases hp1 : i + 1 ≤ p ∧ s < w
      · rw [if_pos hp1, if_pos (by omega)]
      · rw [if_neg hp1, h3]
        by_cases hpi : p = i
        · subst hpi
          by_cases hsw : s < w
          · rw [if_pos (by omega), if_pos (by omega)]
            congr 1; omega
          · rw [if_neg (by omega), if_neg (by omega)]
        · have : ¬ (i * (2 * w) ≤ p * (2 * w) + s ∧ p * (2 * w) + s < i * (2 * w) + w) := by
            rcases Nat.lt_or_gt_of_ne hpi with h | h
            · have := Nat.mul_le_mul_right (2 * w) (show p + 1 ≤ i by omega)
              rw [Nat.add_mul] at this; omega
            · have := Nat.mul_le_mul_right (2 * w) (show i + 1 ≤ p by omega)
              rw [Nat.add_mul] at this; omega
          rw [if_neg this, if_neg (by omega)]

theorem length_blank {n : Nat} {fill : Nat → Nat} : (blank n fill).length = n := by simp [blank]
theorem blank_get {n j : Nat} {fill : Nat → Nat} (h : j < n) :
    (blank n fill)[j]? = some ⟨INVALID, fill j, 0⟩ := by
  unfold blank; rw [List.getElem?_ofFn]; simp [h]

theorem expand_spec {t : T} {live : Nat → Option Entry} (r : Rep t live) (al : Alloc Nat) :
    expand al t = .ok (false, t) ∨ ∃ t', expand al t = .ok (true, t') ∧ Rep t' live ∧
      t.wheel < t'.wheel ∧ t'.head = t.head ∧ t'.timestamp = t.timestamp ∧
      (∀ p s, p < 16 → t.wheel ≤ s → s < t'.wheel →
        ∃ c, t'.list[p * t'.wheel + s]? = some c ∧ c.timeout = INVALID) := by
  by_cases hmax : t.wheel ≥ 5592405
  · left
    unfold expand
    have hw := r.wle
    have e1 : mul32 t.wheel 2 = t.wheel * 2 := mul32_lt (by omega)
    have e2 : mul32 (t.wheel * 2) 16 = t.wheel * 32 := by rw [mul32_lt (by omega)]; omega
    have e3 : mul32 (t.wheel * 32) 2 = t.wheel * 64 := by rw [mul32_lt (by omega)]; omega
    have e4 : mul64 (t.wheel * 64) 24 = t.wheel * 1536 := by
      unfold mul64; rw [Nat.mod_eq_of_lt (by omega)]; omega
    have h0 : t.wheel ≠ 0 := by omega
    simp only [ne_eq, h0, not_false_eq_true, if_true, e1, e2, e3, e4]
    rw [show decide (¬ t.wheel * 1536 = 0) = true by simp; omega]
    simp [hmax]
  · have hlt : t.wheel < 5592405 := by omega
    by_cases h0 : t.wheel = 0
    · cases al with
      | none =>
        left; unfold expand
        simp [h0, mul32, mul64]
      | some fill =>
        right
        refine ⟨{ t with list := blank 128 fill, wheel := 4 }, ?_, ?_, by simp only; omega, rfl, rfl, ?_⟩
        · unfold expand
          simp [h0, mul32, mul64]
        · refine ⟨by simp only; rw [length_blank], by simp, r.head, r.ts, ?_, ?_⟩
          · intro p s hp hs
            simp only at hs
            refine ⟨⟨INVALID, fill (p * 4 + s), 0⟩, blank_get (by simp only; omega), ?_⟩
            rw [show entry ⟨INVALID, fill (p * 4 + s), 0⟩ = none by simp [entry]]
            rcases hl : live (mkid s p) with _ | e
            · rfl
            · obtain ⟨p', s', _, hs', _⟩ := r.dom _ (by rw [hl]; simp)
              omega
          · intro id hid
            obtain ⟨p', s', _, hs', _⟩ := r.dom _ hid
            omega
        · intro p s hp hs1 hs2
          simp only at hs2
          exact ⟨⟨INVALID, fill (p * 4 + s), 0⟩, blank_get (by simp only; omega), rfl⟩
    · have e1 : mul32 t.wheel 2 = 2 * t.wheel := by rw [mul32_lt (by omega)]; omega
      have e2 : mul32 (2 * t.wheel) 16 = t.wheel * 32 := by rw [mul32_lt (by omega)]; omega
      have e3 : mul32 (t.wheel * 32) 2 = t.wheel * 64 := by rw [mul32_lt (by omega)]; omega
      have e4 : mul64 (t.wheel * 64) 24 = t.wheel * 1536 := by
        unfold mul64; rw [Nat.mod_eq_of_lt (by omega)]; omega
      have hsz : decide (¬ t.wheel * 1536 = 0) = true := by simp; omega
      cases al with
      | none =>
        left; unfold expand
        simp only [ne_eq, h0, not_false_eq_true, if_true, e1, e2, e3, e4, hsz]
        simp [hlt]
      | some fill =>
        right
        obtain ⟨l', h1, h2, h3⟩ := copyLoop_eq (w := t.wheel) (old := t.list) (by omega) r.len 16 0
          (blank (t.wheel * 64) fill) rfl (by rw [length_blank]; omega)
        have hnew : ∀ p s, p < 16 → t.wheel ≤ s → s < 2 * t.wheel →
            ∃ c, l'[p * (2 * t.wheel) + s]? = some c ∧ c.timeout = INVALID := by
          intro p s hp hs1 hs2
          rw [h3 p s hp hs2, if_neg (by omega)]
          have := idx_lt hp hs2
          exact ⟨⟨INVALID, fill (p * (2 * t.wheel) + s), 0⟩, blank_get (by omega), rfl⟩
        refine ⟨{ t with list := l', wheel := 2 * t.wheel }, ?_, ?_, by simp only; omega, rfl, rfl,
          hnew⟩
        · unfold expand
          simp only [ne_eq, h0, not_false_eq_true, if_true, e1, e2, e3, e4, hsz, cassert_true,
            Res.ok_bind]
          rw [if_neg (by omega)]
          simp only [h1, Res.ok_bind, Res.pure_eq]
        · refine ⟨by simp only; rw [h2, length_blank]; omega, by simp only; omega, r.head, r.ts, ?_, ?_⟩
          · intro p s hp hs
            simp only at hs ⊢
            by_cases hsw : s < t.wheel
            · obtain ⟨c, hc1, hc2⟩ := r.cell p s hp hsw
              exact ⟨c, by rw [h3 p s hp hs, if_pos (by omega)]; exact hc1, hc2⟩
            · obtain ⟨c, hc1, hc2⟩ := hnew p s hp (by omega) hs
              refine ⟨c, hc1, ?_⟩
              rw [show entry c = none by simp [entry, hc2]]
              rcases hl : live (mkid s p) with _ | e
              · rfl
              · obtain ⟨p', s', hp', hs', he⟩ := r.dom _ (by rw [hl]; simp)
                obtain ⟨rfl, rfl⟩ := id_inj hp hp' he
                omega
          · intro id hid
            obtain ⟨p', s', hp', hs', he⟩ := r.dom _ hid
            exact ⟨p', s', hp', by simp only; omega, he⟩

/-! ## add -/

theorem findFree_eq {t : T} {live : Nat → Option Entry} (r : Rep t live) {p : Nat} (hp : p < 16)
    (n : Nat) : ∀ seq, seq + n = t.wheel →
      (findFree t.list (p * t.wheel) n seq = .ok none) ∨
      (∃ s, s < t.wheel ∧ findFree t.list (p * t.wheel) n seq = .ok (some s) ∧
        live (mkid s p) = none) := by
  induction n with
  | zero => intro seq h; exact Or.inl rfl
  | succ n ih =>
    intro seq h
    obtain ⟨c, hc1, hc2⟩ := r.cell p seq hp (by omega)
    simp only [findFree]
    rw [add32_idx hp (by omega) r.wle, rd_eq_ok.2 hc1, Res.ok_bind]
    by_cases hi : c.timeout = INVALID
    · rw [if_pos hi]
      exact Or.inr ⟨seq, by omega, rfl, by rw [hc2]; simp [entry, hi]⟩
    · rw [if_neg hi]
      exact ih (seq + 1) (by omega)

theorem addAt_spec {t : T} {live : Nat → Option Entry} (r : Rep t live) {p s : Nat} (hp : p < 16)
    (hs : s < t.wheel) {timeout type data : Nat} (ht : timeout + t.timestamp < INVALID) :
    addAt t (p * t.wheel + s) s p timeout type data =
      .ok ({ t with list := t.list.set (p * t.wheel + s) ⟨timeout + t.timestamp, type, data⟩ },
        mkid s p) ∧
    Rep { t with list := t.list.set (p * t.wheel + s) ⟨timeout + t.timestamp, type, data⟩ }
      (upd live (mkid s p) (some ⟨t.timestamp + timeout, type, data⟩)) := by
  have hw := r.wle
  constructor
  · unfold addAt
    have := idx_lt hp hs
    rw [wr_lt (by rw [r.len]; omega), Res.ok_bind, id_eq hp (by omega)]
    have h1 : add64 timeout t.timestamp = timeout + t.timestamp := Nat.mod_eq_of_lt (by omega)
    rw [h1]
    have h2 : decide (mkid s p ≠ INVALID) = true := by
      rw [decide_eq_true_iff]; exact mkid_ne hp (by omega)
    simp only [h2, cassert_true, Res.ok_bind, Res.pure_eq]
  · have := r.set hp hs ⟨timeout + t.timestamp, type, data⟩
    rw [show entry ⟨timeout + t.timestamp, type, data⟩ =
      some ⟨t.timestamp + timeout, type, data⟩ by
        simp only [entry]; rw [if_neg (by omega), Nat.add_comm]] at this
    exact this

theorem add_spec {t : T} {live : Nat → Option Entry} (r : Rep t live) (al : Alloc Nat)
    {timeout type data : Nat} (ht : timeout + t.timestamp < INVALID) :
    add al t timeout type data = .ok (t, INVALID) ∨
    ∃ t' s, add al t timeout type data = .ok (t', mkid s ((timeout / 16 + t.head) % 16)) ∧
      live (mkid s ((timeout / 16 + t.head) % 16)) = none ∧
      Rep t' (upd live (mkid s ((timeout / 16 + t.head) % 16))
        (some ⟨t.timestamp + timeout, type, data⟩)) ∧
      s < t'.wheel ∧ t.wheel ≤ t'.wheel ∧ t'.head = t.head ∧ t'.timestamp = t.timestamp := by
  have hpos : (timeout / 16 + t.head) % W32 % 16 = (timeout / 16 + t.head) % 16 := by omega
  have hp : (timeout / 16 + t.head) % 16 < 16 := by omega
  unfold add
  simp only [hpos]
  generalize hpp : (timeout / 16 + t.head) % 16 = p at *
  rw [mul32_idx hp r.wle]
  rcases findFree_eq r hp t.wheel 0 (by omega) with hff | ⟨s, hs, hff, hl⟩
  · rw [hff, Res.ok_bind]
    simp only
    rcases expand_spec r al with he | ⟨t', he, r', hw, hh, hts, hnew⟩
    · left; rw [he]; rfl
    · right
      rw [he]
      simp only [Res.ok_bind, Bool.not_true, Bool.false_eq_true, if_false]
      rw [mul32_idx hp r'.wle, add32_idx hp hw r'.wle]
      obtain ⟨c, hc1, hc2⟩ := hnew p t.wheel hp (by omega) hw
      rw [rd_eq_ok.2 hc1, Res.ok_bind]
      simp only [hc2, decide_true, cassert_true, Res.ok_bind]
      obtain ⟨h1, h2⟩ := addAt_spec r' hp hw (timeout := timeout) (type := type) (data := data)
        (by rw [hts]; exact ht)
      refine ⟨_, t.wheel, h1, ?_, ?_, hw, by simp only; omega, hh, hts⟩
      · rcases hl : live (mkid t.wheel p) with _ | e
        · rfl
        · obtain ⟨p', s', hp', hs', he⟩ := r.dom _ (by rw [hl]; simp)
          obtain ⟨rfl, rfl⟩ := id_inj hp hp' he
          omega
      · rw [← hts]; exact h2
  · right
    rw [hff, Res.ok_bind]
    simp only
    rw [add32_idx hp hs r.wle]
    obtain ⟨h1, h2⟩ := addAt_spec r hp hs (type := type) (data := data) ht
    exact ⟨_, s, h1, hl, h2, hs, Nat.le_refl _, rfl, rfl⟩

/-! ## cancel -/

theorem cancel_spec {t : T} {live : Nat → Option Entry} (r : Rep t live) {p s : Nat} (hp : p < 16)
    (hs : s < t.wheel) :
    ∃ t', cancel t (mkid s p) = .ok (t', INVALID) ∧ Rep t' (upd live (mkid s p) none) ∧
      t'.wheel = t.wheel ∧ t'.head = t.head ∧ t'.timestamp = t.timestamp := by
  have hw := r.wle
  obtain ⟨c, hc1, hc2⟩ := r.cell p s hp hs
  have hr := r.set hp hs { c with timeout := INVALID }
  rw [show entry { c with timeout := INVALID } = none by simp [entry]] at hr
  refine ⟨_, ?_, hr, rfl, rfl, rfl⟩
  unfold cancel
  rw [if_neg (mkid_ne hp (by omega))]
  have e1 : (mkid s p) % W32 = p := by rw [mkid_eq]; omega
  have e2 : (mkid s p) >>> 32 = s := by
    rw [Nat.shiftRight_eq_div_pow, mkid_eq]; omega
  have := idx_lt hp hs
  have e3 : add64 (p * t.wheel) s = p * t.wheel + s := Nat.mod_eq_of_lt (by omega)
  simp only [e1, e2]
  rw [mul32_idx hp hw, e3, rd_eq_ok.2 hc1, Res.ok_bind, wr_lt (by rw [r.len]; omega)]
  rfl

end Verif.Timer
