import Verif.Str.Lemmas

namespace Verif.Str

/-! ## Trim -/

theorem trimEnd_spec {c l list : List UInt8} (hl : CStr list 0 l) {head : Nat} :
    ∀ (fuel e : Nat), e - head ≤ fuel → head ≤ e → e ≤ c.length →
    ∃ e', trimEnd (c ++ [0]) list head fuel e = .ok e' ∧ head ≤ e' ∧ e' ≤ e ∧
      (∀ i, e' ≤ i → i < e → ∀ x, c[i]? = some x → x = 0 ∨ x ∈ l) ∧
      (head < e' → ∀ x, c[e' - 1]? = some x → x ≠ 0 ∧ x ∉ l) := by
  intro fuel
  induction fuel with
  | zero =>
    intro e h1 h2 h3
    exact ⟨e, rfl, h2, Nat.le_refl _, by omega, by omega⟩
  | succ fuel ih =>
    intro e h1 h2 h3
    by_cases h : e > head
    · have he : e - 1 < c.length := by omega
      have hr : rd (c ++ [0]) (e - 1) = .ok c[e - 1] := by
        rw [rd_eq_ok, List.getElem?_append_left he, List.getElem?_eq_getElem he]
      rw [trimEnd, if_pos h, hr, Res.ok_bind, strchr, cstr_eq hl]
      simp only [Res.ok_bind]
      by_cases hc : (c[e - 1] == 0 || l.contains c[e - 1]) = true
      · rw [hc]
        obtain ⟨e', g1, g2, g3, g4, g5⟩ := ih (e - 1) (by omega) (by omega) (by omega)
        refine ⟨e', by simpa using g1, g2, by omega, ?_, g5⟩
        intro i hi1 hi2 x hx
        by_cases hie : i = e - 1
        · subst hie
          rw [List.getElem?_eq_getElem he] at hx
          cases hx
          simpa using hc
        · exact g4 i hi1 (by omega) x hx
      · have hc' : (c[e - 1] == 0 || l.contains c[e - 1]) = false := by simpa using hc
        rw [hc']
        refine ⟨e, rfl, h2, Nat.le_refl _, by omega, ?_⟩
        intro _ x hx
        rw [List.getElem?_eq_getElem he] at hx
        cases hx
        simpa using hc'
    · rw [trimEnd, if_neg h]
      exact ⟨e, rfl, h2, Nat.le_refl _, by omega, by omega⟩

theorem takeWhile_length_le (p : UInt8 → Bool) (l : List UInt8) :
    (l.takeWhile p).length ≤ l.length := by
  have := congrArg List.length (List.takeWhile_append_dropWhile (p := p) (l := l))
  simp only [List.length_append] at this
  omega

theorem takeWhile_getElem? {p : UInt8 → Bool} {l : List UInt8} {i : Nat}
    (h : i < (l.takeWhile p).length) : ∃ x, l[i]? = some x ∧ p x = true := by
  have h1 := List.takeWhile_append_dropWhile (p := p) (l := l)
  refine ⟨(l.takeWhile p)[i], ?_, mem_takeWhile (List.getElem_mem h)⟩
  conv => lhs; rw [← h1]
  rw [List.getElem?_append_left h, List.getElem?_eq_getElem h]

theorem takeWhile_stop {p : UInt8 → Bool} {l : List UInt8} {x : UInt8}
    (h : l[(l.takeWhile p).length]? = some x) : p x = false := by
  induction l with
  | nil => simp at h
  | cons c l ih =>
    by_cases hc : p c = true
    · simp only [List.takeWhile_cons, hc, if_true, List.length_cons, List.getElem?_cons_succ] at h
      exact ih h
    · simp only [List.takeWhile_cons, hc, if_false, List.length_nil, List.getElem?_cons_zero,
        Option.some.injEq, Bool.false_eq_true] at h
      subst h
      simpa using hc

/-- What `sc_str_trim` leaves of the content `c`. -/
theorem trim_spec (al : Alloc UInt8) {s : S} {c l list : List UInt8} (hs : Holds s c)
    (hl : CStr list 0 l) :
    ∃ ok s' t a b, trim al (some s) list = .ok (ok, some s') ∧ c = a ++ t ++ b ∧
      (∀ x ∈ a, x ∈ l) ∧ (∀ x ∈ b, x = 0 ∨ x ∈ l) ∧ (∀ x, t.head? = some x → x ∉ l) ∧
      (∀ x, t.getLast? = some x → x ≠ 0 ∧ x ∉ l) ∧
      (ok = true → Holds s' t) ∧ (ok = false → s' = s ∧ al = none) := by
  obtain ⟨hlen, hbuf, hsm⟩ := hs
  have hcs := cstr_ctext_drop c (Nat.zero_le _)
  rw [List.drop_zero] at hcs
  have hle := ctext_le c
  generalize hh : ((ctext c).takeWhile (l.contains ·)).length = head
  have hhle : head ≤ (ctext c).length := by rw [← hh]; exact takeWhile_length_le _ _
  have hsp : strspn s.buf 0 list = .ok head := by
    rw [strspn, cstr_eq hl, Res.ok_bind, hbuf, cstr_eq hcs, Res.ok_bind, hh]
  obtain ⟨e, he, g1, g2, g3, g4⟩ := trimEnd_spec (c := c) hl (head := head) c.length c.length
    (by omega) (by omega) (Nat.le_refl _)
  have hget : ∀ i, i < head → ∃ x, c[i]? = some x ∧ x ∈ l := by
    intro i hi
    rw [← hh] at hi
    obtain ⟨x, hx, hp⟩ := takeWhile_getElem? hi
    refine ⟨x, ?_, by simpa using hp⟩
    obtain ⟨_, _, _, y, hy, _⟩ := ctext_split c
    rw [hy, List.getElem?_append_left (by omega)]
    exact hx
  have hstop : ∀ x, c[head]? = some x → x ∉ l := by
    intro x hx hm
    by_cases hlt : head < (ctext c).length
    · have h1 := ctext_getElem? hlt
      rw [List.getElem?_append_left (by omega), hx] at h1
      have h2 : (ctext c)[((ctext c).takeWhile (l.contains ·)).length]? = some x := by
        rw [hh, List.getElem?_eq_getElem hlt]; exact h1.symm
      have := takeWhile_stop h2
      simp at this
      exact this hm
    · have h0 : head = (ctext c).length := by omega
      have h1 := ctext_end c
      have hlt' : head < c.length := (List.getElem?_eq_some_iff.1 hx).1
      rw [← h0, List.getElem?_append_left hlt', hx] at h1
      cases h1
      exact hl.nonzero 0 hm rfl
  have hsl : (slice c head (e - head)).length = e - head := length_slice (by omega)
  have hdec : c = c.take head ++ slice c head (e - head) ++ c.drop e := by
    have h1 : c.take head ++ slice c head (e - head) = c.take e := by
      have : e = head + (e - head) := by omega
      conv => rhs; rw [this, List.take_add]
      rfl
    rw [h1, List.take_append_drop]
  have ha : ∀ x ∈ c.take head, x ∈ l := by
    intro x hx
    obtain ⟨i, hi, rfl⟩ := List.getElem_of_mem hx
    rw [List.length_take] at hi
    obtain ⟨y, hy, hm⟩ := hget i (by omega)
    rw [List.getElem_take]
    rw [List.getElem?_eq_getElem (by omega)] at hy
    cases hy; exact hm
  have hb : ∀ x ∈ c.drop e, x = 0 ∨ x ∈ l := by
    intro x hx
    obtain ⟨i, hi, rfl⟩ := List.getElem_of_mem hx
    rw [List.length_drop] at hi
    rw [List.getElem_drop]
    exact g3 (e + i) (by omega) (by omega) _ (List.getElem?_eq_getElem (by omega))
  have hhd : ∀ x, (slice c head (e - head)).head? = some x → x ∉ l := by
    intro x hx
    rw [List.head?_eq_getElem?, slice_getElem?] at hx
    split at hx
    · exact hstop x hx
    · cases hx
  have hla : ∀ x, (slice c head (e - head)).getLast? = some x → x ≠ 0 ∧ x ∉ l := by
    intro x hx
    rw [List.getLast?_eq_getElem?, slice_getElem?, hsl] at hx
    split at hx
    · have : head + (e - head - 1) = e - 1 := by omega
      rw [this] at hx
      exact g4 (by omega) x hx
    · cases hx
  rw [trim, hsp, Res.ok_bind, hlen, hbuf, he, Res.ok_bind]
  by_cases hch : head ≠ 0 ∨ e ≠ c.length
  · rw [if_pos hch, Nat.mod_eq_of_lt (by omega)]
    obtain ⟨r, hr, h1, h2⟩ := createLen_spec al (str := c ++ [0]) (off := head) (len := e - head)
      (by simp; omega) (by omega)
    have hsl2 : slice (c ++ [0]) head (e - head) = slice c head (e - head) :=
      slice_append_left (by omega)
    rw [hsl2] at h2
    rw [hr, Res.ok_bind]
    by_cases hal : al = none
    · rw [h1 hal]
      exact ⟨false, s, _, _, _, rfl, hdec, ha, hb, hhd, hla, nofun,
        fun _ => ⟨rfl, hal⟩⟩
    · obtain ⟨s', rfl, hs'⟩ := h2 hal
      exact ⟨true, s', _, _, _, rfl, hdec, ha, hb, hhd, hla, fun _ => hs', fun h => by cases h⟩
  · rw [if_neg hch]
    have e0 : head = 0 := by omega
    have e1 : e = c.length := by omega
    refine ⟨true, s, _, _, _, rfl, hdec, ha, hb, hhd, hla, fun _ => ?_, fun h => by cases h⟩
    rw [e0, e1, Nat.sub_zero, slice_self]
    exact ⟨hlen, hbuf, hsm⟩

/-! ## Replace -/

/-- `Subst` with the number of replacements. -/
inductive SubstN (r w : List UInt8) : Nat → List UInt8 → List UInt8 → Prop where
  | none {s : List UInt8} : (∀ i, ¬ OccursAt r s i) → SubstN r w 0 s s
  | first {k : Nat} {u v v' : List UInt8} : (∀ i < u.length, ¬ OccursAt r (u ++ r ++ v) i) →
      SubstN r w k v v' → SubstN r w (k + 1) (u ++ r ++ v) (u ++ w ++ v')

theorem SubstN.subst {r w s t : List UInt8} {k : Nat} (h : SubstN r w k s t) : Subst r w s t := by
  induction h with
  | none h => exact .none h
  | first h _ ih => exact .first h ih

/-- Every string has a result, if the pattern is not empty. -/
theorem SubstN.exists {r w : List UInt8} (hr : r ≠ []) :
    ∀ (n : Nat) (s : List UInt8), s.length ≤ n → ∃ k t, SubstN r w k s t := by
  intro n
  induction n with
  | zero =>
    intro s hs
    refine ⟨0, s, .none ?_⟩
    intro i ⟨u, v, e, _⟩
    have := congrArg List.length e
    simp only [List.length_append] at this
    have : 0 < r.length := List.length_pos_iff.2 hr
    omega
  | succ n ih =>
    intro s hs
    cases hf : firstOcc r s with
    | none => exact ⟨0, s, .none (firstOcc_none.1 hf)⟩
    | some i =>
      obtain ⟨⟨u, v, e, hu⟩, hn⟩ := firstOcc_some hf
      have := congrArg List.length e
      simp only [List.length_append] at this
      have : 0 < r.length := List.length_pos_iff.2 hr
      obtain ⟨k, t, h⟩ := ih v (by omega)
      rw [e] at hn ⊢
      exact ⟨k + 1, _, .first (by rw [hu]; exact hn) h⟩

theorem SubstN.length {r w s t : List UInt8} {k : Nat} (h : SubstN r w k s t) :
    (t.length : Int) = s.length + k * ((w.length : Int) - r.length) := by
  induction h with
  | none => simp
  | @first k u v v' _ _ ih =>
    simp only [List.length_append, Int.natCast_add, Int.natCast_succ]
    rw [ih, Int.add_mul]
    omega

theorem SubstN.nonzero {r w s t : List UInt8} {k : Nat} (h : SubstN r w k s t)
    (hw : ∀ b ∈ w, b ≠ 0) (hs : ∀ b ∈ s, b ≠ 0) : ∀ b ∈ t, b ≠ 0 := by
  induction h with
  | none => exact hs
  | @first k u v v' _ _ ih =>
    intro b hb
    simp only [List.mem_append] at hb
    rcases hb with (hb | hb) | hb
    · exact hs b (by simp [hb])
    · exact hw b hb
    · exact ih (fun b hb => hs b (by simp [hb])) b hb

theorem firstOcc_split {r u v : List UInt8}
    (h : ∀ i < u.length, ¬ OccursAt r (u ++ r ++ v) i) :
    firstOcc r (u ++ r ++ v) = some u.length := by
  cases hf : firstOcc r (u ++ r ++ v) with
  | none => exact absurd ⟨u, v, rfl, rfl⟩ (firstOcc_none.1 hf u.length)
  | some i =>
    obtain ⟨h1, h2⟩ := firstOcc_some hf
    have : ¬ i < u.length := fun hi => h i hi h1
    have : ¬ u.length < i := fun hi => h2 u.length hi ⟨u, v, rfl, rfl⟩
    congr 1; omega

theorem strstr_none {rep r pre x z : List UInt8} (hr : CStr rep 0 r) (hx : ∀ b ∈ x, b ≠ 0)
    (h : ∀ i, ¬ OccursAt r x i) : strstr (pre ++ x ++ 0 :: z) pre.length rep = .ok none := by
  rw [strstr, cstr_eq hr, Res.ok_bind, cstr_eq (cstr_mid hx), Res.ok_bind, firstOcc_none.2 h]
  rfl

theorem strstr_some {rep r pre u v z : List UInt8} (hr : CStr rep 0 r)
    (hx : ∀ b ∈ u ++ r ++ v, b ≠ 0) (h : ∀ i < u.length, ¬ OccursAt r (u ++ r ++ v) i) :
    strstr (pre ++ (u ++ r ++ v) ++ 0 :: z) pre.length rep = .ok (some (pre.length + u.length)) := by
  rw [strstr, cstr_eq hr, Res.ok_bind, cstr_eq (cstr_mid hx), Res.ok_bind, firstOcc_split h]
  rfl

theorem replaceSame_spec {rep with_ r w : List UInt8} (hr : CStr rep 0 r) (hw : CStr with_ 0 w)
    (hl : r.length = w.length) {k : Nat} {x t : List UInt8} (h : SubstN r w k x t) :
    ∀ {pre z : List UInt8} {fuel : Nat}, (∀ b ∈ x, b ≠ 0) → k < fuel →
      replaceSame rep with_ r.length fuel (pre ++ x ++ 0 :: z) pre.length =
        .ok (some (pre ++ t ++ 0 :: z)) := by
  induction h with
  | none h =>
    intro pre z fuel hx hf
    obtain ⟨fuel, rfl⟩ : ∃ f, fuel = f + 1 := ⟨fuel - 1, by omega⟩
    rw [replaceSame, strstr_none hr hx h]
    rfl
  | @first k u v v' h hv ih =>
    intro pre z fuel hx hf
    obtain ⟨fuel, rfl⟩ : ∃ f, fuel = f + 1 := ⟨fuel - 1, by omega⟩
    rw [replaceSame, strstr_some hr hx h, Res.ok_bind]
    simp only
    have hwl := hw.lt
    rw [memcpy_ok (by simp; omega) (by omega), Res.ok_bind]
    have hs : slice with_ 0 r.length = w := by rw [hl]; exact hw.slice
    have e : splice (pre ++ (u ++ r ++ v) ++ 0 :: z) (pre.length + u.length) w =
        (pre ++ u ++ w) ++ v ++ 0 :: z := by
      unfold splice
      have e1 : pre ++ (u ++ r ++ v) ++ 0 :: z = (pre ++ u) ++ (r ++ (v ++ 0 :: z)) := by simp
      rw [e1, ← List.length_append, List.take_left, ← hl, ← List.drop_drop, List.drop_left,
        List.drop_left]
      simp
    rw [hs, e]
    have e2 : pre.length + u.length + r.length = (pre ++ u ++ w).length := by
      simp only [List.length_append]; omega
    rw [e2, ih (fun b hb => hx b (by simp [hb])) (by omega)]
    simp

theorem countLoop_spec {rep r w : List UInt8} (hr : CStr rep 0 r) {k : Nat} {x t : List UInt8}
    (h : SubstN r w k x t) :
    ∀ {pre z : List UInt8} {size count : Nat}, (∀ b ∈ x, b ≠ 0) → x.length ≤ size →
      ∃ o, (∀ fuel > k, countLoop (pre ++ x ++ 0 :: z) rep r.length ((w.length : Int) - r.length)
        fuel pre.length size count = .ok o) ∧
        ((o = .over ∧ (size > STR_MAX ∨ size + t.length - x.length > STR_MAX)) ∨
         (o = .done (count + k) (size + t.length - x.length) ∧
           (k ≠ 0 → size + t.length - x.length ≤ STR_MAX))) := by
  induction h with
  | none h =>
    intro pre z size count hx hs
    refine ⟨_, ?_, Or.inr ⟨rfl, fun h => absurd rfl h⟩⟩
    intro fuel hf
    obtain ⟨fuel, rfl⟩ : ∃ f, fuel = f + 1 := ⟨fuel - 1, by omega⟩
    rw [countLoop, strstr_none hr hx h]
    simp
  | @first k u v v' h hv ih =>
    intro pre z size count hx hs
    have hlen := hv.length
    simp only [List.length_append] at hs
    have hstep : ∀ fuel > k + 1, ∃ f > k, countLoop (pre ++ (u ++ r ++ v) ++ 0 :: z) rep r.length
        ((w.length : Int) - r.length) fuel pre.length size count =
        if (size : Int) > (STR_MAX : Int) - ((w.length : Int) - r.length) then .ok .over
        else countLoop (pre ++ (u ++ r ++ v) ++ 0 :: z) rep r.length ((w.length : Int) - r.length) f
          (pre.length + u.length + r.length) ((size : Int) + ((w.length : Int) - r.length)).toNat
          (count + 1) := by
      intro fuel hf
      obtain ⟨fuel, rfl⟩ : ∃ f, fuel = f + 1 := ⟨fuel - 1, by omega⟩
      refine ⟨fuel, by omega, ?_⟩
      rw [countLoop, strstr_some hr hx h, Res.ok_bind]
    by_cases hov : (size : Int) > (STR_MAX : Int) - ((w.length : Int) - r.length)
    · refine ⟨.over, ?_, Or.inl ⟨rfl, ?_⟩⟩
      · intro fuel hf
        obtain ⟨f, _, e⟩ := hstep fuel hf
        rw [e, if_pos hov]
      · simp only [List.length_append]
        by_cases hd : r.length ≤ w.length
        · right
          have : v.length ≤ v'.length := by
            have : (0 : Int) ≤ k * ((w.length : Int) - r.length) :=
              Int.mul_nonneg (by omega) (by omega)
            omega
          omega
        · left; omega
    · have e2 : pre.length + u.length + r.length = (pre ++ u ++ r).length := by
        simp only [List.length_append]
      have e3 : pre ++ (u ++ r ++ v) ++ 0 :: z = (pre ++ u ++ r) ++ v ++ 0 :: z := by simp
      obtain ⟨size', hsz⟩ : ∃ n, ((size : Int) + ((w.length : Int) - r.length)).toNat = n := ⟨_, rfl⟩
      obtain ⟨o, ho, hout⟩ := ih (pre := pre ++ u ++ r) (z := z) (size := size')
        (count := count + 1) (fun b hb => hx b (by simp [hb])) (by omega)
      refine ⟨o, ?_, ?_⟩
      · intro fuel hf
        obtain ⟨f, hf', e⟩ := hstep fuel hf
        rw [e, if_neg hov, hsz, e2, e3]
        exact ho f hf'
      have e4 : size + (u ++ w ++ v').length - (u ++ r ++ v).length =
          size' + v'.length - v.length := by
        simp only [List.length_append]; omega
      rw [e4]
      have hle : size' ≤ STR_MAX := by omega
      rcases hout with ⟨h1, h2⟩ | ⟨h1, h2⟩
      · refine Or.inl ⟨h1, Or.inr ?_⟩
        rcases h2 with h2 | h2
        · omega
        · exact h2
      · refine Or.inr ⟨by rw [h1]; congr 1; omega, fun _ => ?_⟩
        by_cases hk : k = 0
        · subst hk
          simp at hlen
          omega
        · exact h2 hk

theorem copyLoop_spec {rep with_ r w : List UInt8} (hr : CStr rep 0 r) (hw : CStr with_ 0 w)
    {k : Nat} {x t : List UInt8} (h : SubstN r w k x t) :
    ∀ {pre z dest : List UInt8} {tmp : Nat}, (∀ b ∈ x, b ≠ 0) → tmp + t.length < dest.length →
      ∃ dest' tmp' y y', copyLoop (pre ++ x ++ 0 :: z) rep with_ r.length w.length k dest tmp
        pre.length = .ok (dest', tmp', pre.length + y.length) ∧ x = y ++ y' ∧
        dest'.length = dest.length ∧ tmp' + y'.length = tmp + t.length ∧
        dest'.take tmp' ++ y' = dest.take tmp ++ t := by
  induction h with
  | @none x h =>
    intro pre z dest tmp hx hf
    exact ⟨dest, tmp, [], x, rfl, rfl, rfl, rfl, rfl⟩
  | @first k u v v' h hv ih =>
    intro pre z dest tmp hx hf
    simp only [List.length_append] at hf
    have hwl := hw.lt
    rw [copyLoop, strstr_some hr hx h, Res.ok_bind]
    simp only
    rw [Nat.add_sub_cancel_left]
    have es : slice (pre ++ (u ++ r ++ v) ++ 0 :: z) pre.length u.length = u := by
      unfold slice
      rw [List.append_assoc, List.drop_left, List.append_assoc, List.append_assoc, List.take_left]
    have ew : slice with_ 0 (w.length + 1) = w ++ [0] := by
      apply List.ext_getElem?
      intro i
      rw [slice_getElem?, Nat.zero_add, List.getElem?_append]
      by_cases hi : i < w.length
      · have := hw.bytes i hi
        rw [Nat.zero_add] at this
        rw [if_pos (by omega), if_pos hi, this, List.getElem?_eq_getElem hi]
      · rw [if_neg hi]
        by_cases hi2 : i = w.length
        · have := hw.nul
          rw [Nat.zero_add] at this
          rw [if_pos (by omega), hi2, this]; simp
        · rw [if_neg (by omega)]
          rw [List.getElem?_eq_none (by simp; omega)]
    rw [memcpy_ok (by omega) (by simp), Res.ok_bind, es]
    have hl1 : (splice dest tmp u).length = dest.length := length_splice (by omega)
    rw [memcpy_ok (by rw [hl1]; omega) (by omega), Res.ok_bind, ew]
    have hl2 : (splice (splice dest tmp u) (tmp + u.length) (w ++ [0])).length = dest.length := by
      rw [length_splice (by rw [hl1]; simp; omega), hl1]
    have ht : (splice (splice dest tmp u) (tmp + u.length) (w ++ [0])).take
        (tmp + u.length + w.length) = dest.take tmp ++ u ++ w := by
      apply List.ext_getElem?
      intro i
      rw [List.getElem?_take, splice_getElem? (by rw [hl1]; simp; omega),
        splice_getElem? (by omega)]
      simp only [List.length_append, List.length_singleton, List.getElem?_append, List.length_take,
        List.getElem?_take]
      grind
    have e2 : pre.length + u.length + r.length = (pre ++ u ++ r).length := by
      simp only [List.length_append]
    have e3 : pre ++ (u ++ r ++ v) ++ 0 :: z = (pre ++ u ++ r) ++ v ++ 0 :: z := by simp
    rw [e2, e3]
    obtain ⟨dest', tmp', y, y', g1, g2, g3, g4, g5⟩ := ih (pre := pre ++ u ++ r) (z := z)
      (dest := splice (splice dest tmp u) (tmp + u.length) (w ++ [0]))
      (tmp := tmp + u.length + w.length) (fun b hb => hx b (by simp [hb])) (by rw [hl2]; omega)
    refine ⟨dest', tmp', u ++ r ++ y, y', ?_, by rw [g2]; simp, by rw [g3, hl2], ?_, ?_⟩
    · rw [g1]
      congr 3
      simp only [List.length_append]; omega
    · rw [g4]; simp only [List.length_append]; omega
    · rw [g5, ht]; simp

end Verif.Str
