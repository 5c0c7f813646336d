import Verif.Str.Replace

/-! # Properties C27 – C33 of `sc_str` -/

namespace Verif.Str

/-! ## C28: create, dup, set, len, cmp -/

/-- **C28.** `sc_str_create` makes an object with exactly the bytes of the argument, unless
there is no memory or the argument is longer than `SC_STR_MAX`; then it returns NULL. -/
theorem str_create (al : Alloc UInt8) {str t : List UInt8} (c : CStr str 0 t) :
    (al ≠ none → t.length ≤ STR_MAX → ∃ s, create al (some str) = .ok (some s) ∧ Holds s t) ∧
    (al = none ∨ t.length > STR_MAX → create al (some str) = .ok none) := by
  obtain ⟨r, h, h1, h2⟩ := create_spec al c
  refine ⟨?_, fun h0 => by rw [h, h1 h0]⟩
  intro ha hl
  obtain ⟨s, rfl, hs⟩ := h2 ha hl
  exact ⟨s, h, hs⟩

/-- **C28.** `sc_str_create_len` makes an object with exactly the given bytes, NULs included. -/
theorem str_create_len (al : Alloc UInt8) {bs rest : List UInt8} (h : bs.length < W32) :
    (al ≠ none → ∃ s, createLen al (bs ++ rest) 0 bs.length = .ok (some s) ∧ Holds s bs) ∧
    (al = none → createLen al (bs ++ rest) 0 bs.length = .ok none) := by
  obtain ⟨r, hr, h1, h2⟩ := createLen_spec al (str := bs ++ rest) (off := 0) (len := bs.length)
    (by simp) h
  refine ⟨?_, fun h0 => by rw [hr, h1 h0]⟩
  intro ha
  obtain ⟨s, rfl, hs⟩ := h2 ha
  rw [slice_append_left (by omega), slice_self] at hs
  exact ⟨s, hr, hs⟩

/-- **C28.** `sc_str_create_fmt` makes an object with exactly the formatted text, whatever its
length. -/
theorem str_create_fmt (al : Alloc UInt8) (tmp : Nat → UInt8) {t : List UInt8}
    (ht : t.length ≤ INT_MAX) :
    (al ≠ none → ∃ s, createVa al tmp (some t) = .ok (some s) ∧ Holds s t) ∧
    (al = none → createVa al tmp (some t) = .ok none) := by
  obtain ⟨r, hr, h1, h2⟩ := createVa_spec al tmp ht
  refine ⟨?_, fun h0 => by rw [hr, h1 h0]⟩
  intro ha
  obtain ⟨s, rfl, hs⟩ := h2 ha
  exact ⟨s, hr, hs⟩

/-- **C28.** `sc_str_len` is the number of bytes. -/
theorem str_len {s : S} {c : List UInt8} (h : Holds s c) : len (some s) = c.length := by
  rw [len, h.len]

/-- **C28.** `sc_str_dup` makes another object with the same content. -/
theorem str_dup (al : Alloc UInt8) {s : S} {c : List UInt8} (h : Holds s c) :
    (al ≠ none → ∃ s', dup al (some s) = .ok (some s') ∧ Holds s' c) ∧
    (al = none → dup al (some s) = .ok none) := by
  have := str_create_len al (rest := [0]) h.small
  rw [dup, h.buf, h.len]
  exact this

/-- **C28.** `sc_str_set`: the string has the new content, or the call fails and the string is
what it was. -/
theorem str_set (al : Alloc UInt8) (old : Option S) {str t : List UInt8} (c : CStr str 0 t) :
    (al ≠ none → t.length ≤ STR_MAX →
      ∃ s, set al old (some str) = .ok (true, some s) ∧ Holds s t) ∧
    (al = none ∨ t.length > STR_MAX → set al old (some str) = .ok (false, old)) := by
  obtain ⟨h1, h2⟩ := str_create al c
  refine ⟨?_, fun h0 => by rw [set, h2 h0]; rfl⟩
  intro ha hl
  obtain ⟨s, h, hs⟩ := h1 ha hl
  exact ⟨s, by rw [set, h]; rfl, hs⟩

/-- **C28.** `sc_str_set_fmt`, likewise. -/
theorem str_set_fmt (al : Alloc UInt8) (tmp : Nat → UInt8) (old : Option S) {t : List UInt8}
    (ht : t.length ≤ INT_MAX) :
    (al ≠ none → ∃ s, setFmt al tmp old (some t) = .ok (true, some s) ∧ Holds s t) ∧
    (al = none → setFmt al tmp old (some t) = .ok (false, old)) := by
  obtain ⟨h1, h2⟩ := str_create_fmt al tmp ht
  refine ⟨?_, fun h0 => by rw [setFmt, h2 h0]; rfl⟩
  intro ha
  obtain ⟨s, h, hs⟩ := h1 ha
  exact ⟨s, by rw [setFmt, h]; rfl, hs⟩

/-- **C28.** `sc_str_cmp` is true exactly for equal contents. -/
theorem str_cmp {s1 s2 : S} {c1 c2 : List UInt8} (h1 : Holds s1 c1) (h2 : Holds s2 c2) :
    ∃ r, cmp s1 s2 = .ok r ∧ (r = true ↔ c1 = c2) := by
  rw [cmp, h1.len, h2.len, h1.buf, h2.buf]
  by_cases h : c1.length = c2.length
  · rw [if_pos h, memcmpEq, if_pos (by simp; omega)]
    refine ⟨_, rfl, ?_⟩
    rw [beq_iff_eq, List.take_left]
    rw [h, List.take_left]
  · rw [if_neg h]
    refine ⟨_, rfl, by simp; intro h'; exact h (by rw [h'])⟩

/-! ## C27: append -/

/-- **C27**, `sc_str_append`, part: for a string not longer than `SC_STR_MAX`, the result is the
concatenation, or the call fails — for lack of memory or because the result would be longer
than `SC_STR_MAX` — and the string is what it was. Missing: longer strings, which
`sc_str_create_len` makes (`str_append_violated`). -/
theorem str_append_partial (al : Alloc UInt8) {s : S} {c str t : List UInt8} (h : Holds s c)
    (hs : c.length ≤ STR_MAX) (ht : CStr str 0 t) (hm : t.length < W64) :
    (al ≠ none → c.length + t.length ≤ STR_MAX →
      ∃ s', append al (some s) (some str) = .ok (true, some s') ∧ Holds s' (c ++ t)) ∧
    (al = none ∨ c.length + t.length > STR_MAX →
      append al (some s) (some str) = .ok (false, some s)) := by
  have hl := h.len
  have hb := h.buf
  have hlt := ht.lt
  have hsub : sub64 STR_MAX s.len = STR_MAX - c.length := by unfold sub64; omega
  constructor
  · intro ha hle
    obtain ⟨fill, rfl⟩ := Option.ne_none_iff_exists'.1 ha
    have hr : (resized s.buf (s.len + t.length + 1) fill).length = c.length + t.length + 1 := by
      rw [length_resized, hl]
    have hsp : (splice (resized s.buf (s.len + t.length + 1) fill) c.length t).length =
        c.length + t.length + 1 := by rw [length_splice (by omega), hr]
    refine ⟨⟨c.length + t.length, (splice (resized s.buf (s.len + t.length + 1) fill) c.length t).set
      (c.length + t.length) 0⟩, ?_, by simp, ?_, by simp; omega⟩
    · have hc : ¬ t.length > sub64 STR_MAX s.len := by rw [hsub]; omega
      rw [append, strlen_eq ht, Res.ok_bind, if_neg hc]
      simp only
      rw [memcpy_ok (by rw [hr, hl]; omega) (by omega), Res.ok_bind, ht.slice]
      rw [hl] at hsp ⊢
      rw [Nat.mod_eq_of_lt (by omega), wr_lt (by omega), Res.ok_bind]
    · simp only
      apply List.ext_getElem?
      intro i
      rw [List.getElem?_set, hsp, splice_getElem? (by omega)]
      simp only [List.getElem?_append, List.length_append]
      by_cases hi : i < c.length
      · rw [resized_getElem? (by omega), hb, List.getElem?_append_left hi]
        grind
      · grind
  · intro h0
    rw [append, strlen_eq ht, Res.ok_bind]
    by_cases hgt : t.length > sub64 STR_MAX s.len
    · rw [if_pos hgt]
    · rw [if_neg hgt]
      rcases h0 with rfl | h0
      · rfl
      · omega

/-- **C27.** Appending to NULL creates the string. -/
theorem str_append_null (al : Alloc UInt8) {str t : List UInt8} (ht : CStr str 0 t) :
    (al ≠ none → t.length ≤ STR_MAX →
      ∃ s', append al none (some str) = .ok (true, some s') ∧ Holds s' t) ∧
    (al = none ∨ t.length > STR_MAX → append al none (some str) = .ok (false, none)) := by
  obtain ⟨h1, h2⟩ := str_create al ht
  refine ⟨?_, fun h0 => by rw [append, h2 h0]; rfl⟩
  intro ha hl
  obtain ⟨s, h, hs⟩ := h1 ha hl
  exact ⟨s, by rw [append, h]; rfl, hs⟩

/-- **C27** is false for strings longer than `SC_STR_MAX`: the check wraps around and so does
the new length. To a string of 2^32 - 2 bytes 3 bytes are appended, successfully; the string
then has the length 1. -/
theorem str_append_violated (fill : Nat → UInt8) {c : List UInt8} (hc : c.length = W32 - 2) :
    ∃ s s', createLen (some fill) c 0 c.length = .ok (some s) ∧ Holds s c ∧
      append (some fill) (some s) (some [65, 66, 67, 0]) = .ok (true, some s') ∧ s'.len = 1 := by
  obtain ⟨s, h1, h2⟩ := (str_create_len (some fill) (bs := c) (rest := []) (by omega)).1 (by simp)
  rw [List.append_nil] at h1
  have hl := h2.len
  have hst : strlen [65, 66, 67, 0] 0 = .ok 3 := by rfl
  have hsub : sub64 STR_MAX s.len = W64 - 4 := by rw [hl, hc]; rfl
  have hr : (resized s.buf (s.len + 3 + 1) fill).length = s.len + 4 := by
    rw [length_resized]
  have hsp : (splice (resized s.buf (s.len + 3 + 1) fill) s.len (slice [65, 66, 67, 0] 0 3)).length =
      s.len + 4 := by
    rw [length_splice (by rw [hr]; simp [slice]), hr]
  refine ⟨s, ⟨1, (splice (resized s.buf (s.len + 3 + 1) fill) s.len
    (slice [65, 66, 67, 0] 0 3)).set 1 0⟩, h1, h2, ?_, rfl⟩
  have hgt : ¬ 3 > sub64 STR_MAX s.len := by rw [hsub]; omega
  rw [append, hst, Res.ok_bind, if_neg hgt]
  simp only
  have hmod : (s.len + 3) % W32 = 1 := by omega
  rw [memcpy_ok (by omega) (by simp), Res.ok_bind, hmod, wr_lt (by omega), Res.ok_bind]

/-- **C27**, `sc_str_append_fmt`, part: for a string without NUL bytes the result is the
concatenation, or the call fails — for lack of memory or because the result would be longer
than `INT_MAX` — and the string is what it was. Missing: strings with NUL bytes
(`str_append_fmt_violated`). -/
theorem str_append_fmt_partial (al : Alloc UInt8) (tmp : Nat → UInt8) {s : S} {c t : List UInt8}
    (h : Holds s c) (hc : ∀ b ∈ c, b ≠ 0) :
    (al ≠ none → (c ++ t).length ≤ INT_MAX →
      ∃ s', appendFmt al tmp (some s) (some t) = .ok (true, some s') ∧ Holds s' (c ++ t)) ∧
    (al = none ∨ (c ++ t).length > INT_MAX →
      appendFmt al tmp (some s) (some t) = .ok (false, some s)) := by
  have hcs := holds_cstr h
  rw [ctext_eq_self hc] at hcs
  constructor
  · intro ha hle
    obtain ⟨s', h1, h2⟩ := (str_set_fmt al tmp (some s) hle).1 ha
    refine ⟨s', ?_, h2⟩
    rw [appendFmt, cstr_eq hcs, Res.ok_bind]
    simp only
    rw [if_pos hle, h1]
  · intro h0
    rw [appendFmt, cstr_eq hcs, Res.ok_bind]
    simp only
    by_cases hle : (c ++ t).length ≤ INT_MAX
    · rw [if_pos hle]
      rcases h0 with h0 | h0
      · exact (str_set_fmt al tmp (some s) hle).2 h0
      · omega
    · rw [if_neg hle]; rfl

/-- **C27** is false for `sc_str_append_fmt` on strings with a NUL: what follows it is lost. -/
theorem str_append_fmt_violated :
    ∃ s s', Holds s [65, 0, 66] ∧
      appendFmt (some fun _ => 0) (fun _ => 0) (some s) (some [67]) = .ok (true, some s') ∧
      Holds s' [65, 67] := by
  refine ⟨⟨3, [65, 0, 66, 0]⟩, ⟨2, [65, 67, 0]⟩, ⟨rfl, rfl, by decide⟩, by decide +kernel,
    rfl, rfl, by decide⟩

/-! ## C29: trim -/

/-- **C29**, part: `sc_str_trim` of a string without NUL bytes leaves what is between the
listed characters at both ends; it fails only for lack of memory, and then leaves the string
as it was. Missing: strings that end in NUL bytes (`str_trim_violated`). -/
theorem str_trim_partial (al : Alloc UInt8) {s : S} {c l list : List UInt8} (h : Holds s c)
    (hc : ∀ b ∈ c, b ≠ 0) (hl : CStr list 0 l) :
    ∃ ok s', trim al (some s) list = .ok (ok, some s') ∧
      (ok = true → ∃ t, Trimmed l c t ∧ Holds s' t) ∧ (ok = false → s' = s ∧ al = none) := by
  obtain ⟨ok, s', t, a, b, h1, h2, h3, h4, h5, h6, h7, h8⟩ := trim_spec al h hl
  refine ⟨ok, s', h1, fun ho => ⟨t, ⟨a, b, h2, h3, ?_, h5, fun x hx => (h6 x hx).2⟩, h7 ho⟩, h8⟩
  intro x hx
  rcases h4 x hx with h0 | h0
  · exact absurd h0 (hc x (by rw [h2]; simp [hx]))
  · exact h0

/-- There is only one trimmed string. -/
theorem trimmed_unique {l c t t' : List UInt8} (h : Trimmed l c t) (h' : Trimmed l c t') :
    t = t' := by
  obtain ⟨a, b, e, ha, hb, hh, hla⟩ := h
  obtain ⟨a', b', e', ha', hb', hh', hla'⟩ := h'
  have key : ∀ {a b t a' b' t' : List UInt8}, a ++ t ++ b = a' ++ t' ++ b' → (∀ x ∈ a, x ∈ l) →
      (∀ x ∈ b', x ∈ l) → (∀ x ∈ a', x ∈ l) → (∀ x, t.head? = some x → x ∉ l) →
      (∀ x ∈ b, x ∈ l) → t ≠ [] → a'.length ≤ a.length := by
    intro a b t a' b' t' e ha hb' ha' hh hb hne
    apply Nat.le_of_not_lt
    intro hlt
    cases t with
    | nil => exact hne rfl
    | cons x t =>
      have : a'[a.length]? = some x := by
        have h1 := congrArg (fun l : List UInt8 => l[a.length]?) e
        simp only [List.append_assoc] at h1
        rw [List.getElem?_append_right (Nat.le_refl _), List.getElem?_append_left hlt] at h1
        rw [← h1]; simp
      exact hh x rfl (ha' x (List.mem_of_getElem? this))
  have all : ∀ {a b t : List UInt8}, t = [] → (∀ x ∈ a, x ∈ l) → (∀ x ∈ b, x ∈ l) →
      ∀ x ∈ a ++ t ++ b, x ∈ l := by
    intro a b t ht ha hb x hx
    subst ht
    simp only [List.append_nil, List.mem_append] at hx
    rcases hx with hx | hx
    · exact ha x hx
    · exact hb x hx
  have ee : a ++ t ++ b = a' ++ t' ++ b' := by rw [← e, ← e']
  by_cases ht : t = []
  · by_cases ht' : t' = []
    · rw [ht, ht']
    · exfalso
      cases t' with
      | nil => exact ht' rfl
      | cons x t' => exact hh' x rfl (all ht ha hb x (by rw [ee]; simp))
  · by_cases ht' : t' = []
    · exfalso
      cases t with
      | nil => exact ht rfl
      | cons x t => exact hh x rfl (all ht' ha' hb' x (by rw [← ee]; simp))
    · have l1 := key ee ha hb' ha' hh hb ht
      have l2 := key ee.symm ha' hb ha hh' hb' ht'
      have la : a.length = a'.length := by omega
      rw [List.append_assoc, List.append_assoc] at ee
      obtain ⟨-, ee⟩ := List.append_inj ee la
      have er : b.reverse ++ t.reverse ++ ([] : List UInt8) = b'.reverse ++ t'.reverse ++ [] := by
        have := congrArg List.reverse ee
        simpa using this
      have hd : ∀ {t : List UInt8}, (∀ x, t.getLast? = some x → x ∉ l) →
          ∀ x, t.reverse.head? = some x → x ∉ l := by
        intro t h x hx; rw [List.head?_reverse] at hx; exact h x hx
      have rev : ∀ {b : List UInt8}, (∀ x ∈ b, x ∈ l) → ∀ x ∈ b.reverse, x ∈ l := by
        intro b h x hx; exact h x (List.mem_reverse.1 hx)
      have l3 := key er (rev hb) (by simp) (rev hb') (hd hla) (by simp) (by simpa using ht)
      have l4 := key er.symm (rev hb') (by simp) (rev hb) (hd hla') (by simp) (by simpa using ht')
      rw [List.length_reverse, List.length_reverse] at l3 l4
      have := congrArg List.length ee
      simp only [List.length_append] at this
      exact (List.append_inj ee (by omega)).1

/-- **C29** is false for strings that end in NUL bytes: these are removed although they are
not listed. -/
theorem str_trim_violated :
    ∃ s s', Holds s [65, 0] ∧ trim (some fun _ => 0) (some s) [32, 0] = .ok (true, some s') ∧
      Holds s' [65] ∧ ¬ Trimmed [32] [65, 0] [65] := by
  refine ⟨⟨2, [65, 0, 0]⟩, ⟨1, [65, 0]⟩, ⟨rfl, rfl, by decide⟩, by decide +kernel,
    ⟨rfl, rfl, by decide⟩, ?_⟩
  intro h
  have h' : Trimmed [32] [65, 0] [65, 0] := ⟨[], [], by simp, by simp, by simp, by simp, by simp⟩
  have := trimmed_unique h h'
  simp at this

/-! ## C30: substring -/

/-- **C30.** -/
theorem str_substring (al : Alloc UInt8) {s : S} {c : List UInt8} (h : Holds s c)
    (start end_ : Nat) :
    (al ≠ none → start ≤ end_ → end_ ≤ c.length →
      ∃ s', substring al (some s) start end_ = .ok (true, some s') ∧
        Holds s' ((c.take end_).drop start)) ∧
    (al = none ∨ ¬ (start ≤ end_ ∧ end_ ≤ c.length) →
      substring al (some s) start end_ = .ok (false, some s)) := by
  have hl := h.len
  have hb := h.buf
  have hsm := h.small
  by_cases hr : start ≤ end_ ∧ end_ ≤ c.length
  · obtain ⟨r, h1, h2, h3⟩ := createLen_spec al (str := s.buf) (off := start) (len := end_ - start)
      (by rw [hb]; simp; omega) (by omega)
    have hcond : ¬ (start > s.len ∨ end_ > s.len ∨ start > end_) := by omega
    constructor
    · intro ha _ _
      obtain ⟨s', rfl, hs'⟩ := h3 ha
      refine ⟨s', ?_, ?_⟩
      · rw [substring, if_neg hcond, h1]; rfl
      · rw [hb, slice_append_left (by omega)] at hs'
        rw [List.drop_take]; exact hs'
    · rintro (ha | ha)
      · rw [substring, if_neg hcond, h1, h2 ha]; rfl
      · exact absurd hr ha
  · refine ⟨fun _ h1 h2 => absurd ⟨h1, h2⟩ hr, fun _ => ?_⟩
    have hcond : start > s.len ∨ end_ > s.len ∨ start > end_ := by omega
    rw [substring, if_pos hcond]

/-! ## C31, C32: replace -/

/-- **C31.** For a pattern that is not empty `sc_str_replace` replaces each leftmost
non-overlapping occurrence (in the part of the string before its first NUL, the rest is kept),
or returns false and changes nothing. It succeeds if there is memory and neither the string
nor the result is longer than `SC_STR_MAX`; it does not make a string longer than that. -/
theorem str_replace (al : Alloc UInt8) {s : S} {c rep r with_ w : List UInt8} (h : Holds s c)
    (hr : CStr rep 0 r) (hw : CStr with_ 0 w) (hne : r ≠ []) :
    ∃ t, Subst r w (ctext c) t ∧ ∃ res, (∀ fuel > c.length,
        replace al fuel (some s) (some rep) (some with_) = .ok (some res)) ∧
      ((∃ s', res = (true, some s') ∧ Holds s' (t ++ c.drop (ctext c).length) ∧
          (c.length ≤ STR_MAX → s'.len ≤ STR_MAX)) ∨
       res = (false, some s)) ∧
      (al ≠ none → r.length < W32 - 1 → w.length < W32 - 1 → c.length ≤ STR_MAX →
        t.length + (c.length - (ctext c).length) ≤ STR_MAX → res.1 = true) := by
  obtain ⟨k, t, hst⟩ := SubstN.exists (w := w) hne _ (ctext c) (Nat.le_refl _)
  refine ⟨t, hst.subst, ?_⟩
  have hl := h.len
  have hb := h.buf
  have hsm := h.small
  obtain ⟨z, hz1, hz2, y, hy1, hy2⟩ := ctext_split c
  have hdrop : c.drop (ctext c).length = y := by
    generalize ctext c = x at hy1
    rw [hy1, List.drop_left]
  have hnz := @ctext_nonzero c
  have hk : k ≤ c.length := by
    have hrl : 0 < r.length := List.length_pos_iff.2 hne
    have : ∀ {k : Nat} {x t : List UInt8}, SubstN r w k x t → k ≤ x.length := by
      intro k x t hs
      induction hs with
      | none => simp
      | first _ _ ih => simp only [List.length_append]; omega
    have := this hst
    omega
  rw [hdrop]
  by_cases hbig : r.length ≥ W32 - 1 ∨ w.length ≥ W32 - 1
  · refine ⟨(false, some s), ?_, Or.inr rfl, ?_⟩
    · intro fuel hf
      rw [replace]
      simp only
      rw [strlen_eq hr, Res.ok_bind, strlen_eq hw, Res.ok_bind, if_pos hbig]
    · intro _ h1 h2; omega
  · have hstart : ∀ fuel, replace al fuel (some s) (some rep) (some with_) =
        (let diff : Int := (w.length : Int) - (r.length : Int)
        if diff = 0 then do
          match ← replaceSame rep with_ r.length fuel s.buf 0 with
          | none => .ok none
          | some b => .ok (some (true, some { s with buf := b }))
        else do
          match ← countLoop s.buf rep r.length diff fuel 0 s.len 0 with
          | .more => .ok none
          | .over => .ok (some (false, some s))
          | .done count size =>
            if count = 0 then .ok (some (true, some s))
            else
              match al with
              | none => .ok (some (false, some s))
              | some fill => do
                let (dest, tmp, orig) ←
                  copyLoop s.buf rep with_ r.length w.length count (fresh size fill) 0 0
                let dest ← memcpy dest tmp s.buf orig (s.len - orig + 1)
                .ok (some (true, some ⟨size % W32, dest⟩))) := by
      intro fuel
      rw [replace]
      simp only
      rw [strlen_eq hr, Res.ok_bind, strlen_eq hw, Res.ok_bind, if_neg hbig]
      rfl
    have hlen := hst.length
    by_cases hd : (w.length : Int) - (r.length : Int) = 0
    · -- same length
      refine ⟨(true, some { s with buf := t ++ 0 :: z }), ?_,
        Or.inl ⟨_, rfl, ?_, fun hle => by show s.len ≤ _; omega⟩, fun _ _ _ _ _ => rfl⟩
      · intro fuel hf
        have := replaceSame_spec hr hw (by omega) hst (pre := []) (z := z) (fuel := fuel) hnz
          (by omega)
        rw [hstart]
        simp only
        rw [if_pos hd, hb, hz1]
        simp only [List.nil_append, List.length_nil] at this
        rw [this]
        rfl
      · have hkd : (k : Int) * ((w.length : Int) - r.length) = 0 := by rw [hd]; simp
        refine ⟨?_, ?_, ?_⟩
        · rw [hl]
          have e1 := congrArg List.length hy1
          simp only [List.length_append] at e1 ⊢
          omega
        · simp only
          rw [hy2, List.append_assoc]
        · have e1 := congrArg List.length hy1
          simp only [List.length_append] at e1 ⊢
          omega
    · have e1 := congrArg List.length hy1
      simp only [List.length_append] at e1
      obtain ⟨o, ho, hout⟩ : ∃ o, (∀ fuel > c.length,
          countLoop s.buf rep r.length ((w.length : Int) - r.length) fuel 0 s.len 0 = .ok o) ∧
          ((o = .over ∧ (c.length > STR_MAX ∨ c.length + t.length - (ctext c).length > STR_MAX)) ∨
           (o = .done k (c.length + t.length - (ctext c).length) ∧
             (k ≠ 0 → c.length + t.length - (ctext c).length ≤ STR_MAX))) := by
        obtain ⟨o, ho, hout⟩ := countLoop_spec hr hst (pre := []) (z := z) (size := c.length)
          (count := 0) hnz (by omega)
        simp only [List.nil_append, List.length_nil, Nat.zero_add] at ho hout
        rw [hb, hz1, hl]
        exact ⟨o, fun fuel hf => ho fuel (by omega), hout⟩
      rcases hout with ⟨rfl, h1⟩ | ⟨rfl, h1⟩
      · refine ⟨(false, some s), ?_, Or.inr rfl, by intros; omega⟩
        intro fuel hf
        rw [hstart]
        simp only
        rw [if_neg hd, ho fuel hf]
        rfl
      · by_cases hk0 : k = 0
        · subst hk0
          refine ⟨(true, some s), ?_, Or.inl ⟨s, rfl, ?_, fun hle => by omega⟩,
            fun _ _ _ _ _ => rfl⟩
          · intro fuel hf
            rw [hstart]
            simp only
            rw [if_neg hd, ho fuel hf]
            rfl
          · cases hst
            rw [← hy1]; exact h
        · have hsz := h1 hk0
          cases al with
          | none =>
            refine ⟨(false, some s), ?_, Or.inr rfl, fun h => absurd rfl h⟩
            intro fuel hf
            rw [hstart]
            simp only
            rw [if_neg hd, ho fuel hf, Res.ok_bind]
            simp only
            rw [if_neg hk0]
          | some fill =>
            generalize hS : c.length + t.length - (ctext c).length = size at *
            have hfl := length_fresh size fill
            obtain ⟨dest', tmp', y1, y2, g1, g2, g3, g4, g5⟩ := copyLoop_spec hr hw hst (pre := [])
              (z := z) (dest := fresh size fill) (tmp := 0) hnz (by omega)
            simp only [List.nil_append, List.length_nil, Nat.zero_add, List.take_zero] at g1 g4 g5
            have g2l := congrArg List.length g2
            simp only [List.length_append] at g2l
            have hsl : slice (c ++ [0]) y1.length (c.length - y1.length + 1) = y2 ++ (y ++ [0]) := by
              have e : c ++ [0] = y1 ++ (y2 ++ (y ++ [0])) := by
                rw [hz1, hy2, g2]; simp
              rw [e]
              unfold slice
              rw [List.drop_left, List.take_of_length_le]
              simp only [List.length_append, List.length_singleton]; omega
            have hfin : splice dest' tmp' (y2 ++ (y ++ [0])) = t ++ y ++ [0] := by
              unfold splice
              rw [← List.append_assoc, g5, List.drop_of_length_le
                (by simp only [List.length_append, List.length_singleton]; omega)]
              simp
            refine ⟨(true, some ⟨size, t ++ y ++ [0]⟩), ?_,
              Or.inl ⟨_, rfl, ⟨?_, rfl, ?_⟩, fun _ => hsz⟩, fun _ _ _ _ _ => rfl⟩
            · intro fuel hf
              rw [hstart]
              simp only
              rw [if_neg hd, ho fuel hf, Res.ok_bind]
              simp only
              rw [if_neg hk0, hb, hz1, g1, Res.ok_bind]
              simp only
              rw [← hz1, hl, memcpy_ok (by omega) (by simp; omega), hsl, hfin, Res.ok_bind,
                Nat.mod_eq_of_lt (by omega)]
            · simp only [List.length_append]; omega
            · simp only [List.length_append]; omega

/-- The result of `Subst` is unique, for a pattern that is not empty. -/
theorem subst_unique {r w s t t' : List UInt8} (h : Subst r w s t) (h' : Subst r w s t') :
    t = t' := by
  induction h generalizing t' with
  | none h =>
    cases h' with
    | none => rfl
    | @first u v v' _ _ => exact absurd ⟨u, v, rfl, rfl⟩ (h u.length)
  | @first u v v' h hv ih =>
    generalize hs : u ++ r ++ v = s at h'
    cases h' with
    | none h' => subst hs; exact absurd ⟨u, v, rfl, rfl⟩ (h' u.length)
    | @first u1 v1 v1' h1 hv1 =>
      have l1 : ¬ u1.length < u.length := fun hlt => h _ hlt ⟨u1, v1, hs, rfl⟩
      have l2 : ¬ u.length < u1.length := fun hlt => h1 _ hlt ⟨u, v, hs.symm, rfl⟩
      rw [List.append_assoc, List.append_assoc] at hs
      obtain ⟨rfl, e⟩ := List.append_inj hs (by omega)
      have e := List.append_cancel_left e
      subst e
      rw [ih hv1]

theorem strstr_empty {buf x rep : List UInt8} {p : Nat} (hr : CStr rep 0 []) (hx : CStr buf p x) :
    strstr buf p rep = .ok (some p) := by
  rw [strstr, cstr_eq hr, Res.ok_bind, cstr_eq hx, Res.ok_bind]
  cases x <;> simp [firstOcc]

theorem countLoop_empty {buf x rep : List UInt8} (hr : CStr rep 0 []) (hx : CStr buf 0 x) {d : Nat}
    (hd : 0 < d) : ∀ (fuel size count : Nat), STR_MAX + 1 < size + fuel →
      countLoop buf rep 0 d fuel 0 size count = .ok .over ∨ STR_MAX + 1 < size := by
  intro fuel
  induction fuel with
  | zero => intro size count h; exact Or.inr (by omega)
  | succ fuel ih =>
    intro size count h
    rw [countLoop, strstr_empty hr hx, Res.ok_bind]
    simp only [Nat.add_zero]
    split
    · exact Or.inl rfl
    · next hle =>
      have e : ((size : Int) + (d : Int)).toNat = size + d := by omega
      rw [e]
      rcases ih (size + d) (count + 1) (by omega) with h1 | h1
      · exact Or.inl h1
      · omega

/-- **C32**, part: `sc_str_replace` returns — with the same result for every bound that is
large enough — unless pattern and replacement are both empty. For an empty pattern it returns
false. Missing: both empty, for which it does not return (`str_replace_violated`). -/
theorem str_replace_returns_partial (al : Alloc UInt8) {s : S} {c rep r with_ w : List UInt8}
    (h : Holds s c) (hr : CStr rep 0 r) (hw : CStr with_ 0 w) (hne : r ≠ [] ∨ w ≠ []) :
    ∃ n res, (∀ fuel ≥ n, replace al fuel (some s) (some rep) (some with_) = .ok (some res)) ∧
      (r = [] → res = (false, some s)) := by
  by_cases hre : r = []
  · subst hre
    have hwl : 0 < w.length := List.length_pos_iff.2 (by simpa using hne)
    refine ⟨STR_MAX + 2, (false, some s), ?_, fun _ => rfl⟩
    intro fuel hf
    rw [replace]
    simp only
    rw [strlen_eq hr, Res.ok_bind, strlen_eq hw, Res.ok_bind]
    split
    · rfl
    · simp only [List.length_nil, Int.natCast_zero, Int.sub_zero]
      rw [if_neg (by omega)]
      obtain ⟨fuel, rfl⟩ : ∃ f, fuel = f + 1 := ⟨fuel - 1, by omega⟩
      have hov : countLoop s.buf rep 0 w.length (fuel + 1) 0 s.len 0 = .ok .over := by
        rcases countLoop_empty hr (holds_cstr h) hwl (fuel + 1) s.len 0 (by omega) with h1 | h1
        · exact h1
        · rw [countLoop, strstr_empty hr (holds_cstr h), Res.ok_bind]
          simp only
          rw [if_pos (by omega)]
      rw [hov]
      rfl
  · obtain ⟨t, _, res, h1, _⟩ := str_replace al h hr hw hre
    exact ⟨c.length + 1, res, fun fuel hf => h1 fuel (by omega), fun h => absurd h hre⟩

/-- **C32** is false: replacing the empty string by the empty string does not return. -/
theorem str_replace_violated (al : Alloc UInt8) {s : S} {c rep with_ : List UInt8}
    (h : Holds s c) (hr : CStr rep 0 []) (hw : CStr with_ 0 []) (fuel : Nat) :
    replace al fuel (some s) (some rep) (some with_) = .ok none := by
  have hloop : ∀ fuel, replaceSame rep with_ 0 fuel s.buf 0 = .ok none := by
    intro fuel
    induction fuel with
    | zero => rfl
    | succ fuel ih =>
      rw [replaceSame, strstr_empty hr (holds_cstr h), Res.ok_bind]
      simp only
      have hwl := hw.lt
      rw [memcpy_ok (by omega) (by omega), Res.ok_bind]
      have e : splice s.buf 0 (slice with_ 0 0) = s.buf := by simp [splice, slice]
      rw [e, Nat.add_zero, ih]
  rw [replace]
  simp only
  rw [strlen_eq hr, Res.ok_bind, strlen_eq hw, Res.ok_bind]
  simp only [List.length_nil, Int.natCast_zero, Int.sub_zero]
  rw [if_neg (by decide), if_pos trivial, hloop]
  rfl

/-! ## C33: tokens -/

/-- **C33.** However many times `sc_str_token_begin` is called, it returns the pieces of the
string (up to its first NUL) in order, then NULL; and `sc_str_token_end` at any moment makes
the string exactly what it was. -/
theorem str_tokens {s : S} {c del d : List UInt8} (h : Holds s c) (hd : CStr del 0 d) (k : Nat) :
    ∃ s' save', walk del k s none =
        .ok (s', save', (List.range k).map ((pieces d (ctext c))[·]?)) ∧
      tokenEnd s' save' = .ok s := by
  have e : s = ⟨c.length, c ++ [0]⟩ := by
    obtain ⟨l, b⟩ := s
    have h1 := h.len
    have h2 := h.buf
    simp only at h1 h2
    rw [h1, h2]
  rw [e]
  obtain ⟨s', save', h1, h2⟩ := walk_spec hd k (At.start (d := d) (c := c))
  exact ⟨s', save', h1, tokenEnd_spec h2⟩

/-- What `pieces` are: without delimiters, and put together with delimiters in between they
are the string. -/
theorem pieces_no_delim (d s : List UInt8) : ∀ p ∈ pieces d s, ∀ x ∈ p, x ∉ d := by
  induction s with
  | nil => simp [pieces]
  | cons c s ih =>
    intro p hp x hx
    unfold pieces at hp
    split at hp
    · rcases List.mem_cons.1 hp with rfl | hp
      · simp at hx
      · exact ih p hp x hx
    · next hc =>
      split at hp
      · simp only [List.mem_singleton] at hp
        subst hp
        simp only [List.mem_singleton] at hx
        subst hx; exact hc
      · next q qs hq =>
        rcases List.mem_cons.1 hp with rfl | hp
        · rcases List.mem_cons.1 hx with rfl | hx
          · exact hc
          · exact ih q (by rw [hq]; simp) x hx
        · exact ih p (by rw [hq]; simp [hp]) x hx

/-- The string is made of its pieces and the delimiters between them. -/
inductive Joined (d : List UInt8) : List (List UInt8) → List UInt8 → Prop where
  | one {p : List UInt8} : Joined d [p] p
  | cons {p s : List UInt8} {ps : List (List UInt8)} {x : UInt8} : x ∈ d → Joined d ps s →
      Joined d (p :: ps) (p ++ x :: s)

theorem pieces_joined (d s : List UInt8) : Joined d (pieces d s) s := by
  induction s with
  | nil => exact .one
  | cons c s ih =>
    unfold pieces
    split
    · next hc => exact .cons (p := []) hc ih
    · split
      · next h => exact absurd h (pieces_ne_nil d s)
      · next p ps h =>
        rw [h] at ih
        cases ih with
        | one => exact .one
        | @cons _ s' _ x hx hj => exact .cons (p := c :: p) hx hj

/-! ## The hypotheses are met -/

/-- "user1-user2" split at '-': two tokens, then NULL twice (C33). -/
example : Holds ⟨3, [97, 45, 98, 0]⟩ [97, 45, 98] ∧ CStr [45, 0] 0 [45] ∧
    (match walk [45, 0] 4 ⟨3, [97, 45, 98, 0]⟩ none with
      | .ok (_, _, t) => t
      | .ub => []) = [some [97], some [98], none, none] := by
  refine ⟨⟨rfl, rfl, by decide⟩, CStr.self (s := [45]) (by decide), by decide +kernel⟩

/-- "aXbX" with "X" replaced by "yz" (C31). -/
example : replace (some fun _ => 0) 5 (some ⟨4, [97, 88, 98, 88, 0]⟩) (some [88, 0])
    (some [121, 122, 0]) = .ok (some (true, some ⟨6, [97, 121, 122, 98, 121, 122, 0]⟩)) := by
  decide +kernel

/-- " a " trimmed (C29). -/
example : trim (some fun _ => 0) (some ⟨3, [32, 97, 32, 0]⟩) [32, 0] =
    .ok (true, some ⟨1, [97, 0]⟩) := by decide +kernel

end Verif.Str
