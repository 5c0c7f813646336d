import Verif.Str.Spec

namespace Verif.Str

/-- A NUL-free list in front of a NUL is a C string. -/
theorem cstr_mid {pre x z : List UInt8} (h : ∀ b ∈ x, b ≠ 0) :
    CStr (pre ++ x ++ 0 :: z) pre.length x := by
  refine ⟨?_, h, ?_⟩
  · intro i hi
    rw [List.append_assoc, List.getElem?_append_right (by omega),
      List.getElem?_append_left (by omega), Nat.add_sub_cancel_left, List.getElem?_eq_getElem hi]
  · rw [List.getElem?_append_right (by simp)]
    simp

theorem mem_takeWhile {p : UInt8 → Bool} {l : List UInt8} {x : UInt8} (h : x ∈ l.takeWhile p) :
    p x = true := by
  induction l with
  | nil => simp at h
  | cons c l ih =>
    rw [List.takeWhile_cons] at h
    split at h
    · rcases List.mem_cons.1 h with rfl | h
      · assumption
      · exact ih h
    · simp at h

theorem ctext_nonzero {c : List UInt8} : ∀ b ∈ ctext c, b ≠ 0 := by
  intro b hb
  have := mem_takeWhile hb
  simpa using this

/-- Content, cut at the first NUL, with the terminator. -/
theorem ctext_split (c : List UInt8) : ∃ z, c ++ [0] = ctext c ++ 0 :: z ∧
    c.length = (ctext c).length + z.length ∧
    ∃ y, c = ctext c ++ y ∧ 0 :: z = y ++ [0] := by
  induction c with
  | nil => exact ⟨[], rfl, rfl, [], rfl, rfl⟩
  | cons b c ih =>
    by_cases hb : b = 0
    · subst hb
      exact ⟨c ++ [0], by simp [ctext], by simp [ctext], 0 :: c, by simp [ctext], by simp⟩
    · obtain ⟨z, h1, h2, y, h3, h4⟩ := ih
      have e : ctext (b :: c) = b :: ctext c := by simp [ctext, hb]
      refine ⟨z, by rw [e]; simp [h1], by rw [e]; simp [h2]; omega, y, ?_, h4⟩
      rw [e, List.cons_append, ← h3]

theorem ctext_eq_self {c : List UInt8} (h : ∀ b ∈ c, b ≠ 0) : ctext c = c := by
  unfold ctext
  induction c with
  | nil => rfl
  | cons b c ih =>
    have hb := h b (by simp)
    simp only [List.takeWhile_cons, ne_eq, hb, not_false_eq_true, decide_true, if_true]
    rw [ih (fun b hb => h b (by simp [hb]))]

theorem holds_cstr {s : S} {c : List UInt8} (h : Holds s c) : CStr s.buf 0 (ctext c) := by
  obtain ⟨z, h1, _⟩ := ctext_split c
  rw [h.buf, h1]
  exact cstr_mid (pre := []) ctext_nonzero

/-! ## Creating -/

theorem length_fresh (n : Nat) (fill : Nat → UInt8) : (fresh n fill).length = n + 1 := by
  unfold fresh
  rw [length_resized]

theorem createLen_spec (al : Alloc UInt8) {str : List UInt8} {off len : Nat}
    (h : off + len ≤ str.length) (hl : len < W32) :
    ∃ r, createLen al str off len = .ok r ∧ (al = none → r = none) ∧
      (al ≠ none → ∃ s, r = some s ∧ Holds s (slice str off len)) := by
  cases al with
  | none => exact ⟨none, rfl, fun _ => rfl, fun h => absurd rfl h⟩
  | some fill =>
    have h1 := length_fresh len fill
    have h2 := length_slice h
    have h3 : (splice (fresh len fill) 0 (slice str off len)).length = len + 1 := by
      rw [length_splice (by omega), h1]
    refine ⟨some ⟨len, (splice (fresh len fill) 0 (slice str off len)).set len 0⟩, ?_,
      nofun, fun _ => ⟨_, rfl, ?_⟩⟩
    · rw [createLen, memcpy_ok (by omega) h, Res.ok_bind, wr_lt (by omega), Res.ok_bind]
    · refine ⟨h2.symm, ?_, by rw [h2]; exact hl⟩
      simp only
      apply List.ext_getElem?
      intro i
      have h4 := splice_getElem? (dst := fresh len fill) (d := 0) (bs := slice str off len)
        (i := i) (by omega)
      rw [List.getElem?_set, h3, h4, List.getElem?_append, h2]
      grind

theorem create_spec (al : Alloc UInt8) {str t : List UInt8} (c : CStr str 0 t) :
    ∃ r, create al (some str) = .ok r ∧ (al = none ∨ t.length > STR_MAX → r = none) ∧
      (al ≠ none → t.length ≤ STR_MAX → ∃ s, r = some s ∧ Holds s t) := by
  rw [create, strlen_eq c, Res.ok_bind]
  split
  · exact ⟨none, rfl, fun _ => rfl, fun _ h => by omega⟩
  · have hc := c.lt
    have hm : t.length % W32 = t.length := Nat.mod_eq_of_lt (by omega)
    rw [hm]
    obtain ⟨r, h1, h2, h3⟩ := createLen_spec al (str := str) (off := 0) (len := t.length)
      (by omega) (by omega)
    refine ⟨r, h1, ?_, ?_⟩
    · rintro (h | h)
      · exact h2 h
      · omega
    · intro h _
      obtain ⟨s, hs, hh⟩ := h3 h
      rw [c.slice] at hh
      exact ⟨s, hs, hh⟩

theorem createVa_spec (al : Alloc UInt8) (tmp : Nat → UInt8) {t : List UInt8}
    (ht : t.length ≤ INT_MAX) :
    ∃ r, createVa al tmp (some t) = .ok r ∧ (al = none → r = none) ∧
      (al ≠ none → ∃ s, r = some s ∧ Holds s t) := by
  have hl : (resized [] 1024 tmp).length = 1024 := by rw [length_resized]
  have hv : vsnprintf (resized [] 1024 tmp) 0 1024 (some t) =
      .ok (splice (resized [] 1024 tmp) 0 (t.take 1023 ++ [0]), some t.length) := by
    rw [vsnprintf]
    simp only [Nat.reduceSub]
    rw [if_neg (by decide), if_pos (by simp; omega)]
  rw [createVa, hv, Res.ok_bind]
  cases al with
  | none => exact ⟨none, rfl, fun _ => rfl, fun h => absurd rfl h⟩
  | some fill =>
    have hf := length_fresh t.length fill
    have hm : t.length % W32 = t.length := Nat.mod_eq_of_lt (by omega)
    simp only [hm]
    by_cases h : t.length < 1024
    · rw [if_pos h]
      have h2 : t.take 1023 = t := List.take_of_length_le (by omega)
      rw [h2]
      have h3 : (splice (resized [] 1024 tmp) 0 (t ++ [0])).length = 1024 := by
        rw [length_splice (by simp; omega), hl]
      have h4 : slice (splice (resized [] 1024 tmp) 0 (t ++ [0])) 0 (t.length + 1) = t ++ [0] := by
        have := take_splice (dst := resized [] 1024 tmp) (d := 0) (bs := t ++ [0])
          (by simp; omega)
        simpa [slice] using this
      rw [memcpy_ok (by omega) (by omega), h4, Res.ok_bind]
      refine ⟨_, rfl, nofun, fun _ => ⟨_, rfl, rfl, ?_, by omega⟩⟩
      simp [splice]
      omega
    · rw [if_neg h]
      have h2 : t.take (t.length + 1 - 1) = t := List.take_of_length_le (by omega)
      have hv2 : vsnprintf (fresh t.length fill) 0 (t.length + 1) (some t) =
          .ok (splice (fresh t.length fill) 0 (t ++ [0]), some t.length) := by
        rw [vsnprintf]
        simp only
        rw [if_neg (by omega), h2, if_pos (by simp; omega)]
      rw [hv2, Res.ok_bind]
      simp only
      rw [if_neg (by omega)]
      refine ⟨_, rfl, nofun, fun _ => ⟨_, rfl, rfl, ?_, by omega⟩⟩
      simp [splice]
      omega

theorem createVa_none (al : Alloc UInt8) (tmp : Nat → UInt8) : createVa al tmp none = .ok none := by
  rfl

/-! ## Tokens -/

/-- The buffer with the byte at `p` and the terminator exchanged. -/
def swapped (c : List UInt8) (p : Nat) : List UInt8 :=
  ((c ++ [0]).set c.length ((c ++ [0])[p]?.getD 0)).set p 0

theorem swap_orig {c : List UInt8} {p : Nat} (h : p ≤ c.length) :
    swap ⟨c.length, c ++ [0]⟩ p = .ok ⟨c.length, swapped c p⟩ := by
  have h1 : (c ++ [0]).length = c.length + 1 := by simp
  have hp : p < (c ++ [0]).length := by omega
  unfold swap
  simp only
  rw [rd_lt (by omega), Res.ok_bind, rd_lt hp, Res.ok_bind, wr_lt (by omega), Res.ok_bind,
    wr_lt (by simp; omega), Res.ok_bind]
  unfold swapped
  rw [List.getElem?_eq_getElem hp]
  simp

theorem swap_swapped {c : List UInt8} {p : Nat} (h : p ≤ c.length) :
    swap ⟨c.length, swapped c p⟩ p = .ok ⟨c.length, c ++ [0]⟩ := by
  have h1 : (swapped c p).length = c.length + 1 := by simp [swapped]
  unfold swap
  simp only
  rw [rd_lt (by omega), Res.ok_bind, rd_lt (by omega), Res.ok_bind, wr_lt (by omega), Res.ok_bind,
    wr_lt (by simp; omega), Res.ok_bind]
  congr 2
  apply List.ext_getElem?
  intro i
  simp only [swapped, List.getElem_set, List.getElem?_set, List.length_set, List.getElem?_append,
    List.length_append, List.length_singleton, List.getElem_append]
  grind

theorem pieces_ne_nil (d s : List UInt8) : pieces d s ≠ [] := by
  cases s with
  | nil => simp [pieces]
  | cons c s => unfold pieces; split; simp; split <;> simp

theorem pieces_eq (d s : List UInt8) :
    pieces d s = s.takeWhile (fun c => !d.contains c) ::
      (match s.drop (s.takeWhile (fun c => !d.contains c)).length with
        | [] => []
        | _ :: rest => pieces d rest) := by
  induction s with
  | nil => simp [pieces]
  | cons c s ih =>
    by_cases hc : c ∈ d
    · simp [pieces, hc]
    · rw [pieces, if_neg hc, ih]
      simp [hc]

/-- Where a tokenizer walk over the content `c` is: `rem` are the tokens to come. -/
inductive At (d c : List UInt8) : S → Option Nat → List (List UInt8) → Prop where
  | start : At d c ⟨c.length, c ++ [0]⟩ none (pieces d (ctext c))
  | run {p : Nat} : p < (ctext c).length →
      At d c ⟨c.length, swapped c p⟩ (some p) (pieces d ((ctext c).drop (p + 1)))
  | fin : At d c ⟨c.length, c ++ [0]⟩ (some (ctext c).length) []

theorem ctext_le (c : List UInt8) : (ctext c).length ≤ c.length := by
  obtain ⟨z, _, h, _⟩ := ctext_split c; omega

theorem ctext_getElem? {c : List UInt8} {p : Nat} (h : p < (ctext c).length) :
    (c ++ [0])[p]? = some (ctext c)[p] := by
  obtain ⟨z, h1, _⟩ := ctext_split c
  rw [h1, List.getElem?_append_left h, List.getElem?_eq_getElem h]

theorem ctext_end (c : List UInt8) : (c ++ [0])[(ctext c).length]? = some 0 := by
  obtain ⟨z, h1, _⟩ := ctext_split c
  rw [h1]; simp

theorem swapped_end (c : List UInt8) : swapped c (ctext c).length = c ++ [0] := by
  have h := ctext_end c
  unfold swapped
  rw [h]
  apply List.ext_getElem?
  intro i
  have h2 : (c ++ [0])[c.length]? = some 0 := by simp
  simp only [List.getElem?_set, List.length_set, Option.getD_some]
  grind

theorem cstr_ctext_drop (c : List UInt8) {p : Nat} (h : p ≤ (ctext c).length) :
    CStr (c ++ [0]) p ((ctext c).drop p) := by
  obtain ⟨z, h1, _⟩ := ctext_split c
  have e : c ++ [0] = (ctext c).take p ++ (ctext c).drop p ++ 0 :: z := by
    rw [List.take_append_drop, h1]
  have := cstr_mid (pre := (ctext c).take p) (x := (ctext c).drop p) (z := z)
    (fun b hb => ctext_nonzero b (List.mem_of_mem_drop hb))
  rw [← e, List.length_take, Nat.min_eq_left h] at this
  exact this

/-- Finding a token from position `p` of the original content. -/
theorem token_at (d c : List UInt8) {del : List UInt8} (hd : CStr del 0 d) {p : Nat}
    (h : p ≤ (ctext c).length) :
    ∃ q t rem, strcspn (c ++ [0]) p del = .ok (q - p) ∧ p ≤ q ∧ q ≤ (ctext c).length ∧
      cstr (swapped c q) p = .ok t ∧ pieces d ((ctext c).drop p) = t :: rem ∧
      At d c ⟨c.length, swapped c q⟩ (some q) rem := by
  have hc := cstr_ctext_drop c h
  have hle := ctext_le c
  generalize hx : (ctext c).drop p = x at hc
  have hxl : x.length = (ctext c).length - p := by rw [← hx, List.length_drop]
  have hT := List.takeWhile_append_dropWhile (l := x) (p := fun c => !d.contains c)
  generalize ht : x.takeWhile (fun c => !d.contains c) = t at hT
  have htl : t.length ≤ x.length := by rw [← hT]; simp
  refine ⟨p + t.length, t, (match x.drop t.length with
        | [] => []
        | _ :: rest => pieces d rest), ?_, by omega, by omega, ?_, ?_, ?_⟩
  · rw [strcspn, cstr_eq hd, Res.ok_bind, cstr_eq hc, Res.ok_bind, ht]
    congr 1; omega
  · apply cstr_eq
    have htx : ∀ i (hi : i < t.length), x[i]? = some t[i] := by
      intro i hi
      rw [← hT, List.getElem?_append_left hi, List.getElem?_eq_getElem hi]
    refine ⟨?_, ?_, ?_⟩
    · intro i hi
      have h1 := hc.bytes i (by omega)
      have h2 := htx i hi
      rw [List.getElem?_eq_getElem (by omega)] at h2
      unfold swapped
      rw [List.getElem?_set_ne (by omega), List.getElem?_set_ne (by omega), h1]
      exact h2
    · intro b hb
      exact hc.nonzero b (by rw [← hT]; simp [hb])
    · unfold swapped
      rw [List.getElem?_set_self (by simp; omega)]
  · rw [pieces_eq, ht]
  · by_cases he : p + t.length = (ctext c).length
    · have : x.drop t.length = [] := List.drop_of_length_le (by omega)
      rw [this, he]
      simp only
      rw [swapped_end]
      exact .fin
    · have hlt : t.length < x.length := by omega
      rw [List.drop_eq_getElem_cons hlt]
      simp only
      rw [← hx, List.drop_drop]
      have e : p + (t.length + 1) = p + t.length + 1 := by omega
      rw [e]
      exact .run (by omega)

theorem tokenBegin_spec {d c del : List UInt8} (hd : CStr del 0 d) {s : S} {save : Option Nat}
    {rem : List (List UInt8)} (h : At d c s save rem) :
    ∃ s' save' tok, tokenBegin s save del = .ok (s', save', tok) ∧
      ((rem = [] ∧ tok = none ∧ At d c s' save' []) ∨
       ∃ t rem' p, rem = t :: rem' ∧ tok = some p ∧ cstr s'.buf p = .ok t ∧
        At d c s' save' rem') := by
  have hle := ctext_le c
  cases h with
  | start =>
    obtain ⟨q, t, rem, h1, h2, h3, h4, h5, h6⟩ := token_at d c hd (p := 0) (Nat.zero_le _)
    rw [List.drop_zero] at h5
    refine ⟨⟨c.length, swapped c q⟩, some q, some 0, ?_, ?_⟩
    · rw [tokenBegin, h1, Res.ok_bind, Nat.sub_zero, swap_orig (by omega), Res.ok_bind]
    · exact Or.inr ⟨t, rem, 0, h5, rfl, h4, h6⟩
  | @run p hp =>
    obtain ⟨q, t, rem, h1, h2, h3, h4, h5, h6⟩ := token_at d c hd (p := p + 1) (by omega)
    refine ⟨⟨c.length, swapped c q⟩, some q, some (p + 1), ?_, ?_⟩
    · have hr : rd (c ++ [0]) p = .ok (ctext c)[p] := rd_eq_ok.2 (ctext_getElem? hp)
      have hne : (ctext c)[p] ≠ 0 := ctext_nonzero _ (List.getElem_mem hp)
      rw [tokenBegin, swap_swapped (by omega), Res.ok_bind]
      simp only
      rw [hr, Res.ok_bind, if_neg hne]
      rw [h1, Res.ok_bind]
      have e : p + 1 + (q - (p + 1)) = q := by omega
      rw [e, swap_orig (by omega), Res.ok_bind]
    · exact Or.inr ⟨t, rem, p + 1, h5, rfl, h4, h6⟩
  | fin =>
    refine ⟨⟨c.length, c ++ [0]⟩, some (ctext c).length, none, ?_, Or.inl ⟨rfl, rfl, .fin⟩⟩
    have hr : rd (c ++ [0]) (ctext c).length = .ok 0 := rd_eq_ok.2 (ctext_end c)
    rw [tokenBegin, swap_orig (by omega), Res.ok_bind, swapped_end]
    simp only
    rw [hr, Res.ok_bind, if_pos rfl]

theorem walk_spec {d c del : List UInt8} (hd : CStr del 0 d) (k : Nat) :
    ∀ {s : S} {save : Option Nat} {rem : List (List UInt8)}, At d c s save rem →
    ∃ s' save', walk del k s save = .ok (s', save', (List.range k).map (rem[·]?)) ∧
      At d c s' save' (rem.drop k) := by
  induction k with
  | zero => intro s save rem h; exact ⟨s, save, rfl, h⟩
  | succ k ih =>
    intro s save rem h
    obtain ⟨s1, save1, tok, h1, h2⟩ := tokenBegin_spec hd h
    rw [walk, h1, Res.ok_bind]
    rcases h2 with ⟨rfl, rfl, hat⟩ | ⟨t, rem, p, rfl, rfl, hc, hat⟩
    · obtain ⟨s2, save2, h3, h4⟩ := ih hat
      refine ⟨s2, save2, ?_, by simpa using h4⟩
      simp only
      rw [h3, Res.ok_bind]
      simp only
      congr 3
      rw [List.range_succ_eq_map]
      simp
    · obtain ⟨s2, save2, h3, h4⟩ := ih hat
      refine ⟨s2, save2, ?_, by simpa using h4⟩
      simp only
      rw [hc, Res.ok_bind, h3, Res.ok_bind]
      simp only
      congr 3
      rw [List.range_succ_eq_map]
      simp [Function.comp_def]

theorem tokenEnd_spec {d c : List UInt8} {s : S} {save : Option Nat} {rem : List (List UInt8)}
    (h : At d c s save rem) : tokenEnd s save = .ok ⟨c.length, c ++ [0]⟩ := by
  have hle := ctext_le c
  have h0 : rd (c ++ [0]) c.length = .ok 0 := rd_eq_ok.2 (by simp)
  cases h with
  | start => simp only [tokenEnd]; rw [h0, Res.ok_bind, if_pos rfl]
  | @run p hp =>
    have hne : (ctext c)[p] ≠ 0 := ctext_nonzero _ (List.getElem_mem hp)
    have hp' := ctext_getElem? hp
    have h1 : rd (swapped c p) c.length = .ok (ctext c)[p] := by
      rw [rd_eq_ok]
      unfold swapped
      rw [List.getElem?_set_ne (by omega), List.getElem?_set_self (by simp), hp']
      rfl
    simp only [tokenEnd]
    rw [h1, Res.ok_bind, if_neg hne]
    rw [swap_swapped (by omega)]
  | fin => simp only [tokenEnd]; rw [h0, Res.ok_bind, if_pos rfl]

end Verif.Str
