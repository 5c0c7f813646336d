import Verif.Ini.Model

namespace Verif.Ini

open Spec

/-! ## Strings in memory -/

theorem CStr.cut {mem a b : List UInt8} {p : Nat} (h : CStr mem p (a ++ b)) :
    CStr (mem.set (p + a.length) 0) p a := by
  have hl := h.lt
  refine ⟨?_, fun x hx => h.nonzero x (by simp [hx]), ?_⟩
  · intro i hi
    have := h.bytes i (by simp; omega)
    rw [List.getElem_append_left hi] at this
    rw [List.getElem?_set_ne (by omega), this]
  · simp at hl
    rw [List.getElem?_set_self (by omega)]

theorem CStr.frame {mem mem' s : List UInt8} {p : Nat} (h : CStr mem p s)
    (he : ∀ i, p ≤ i → i ≤ p + s.length → mem'[i]? = mem[i]?) : CStr mem' p s :=
  ⟨fun i hi => by rw [he _ (by omega) (by omega)]; exact h.bytes i hi, h.nonzero,
    by rw [he _ (by omega) (by omega)]; exact h.nul⟩

theorem CStr.set_nul {mem s : List UInt8} {p : Nat} (h : CStr mem p s) :
    mem.set (p + s.length) 0 = mem := by
  apply List.ext_getElem?
  intro j
  by_cases hj : p + s.length = j
  · subst hj
    rw [h.nul, List.getElem?_set_self h.lt]
  · rw [List.getElem?_set_ne hj]

theorem CStr.rd_cons {mem b : List UInt8} {c : UInt8} {p : Nat} (h : CStr mem p (c :: b)) :
    rd mem p = .ok c := CStr.rd0 h

theorem CStr.rd_mid {mem a b : List UInt8} {c : UInt8} {p : Nat} (h : CStr mem p (a ++ c :: b)) :
    rd mem (p + a.length) = .ok c := by
  have := h.suffix
  rw [CStr.rd0 this]
  rfl

/-! ## Stripping -/

theorem stripRight_concat (l : List UInt8) (c : UInt8) :
    stripRight (l ++ [c]) = if isSpace c then stripRight l else l ++ [c] := by
  unfold stripRight
  rw [List.reverse_append, List.reverse_singleton, List.singleton_append, List.dropWhile_cons]
  split
  · rfl
  · simp

theorem stripRight_nil : stripRight [] = [] := rfl

theorem stripRight_prefix (l : List UInt8) : ∃ b, l = stripRight l ++ b ∧ ∀ c ∈ b, isSpace c := by
  suffices h : ∀ r : List UInt8, ∃ b, r.reverse = stripRight r.reverse ++ b ∧ ∀ c ∈ b, isSpace c by
    have := h l.reverse
    rwa [List.reverse_reverse] at this
  intro r
  induction r with
  | nil => exact ⟨[], rfl, by simp⟩
  | cons c l ih =>
    rw [List.reverse_cons, stripRight_concat]
    split
    · next hc =>
      obtain ⟨b, e, hb⟩ := ih
      refine ⟨b ++ [c], by rw [← List.append_assoc, ← e], ?_⟩
      intro x hx
      rw [List.mem_append, List.mem_singleton] at hx
      rcases hx with hx | rfl
      · exact hb x hx
      · exact hc
    · exact ⟨[], by simp, by simp⟩

theorem dropWhile_eq_drop (p : UInt8 → Bool) (l : List UInt8) :
    l.dropWhile p = l.drop (l.takeWhile p).length := by
  induction l with
  | nil => rfl
  | cons a l ih =>
    rw [List.takeWhile_cons, List.dropWhile_cons]
    split <;> simp [ih]

theorem takeWhile_append_dropWhile' (p : UInt8 → Bool) (l : List UInt8) :
    l = l.takeWhile p ++ l.dropWhile p := by
  rw [dropWhile_eq_drop]; exact (takeWhile_drop p l).symm

/-- What is left of a text after stripping is a piece of it. -/
theorem strip_split (l : List UInt8) :
    ∃ b, l = l.takeWhile isSpace ++ strip l ++ b ∧ ∀ c ∈ b, isSpace c := by
  obtain ⟨b, e, hb⟩ := stripRight_prefix (l.dropWhile isSpace)
  refine ⟨b, ?_, hb⟩
  rw [List.append_assoc]
  show l = l.takeWhile isSpace ++ (stripRight (l.dropWhile isSpace) ++ b)
  rw [← e]
  exact takeWhile_append_dropWhile' _ _

theorem skipSpace_eq {mem : List UInt8} {s : List UInt8} : ∀ {k fuel : Nat}, CStr mem k s →
    s.length < fuel → skipSpace mem fuel k = .ok (k + (s.takeWhile isSpace).length) := by
  induction s with
  | nil =>
    intro k fuel h hf
    obtain ⟨fuel, rfl⟩ : ∃ f, fuel = f + 1 := ⟨fuel - 1, by omega⟩
    rw [skipSpace, CStr.rd0 h, Res.ok_bind]
    rfl
  | cons c s ih =>
    intro k fuel h hf
    obtain ⟨fuel, rfl⟩ : ∃ f, fuel = f + 1 := ⟨fuel - 1, by omega⟩
    rw [skipSpace, CStr.rd_cons h, Res.ok_bind, List.takeWhile_cons]
    by_cases hc : isSpace c = true
    · rw [if_pos hc, if_pos hc, ih (k := k + 1) (CStr.suffix (a := [c]) h) (by simp at hf; omega)]
      simp; omega
    · rw [if_neg hc, if_neg hc]; rfl

theorem backSpace_eq {mem s : List UInt8} {p : Nat} (h : CStr mem p s)
    (hh : ∀ c, s.head? = some c → isSpace c = false) : ∀ n, n ≤ s.length →
    backSpace mem p (p + n) = .ok (p + (stripRight (s.take n)).length) := by
  intro n
  induction n with
  | zero =>
    intro _
    rw [List.take_zero, stripRight_nil]
    cases p with
    | zero => rfl
    | succ p => rw [Nat.add_zero, backSpace, if_neg (by omega)]; rfl
  | succ n ih =>
    intro hn
    have hlt : n < s.length := by omega
    have et : s.take (n + 1) = s.take n ++ [s[n]] := (List.take_append_getElem hlt).symm
    rw [et, stripRight_concat]
    show backSpace mem p ((p + n) + 1) = _
    rw [backSpace]
    have hr : rd mem (p + n) = .ok s[n] := by
      have := h.bytes n hlt
      rw [rd_eq_ok]
      exact this
    by_cases hn0 : n = 0
    · subst hn0
      rw [if_neg (by omega)]
      have : isSpace s[0] = false := hh _ (by rw [List.head?_eq_getElem?, List.getElem?_eq_getElem hlt])
      rw [this]
      simp
    · rw [if_pos (by omega), hr, Res.ok_bind]
      split
      · exact ih (by omega)
      · simp; omega

theorem dropWhile_head {p : UInt8 → Bool} {l : List UInt8} {c : UInt8}
    (h : (l.dropWhile p).head? = some c) : p c = false := by
  rw [dropWhile_eq_drop] at h
  exact head_dropWhile h

theorem trimSpace_eq {mem s : List UInt8} {k : Nat} (h : CStr mem k s) :
    trimSpace mem k = .ok (mem.set (k + (s.takeWhile isSpace).length + (strip s).length) 0,
      k + (s.takeWhile isSpace).length) ∧
    CStr (mem.set (k + (s.takeWhile isSpace).length + (strip s).length) 0)
      (k + (s.takeWhile isSpace).length) (strip s) := by
  have hl := h.lt
  have h1 : CStr mem (k + (s.takeWhile isSpace).length) (s.dropWhile isSpace) := by
    rw [takeWhile_append_dropWhile' isSpace s] at h
    exact h.suffix
  constructor
  · unfold trimSpace
    rw [skipSpace_eq h (by omega), Res.ok_bind, strlen_eq h1, Res.ok_bind,
      backSpace_eq h1 (fun c hc => dropWhile_head hc) _ (Nat.le_refl _), Res.ok_bind, List.take_length]
    have hlt : k + (s.takeWhile isSpace).length + (strip s).length < mem.length := by
      obtain ⟨b, e, -⟩ := strip_split s
      have := congrArg List.length e
      simp at this
      omega
    unfold strip at hlt ⊢
    rw [wr_lt hlt, Res.ok_bind]
  · obtain ⟨b, e, -⟩ := stripRight_prefix (s.dropWhile isSpace)
    rw [e] at h1
    exact CStr.cut h1

theorem strip_le (s : List UInt8) : (s.takeWhile isSpace).length + (strip s).length ≤ s.length := by
  obtain ⟨b, e, -⟩ := strip_split s
  have := congrArg List.length e
  simp at this
  omega

/-! ## Comments -/

theorem cutAfterSpace_none {l : List UInt8} (h : 32 ∉ l) : cutAfterSpace l = l := by
  induction l with
  | nil => rfl
  | cons c l ih =>
    cases l with
    | nil => rfl
    | cons d l =>
      rw [cutAfterSpace, if_neg (by rintro ⟨rfl, -⟩; simp at h), ih (by simp at h ⊢; grind)]

theorem cutAfterSpace_some {a b : List UInt8} (h : 32 ∉ a) : cutAfterSpace (a ++ 32 :: b) =
    if (∃ d, b.head? = some d ∧ IsSign d) then a ++ [32] else a ++ 32 :: cutAfterSpace b := by
  induction a with
  | nil =>
    cases b with
    | nil => simp [cutAfterSpace]
    | cons d b => simp [cutAfterSpace]
  | cons c a ih =>
    have ih := ih (by simp at h ⊢; grind)
    have hc : c ≠ 32 := by rintro rfl; simp at h
    have e : ∃ x y, a ++ 32 :: b = x :: y := by cases a <;> simp
    obtain ⟨x, y, e⟩ := e
    rw [List.cons_append, e, cutAfterSpace, if_neg (by simp [hc]), ← e, ih]
    split <;> simp

theorem commentLoop_eq : ∀ (fuel : Nat) {mem l : List UInt8} {s : Nat}, CStr mem s l →
    l.length < fuel → commentLoop fuel mem s = .ok (mem.set (s + (cutAfterSpace l).length) 0) := by
  intro fuel
  induction fuel with
  | zero => intro mem l s h hf; omega
  | succ fuel ih =>
    intro mem l s h hf
    rw [commentLoop, CStr.rd0 h, Res.ok_bind]
    cases l with
    | nil =>
      rw [if_pos (by rfl)]
      have := CStr.set_nul h
      simp only [cutAfterSpace]
      rw [this]
    | cons c l =>
      have hc : c ≠ 0 := h.nonzero c (by simp)
      rw [if_neg (by simpa using hc)]
      rcases split_char 32 (c :: l) with hn | ⟨a, b, e, ha⟩
      · rw [strchrAt_none h hn, Res.ok_bind, cutAfterSpace_none hn]
        simp only
        rw [CStr.set_nul h]
      · rw [e] at h ⊢
        rw [strchrAt_some h ha, Res.ok_bind, cutAfterSpace_some ha]
        simp only
        have h1 : CStr mem (s + a.length + 1) b := by
          have := CStr.suffix (a := a ++ [32]) (b := b) (p := s) (mem := mem) (by simpa using h)
          simpa [Nat.add_assoc] using this
        have hlen : a.length + 1 + b.length = l.length + 1 := by
          have := congrArg List.length e
          simp at this
          omega
        cases b with
        | nil =>
          rw [CStr.rd0 h1, Res.ok_bind, if_neg (by simp), if_neg (by simp),
            ih h1 (by simp at hf hlen ⊢; omega)]
          simp [Nat.add_assoc, cutAfterSpace]
        | cons d b =>
          rw [CStr.rd_cons h1, Res.ok_bind]
          by_cases hd : IsSign d
          · rw [if_pos (show d = 59 ∨ d = 35 from hd), if_pos ⟨d, rfl, hd⟩, wr_lt (by have := h1.lt; simp at this; omega)]
            simp [Nat.add_assoc]
          · rw [if_neg (show ¬ (d = 59 ∨ d = 35) from hd), if_neg (by rintro ⟨d', hd', hs⟩; simp at hd'; subst hd'; exact hd hs),
              ih h1 (by simp at hf hlen ⊢; omega)]
            simp [Nat.add_assoc, Nat.add_comm]

theorem cutAfterSpace_prefix (l : List UInt8) : ∃ b, l = cutAfterSpace l ++ b := by
  induction l with
  | nil => exact ⟨[], rfl⟩
  | cons c l ih =>
    cases l with
    | nil => exact ⟨[], rfl⟩
    | cons d l =>
      rw [cutAfterSpace]
      split
      · exact ⟨d :: l, rfl⟩
      · obtain ⟨b, e⟩ := ih
        exact ⟨b, by rw [List.cons_append, ← e]⟩

theorem cut_prefix (l : List UInt8) : ∃ b, l = cut l ++ b := by
  cases l with
  | nil => exact ⟨[], rfl⟩
  | cons c l =>
    rw [cut]
    split
    · exact ⟨c :: l, rfl⟩
    · exact cutAfterSpace_prefix _

theorem trimComment_eq {mem l : List UInt8} {k : Nat} (h : CStr mem k l) :
    trimComment mem k = .ok (mem.set (k + (cut l).length) 0) ∧
      CStr (mem.set (k + (cut l).length) 0) k (cut l) := by
  constructor
  · unfold trimComment
    have hl := h.lt
    cases l with
    | nil => rw [CStr.rd0 h, Res.ok_bind, if_pos (by simp), wr_lt (by simpa using hl)]; rfl
    | cons c l =>
      have hc : c ≠ 0 := h.nonzero c (by simp)
      rw [CStr.rd_cons h, Res.ok_bind, cut]
      by_cases hs : IsSign c
      · rw [if_pos (show c = 0 ∨ c = 59 ∨ c = 35 from Or.inr hs), if_pos hs,
          wr_lt (by simp at hl; omega)]
        rfl
      · rw [if_neg (by rintro (h | h); exact hc h; exact hs h), if_neg hs,
          commentLoop_eq _ h (by omega)]
  · obtain ⟨b, e⟩ := cut_prefix l
    rw [e] at h
    exact CStr.cut h

/-! ## The other helpers -/

theorem trimBom_eq {mem l : List UInt8} (h : CStr mem 0 l) :
    trimBom mem 0 = .ok (if bom.isPrefixOf l then 3 else 0) := by
  unfold trimBom
  rw [strlen_eq h, Res.ok_bind]
  rcases l with _ | ⟨a, _ | ⟨b, _ | ⟨c, l⟩⟩⟩
  · rfl
  · simp [bom, List.isPrefixOf]
  · simp [bom, List.isPrefixOf]
  · rw [if_pos (by simp)]
    have r0 := CStr.rd0 h
    have r1 := CStr.rd0 (CStr.suffix (a := [a]) h)
    have r2 := CStr.rd0 (CStr.suffix (a := [a, b]) h)
    simp only [List.length_cons, List.length_nil, Nat.zero_add, List.head?_cons,
      Option.getD_some] at r0 r1 r2
    rw [r0, Res.ok_bind, r1, r2]
    simp only [Res.ok_bind, bom, List.isPrefixOf]
    by_cases ha : a = 239
    · by_cases hb : b = 187
      · by_cases hc : c = 191
        · simp [ha, hb, hc]
        · simp [ha, hb, hc, Ne.symm hc]
      · simp [ha, hb, Ne.symm hb]
    · simp [ha, Ne.symm ha]

/-- A name buffer of 256 bytes that holds `s`. -/
structure Name (mem s : List UInt8) : Prop where
  len : mem.length = 256
  last : mem[255]? = some 0
  str : CStr mem 0 s

theorem strncpy_eq {dst old mem s : List UInt8} {p : Nat} (hd : Name dst old) (h : CStr mem p s) :
    ∃ dst', strncpy dst mem p 255 = .ok dst' ∧ Name dst' (s.take 255) := by
  obtain ⟨hlen, hlast, -⟩ := hd
  unfold strncpy
  rw [cstr_eq h, Res.ok_bind]
  generalize hn : 255 = n at *
  have hlen' : dst.length = n + 1 := by omega
  have hol : (s.take n ++ List.replicate (n - s.length) 0).length = n := by
    rw [List.length_append, List.length_take, List.length_replicate]; omega
  simp only
  rw [if_pos (by omega)]
  have key : ∀ i, (splice dst 0 (s.take n ++ List.replicate (n - s.length) 0))[i]? =
      if i < n then (s.take n ++ List.replicate (n - s.length) 0)[i]? else dst[i]? := by
    intro i
    rw [splice_getElem? (by omega), if_neg (Nat.not_lt_zero _), hol, Nat.zero_add, Nat.sub_zero]
  refine ⟨_, rfl, ?_, ?_, ?_, ?_, ?_⟩
  · rw [length_splice (by omega)]; exact hlen
  · rw [hn, key, if_neg (by omega)]
    exact hlast
  · intro i hi
    rw [Nat.zero_add, key, if_pos (by rw [List.length_take] at hi; omega),
      List.getElem?_append_left hi, List.getElem?_eq_getElem hi]
  · intro b hb
    exact h.nonzero b (List.mem_of_mem_take hb)
  · rw [Nat.zero_add, key]
    by_cases hs : s.length < n
    · rw [if_pos (by rw [List.length_take]; omega), List.getElem?_append_right (Nat.le_refl _),
        Nat.sub_self, List.getElem?_replicate, if_pos (by omega)]
    · have : (s.take n).length = n := by rw [List.length_take]; omega
      rw [this, if_neg (by omega)]
      exact hlast

theorem name_init : Name (List.replicate 256 0) [] := by
  refine ⟨List.length_replicate, ?_, fun i hi => absurd hi (Nat.not_lt_zero _),
    fun b hb => absurd hb List.not_mem_nil, ?_⟩
  · rw [List.getElem?_replicate]; rfl
  · rw [List.getElem?_replicate]; rfl

theorem name_clear {mem s : List UInt8} (h : Name mem s) : wr mem 0 0 = .ok (mem.set 0 0) ∧
    Name (mem.set 0 0) [] := by
  obtain ⟨hlen, hlast, hs⟩ := h
  refine ⟨wr_lt (by omega), by rw [List.length_set]; exact hlen, ?_, by simp, by simp, ?_⟩
  · rw [List.getElem?_set_ne (by omega)]; exact hlast
  · exact List.getElem?_set_self (by omega)

/-! ## One line -/

theorem strpbrk_eq {mem a b : List UInt8} {p : Nat} {set : List UInt8} (h : CStr mem p (a ++ b))
    (ha : ∀ x ∈ a, x ∉ set) (hb : ∀ d, b.head? = some d → d ∈ set) :
    strpbrk mem p set = .ok (if b = [] then none else some (p + a.length)) := by
  unfold strpbrk
  rw [cstr_eq h, Res.ok_bind, cspn_eq h ha hb, Res.ok_bind]
  congr 1
  cases b <;> simp

theorem cutAfterSpace_head {c : UInt8} {l : List UInt8} : ∃ l', cutAfterSpace (c :: l) = c :: l' := by
  cases l with
  | nil => exact ⟨[], rfl⟩
  | cons d l =>
    rw [cutAfterSpace]
    split
    · exact ⟨[], rfl⟩
    · exact ⟨_, rfl⟩

/-- A line of which something is left begins with a space exactly if what is left after cutting
the comment does. -/
theorem indented_cut {l : List UInt8} (h : strip (cut l) ≠ []) :
    indented l = decide (((cut l).takeWhile isSpace).length > 0) := by
  cases l with
  | nil => exact (h rfl).elim
  | cons c l =>
    rw [cut] at h ⊢
    split
    · next hs => rw [if_pos hs] at h; exact (h rfl).elim
    · obtain ⟨l', e⟩ := cutAfterSpace_head (c := c) (l := l)
      rw [e, List.takeWhile_cons]
      simp only [indented, List.head?_cons, Option.map_some, Option.getD_some]
      split
      · next h => rw [h]; simp
      · next h => simp [h]

/-- The effect of a line of a given kind. -/
def Effect (sec key S K : List UInt8) : Kind → Act → Prop
  | .blank, a => a = .go sec key none
  | .bad, a => a = .stop
  | .header name, a => ∃ sec' key', a = .go sec' key' none ∧ Name sec' (name.take 255) ∧ Name key' []
  | .more v, a => a = .go sec key (some (S, K, v))
  | .pair k v, a => ∃ key', a = .go sec key' (some (S, k, v)) ∧ Name key' (k.take 255)

theorem takeWhile_set (set l : List UInt8) : ∃ b, l = l.takeWhile (· ∉ set) ++ b ∧
    (∀ x ∈ l.takeWhile (· ∉ set), x ∉ set) ∧ (∀ d, b.head? = some d → d ∈ set) ∧
    b = l.dropWhile (· ∉ set) := by
  refine ⟨l.dropWhile (· ∉ set), takeWhile_append_dropWhile' _ _, ?_, ?_, rfl⟩
  · intro x hx
    have := mem_takeWhile' hx
    simpa using this
  · intro d hd
    have := dropWhile_head hd
    simpa using this

theorem stepLine_eq {buf sec key S K l : List UInt8} (first : Bool) (hb : CStr buf 0 l)
    (hs : Name sec S) (hk : Name key K) (hf : first = true → K = []) :
    ∃ buf' a, stepLine first buf sec key = .ok (buf', a) ∧ buf'.length = buf.length ∧
      Effect sec key S K (kind (K != []) (if first && bom.isPrefixOf l then l.drop 3 else l)) a := by
  -- the byte order mark
  obtain ⟨off, m, eoff, hm, hm2, hoff⟩ : ∃ off m, (if first then trimBom buf 0 else .ok 0) = Res.ok off ∧
      CStr buf off m ∧ m = (if first && bom.isPrefixOf l then l.drop 3 else l) ∧ (off > 0 → K = []) := by
    cases first with
    | false => exact ⟨0, l, rfl, hb, by simp, by omega⟩
    | true =>
      simp only [if_true, Bool.true_and]
      rw [trimBom_eq hb]
      split
      · next hp =>
        refine ⟨3, l.drop 3, rfl, ?_, rfl, fun _ => hf rfl⟩
        rw [List.isPrefixOf_iff_prefix] at hp
        obtain ⟨r, rfl⟩ := hp
        exact CStr.suffix (a := bom) hb
      · exact ⟨0, l, rfl, hb, rfl, by omega⟩
  rw [← hm2]
  unfold stepLine
  rw [eoff, Res.ok_bind]
  obtain ⟨e1, h1⟩ := trimComment_eq hm
  rw [e1, Res.ok_bind]
  generalize hbuf1 : buf.set (off + (cut m).length) 0 = buf1 at h1 ⊢
  have len1 : buf1.length = buf.length := by rw [← hbuf1, List.length_set]
  obtain ⟨e2, h2⟩ := trimSpace_eq h1
  rw [e2, Res.ok_bind]
  generalize hbuf2 : buf1.set (off + ((cut m).takeWhile isSpace).length + (strip (cut m)).length) 0 = buf2
    at h2 ⊢
  have len2 : buf2.length = buf.length := by rw [← hbuf2, List.length_set, len1]
  generalize hhead : off + ((cut m).takeWhile isSpace).length = head at h2 ⊢
  simp only
  unfold kind
  have hind := indented_cut (l := m)
  generalize ht : strip (cut m) = t at h2 hind ⊢
  cases t with
  | nil =>
    rw [CStr.rd0 h2, Res.ok_bind, if_pos (by rfl)]
    exact ⟨_, _, rfl, len2, rfl⟩
  | cons c t =>
    have hind := hind (by simp)
    have hc0 : c ≠ 0 := h2.nonzero c (by simp)
    rw [CStr.rd_cons h2, Res.ok_bind, if_neg hc0, CStr.rd0 hk.str, Res.ok_bind]
    simp only [reduceCtorEq, if_false]
    have hkne : K.head?.getD 0 ≠ 0 ↔ K ≠ [] := by
      cases hK : K with
      | nil => simp
      | cons a K' =>
        have := hk.str.nonzero a (by rw [hK]; simp)
        simpa using this
    have hcond : (head > 0 ∧ K.head?.getD 0 ≠ 0) ↔ (indented m && (K != [])) = true := by
      rw [hkne, hind]
      simp only [Bool.and_eq_true, decide_eq_true_eq, bne_iff_ne]
      constructor
      · rintro ⟨ha, hb⟩
        refine ⟨?_, hb⟩
        apply Classical.byContradiction
        intro hn
        exact hb (hoff (by omega))
      · rintro ⟨ha, hb⟩
        exact ⟨by omega, hb⟩
    by_cases hmore : head > 0 ∧ K.head?.getD 0 ≠ 0
    · rw [if_pos hmore, if_pos (hcond.1 hmore), cstr_eq hs.str, cstr_eq hk.str, cstr_eq h2]
      simp only [Res.ok_bind]
      exact ⟨_, _, rfl, len2, rfl⟩
    · rw [if_neg hmore, if_neg (fun h => hmore (hcond.2 h))]
      by_cases h91 : c = 91
      · subst h91
        rw [if_pos rfl, if_pos (by rfl)]
        rcases split_char 93 (91 :: t) with hn | ⟨a, b, e, ha⟩
        · rw [strchrAt_none h2 hn, Res.ok_bind, if_neg hn]
          exact ⟨_, _, rfl, len2, rfl⟩
        · rw [if_pos (by rw [e]; simp)]
          have htw : (91 :: t).tail.takeWhile (· ≠ 93) = a.tail := by
            cases a with
            | nil => simp at e
            | cons x a =>
              simp at e
              rw [List.tail_cons, e.2, List.tail_cons]
              apply takeWhile_append
              · intro y hy; simp; rintro rfl; exact ha (by simp [hy])
              · intro y hy; simp at hy; simp [← hy]
          rw [htw]
          obtain ⟨a', rfl⟩ : ∃ a', a = 91 :: a' := by
            cases a with
            | nil => simp at e
            | cons x a => simp at e; exact ⟨a, by rw [e.1]⟩
          rw [e] at h2
          rw [strchrAt_some h2 ha, Res.ok_bind]
          simp only
          obtain ⟨ek, hk'⟩ := name_clear hk
          have hlt : head + (91 :: a').length < buf2.length := by
            have := h2.lt
            simp at this ⊢
            omega
          rw [ek, Res.ok_bind, wr_lt hlt, Res.ok_bind]
          have h3 := CStr.cut h2
          have h4 : CStr (buf2.set (head + (91 :: a').length) 0) (head + 1) a' :=
            CStr.suffix (a := [91]) h3
          obtain ⟨sec', es, hs'⟩ := strncpy_eq hs h4
          rw [es, Res.ok_bind]
          exact ⟨_, _, rfl, by rw [List.length_set]; exact len2, sec', _, rfl, hs', hk'⟩
      · rw [if_neg h91, if_neg (by simpa using h91)]
        obtain ⟨b, e, ha, hbh, hbd⟩ := takeWhile_set [61, 58] (c :: t)
        have hfun : (fun x : UInt8 => decide (x ∉ ([61, 58] : List UInt8))) =
            fun c => c ≠ 61 && c ≠ 58 := by
          funext x; simp
        rw [hfun] at e ha hbd
        generalize htw : (c :: t).takeWhile (fun c => c ≠ 61 && c ≠ 58) = a at *
        rw [← hbd]
        have hmem : (61 ∈ c :: t ∨ 58 ∈ c :: t) ↔ b ≠ [] := by
          rw [e]
          constructor
          · rintro h rfl
            rcases h with h | h
            · have := ha 61 (by simpa using h); simp at this
            · have := ha 58 (by simpa using h); simp at this
          · intro hne
            obtain ⟨d, b', rfl⟩ := List.exists_cons_of_ne_nil hne
            have := hbh d rfl
            simp at this
            rcases this with rfl | rfl <;> simp
        rw [strpbrk_eq (a := a) (b := b) (by rw [← e]; exact h2) ha hbh, Res.ok_bind]
        cases b with
        | nil =>
          rw [if_neg (fun h => hmem.1 h rfl)]
          exact ⟨_, _, rfl, len2, rfl⟩
        | cons d b =>
          rw [if_pos (hmem.2 (by simp)), if_neg (by simp)]
          simp only [List.tail_cons]
          rw [e] at h2
          have hlt : head + a.length < buf2.length := by
            have := h2.lt
            simp at this
            omega
          rw [wr_lt hlt, Res.ok_bind]
          have h3 := CStr.cut h2
          have hv : CStr (buf2.set (head + a.length) 0) (head + a.length + 1) b := by
            have h0 : CStr buf2 (head + a.length + 1) b := by
              have := CStr.suffix (a := a ++ [d]) (b := b) (p := head) (mem := buf2) (by simpa using h2)
              simpa [Nat.add_assoc] using this
            apply CStr.frame h0
            intro i h1 _
            rw [List.getElem?_set_ne (by omega)]
          generalize hbuf3 : buf2.set (head + a.length) 0 = buf3 at h3 hv ⊢
          have len3 : buf3.length = buf.length := by rw [← hbuf3, List.length_set, len2]
          have hnsp : a.takeWhile isSpace = [] := by
            -- the line is stripped on the left
            have hst : ∀ x, (strip (cut m)).head? = some x → isSpace x = false := by
              intro x hx
              obtain ⟨b', eb, -⟩ := stripRight_prefix ((cut m).dropWhile isSpace)
              have : ((cut m).dropWhile isSpace).head? = some x := by
                rw [eb]
                show ((strip (cut m)) ++ b').head? = some x
                cases hq : strip (cut m) with
                | nil => rw [hq] at hx; simp at hx
                | cons y q => rw [hq] at hx; simpa using hx
              exact dropWhile_head this
            cases a with
            | nil => rfl
            | cons x a =>
              have hx : isSpace x = false := hst x (by rw [ht, e]; rfl)
              rw [List.takeWhile_cons, if_neg (by simp [hx])]
          obtain ⟨e4, h4⟩ := trimSpace_eq h3
          rw [hnsp] at e4 h4
          simp only [List.length_nil, Nat.add_zero] at e4 h4
          rw [e4, Res.ok_bind]
          have hle := strip_le a
          have hv2 : CStr (buf3.set (head + (strip a).length) 0) (head + a.length + 1) b := by
            apply CStr.frame hv
            intro i h1 _
            rw [List.getElem?_set_ne (by omega)]
          generalize hbuf4 : buf3.set (head + (strip a).length) 0 = buf4 at h4 hv2 ⊢
          have len4 : buf4.length = buf.length := by rw [← hbuf4, List.length_set, len3]
          simp only
          obtain ⟨key', ek, hk'⟩ := strncpy_eq hk h4
          rw [ek, Res.ok_bind]
          obtain ⟨e5, h5⟩ := trimSpace_eq hv2
          rw [e5, Res.ok_bind]
          have h6 : CStr (buf4.set (head + a.length + 1 + (b.takeWhile isSpace).length +
              (strip b).length) 0) head (strip a) := by
            apply CStr.frame h4
            intro i _ h2
            rw [List.getElem?_set_ne (by omega)]
          simp only
          rw [cstr_eq hs.str, cstr_eq h6, cstr_eq h5]
          simp only [Res.ok_bind]
          exact ⟨_, _, rfl, by rw [List.length_set]; exact len4, key', rfl, hk'⟩

/-! ## The loop -/

/-- A source of lines yields the lines `ls`. -/
inductive Delivers {σ : Type} (next : σ → List UInt8 → Res (Option (σ × List UInt8))) :
    σ → List (List UInt8) → Prop
  | nil {st} : (∀ buf, buf.length = 1024 → next st buf = .ok none) → Delivers next st []
  | cons {st st' l ls} : (∀ buf, buf.length = 1024 → ∃ buf', next st buf = .ok (some (st', buf')) ∧
      buf'.length = 1024 ∧ CStr buf' 0 l) → Delivers next st' ls → Delivers next st (l :: ls)

theorem ends_nil (cb : List Item → Item → Int) (bad : Option Nat) :
    Ends cb [] bad [] ((bad.getD 0 : Nat) : Int) :=
  .accepted (by simp)

theorem ends_cons {cb : List Item → Item → Int} {r : Item} {rs calls : List Item} {bad : Option Nat}
    {rc : Int} (h0 : cb [] r = 0) (h : Ends (fun h => cb (r :: h)) rs bad calls rc) :
    Ends cb (r :: rs) bad (r :: calls) rc := by
  have acc : ∀ done : List Item,
      (∀ i (h : i < done.length), cb (r :: done.take i) done[i] = 0) →
      ∀ i (h : i < (r :: done).length), cb ((r :: done).take i) (r :: done)[i] = 0 := by
    intro done hd i hi
    cases i with
    | zero => exact h0
    | succ i => simpa using hd i (by simpa using hi)
  cases h with
  | refused done r' rest hrs ha hr =>
    exact Ends.refused (r :: done) r' rest (by rw [hrs]; rfl) (acc _ ha) hr
  | accepted ha => exact Ends.accepted (acc _ ha)

theorem ends_refuse {cb : List Item → Item → Int} {r : Item} {rs : List Item} {bad : Option Nat}
    (h0 : cb [] r ≠ 0) : Ends cb (r :: rs) bad [r] r.line :=
  Ends.refused [] r rs rfl (by simp) h0

theorem parseLoop_eq {σ : Type} {next : σ → List UInt8 → Res (Option (σ × List UInt8))}
    {ls : List (List UInt8)} :
    ∀ {st : σ} {fuel line : Nat} {buf sec key S K : List UInt8} {calls : List Item}
      (cb : List Item → Item → Int),
    Delivers next st ls → ls.length < fuel → line + ls.length ≤ 2147483647 → buf.length = 1024 →
    Name sec S → Name key K → (line = 0 → K = []) →
    ∃ calls' rc, parseLoop next cb fuel st buf sec key line calls = .ok (calls ++ calls', rc) ∧
      Ends (fun h => cb (calls ++ h)) (reports line S K (if line = 0 then dropBom ls else ls)).1
        (reports line S K (if line = 0 then dropBom ls else ls)).2 calls' rc := by
  induction ls with
  | nil =>
    intro st fuel line buf sec key S K calls cb hd hf hl hb hs hk h0
    obtain ⟨fuel, rfl⟩ : ∃ f, fuel = f + 1 := ⟨fuel - 1, by omega⟩
    cases hd with
    | nil h =>
      rw [parseLoop, h buf hb, Res.ok_bind]
      refine ⟨[], 0, by simp, ?_⟩
      have : (if line = 0 then dropBom [] else []) = [] := by split <;> rfl
      rw [this]
      exact ends_nil _ none
  | cons l ls ih =>
    intro st fuel line buf sec key S K calls cb hd hf hl hb hs hk h0
    obtain ⟨fuel, rfl⟩ : ∃ f, fuel = f + 1 := ⟨fuel - 1, by omega⟩
    cases hd with
    | @cons st st' l ls h hd =>
      obtain ⟨buf1, e1, hb1, hc1⟩ := h buf hb
      simp only [List.length_cons] at hf hl
      rw [parseLoop, e1, Res.ok_bind]
      simp only
      rw [if_neg (by omega)]
      obtain ⟨buf2, a, e2, hb2, he⟩ := stepLine_eq (line + 1 == 1) hc1 hs hk (by
        intro h; apply h0; simpa using h)
      rw [e2, Res.ok_bind]
      simp only
      have ecur : (if line = 0 then dropBom (l :: ls) else l :: ls) =
          (if (line + 1 == 1) && bom.isPrefixOf l then l.drop 3 else l) :: ls := by
        by_cases hz : line = 0
        · subst hz; simp [dropBom]
        · simp [hz]
      rw [ecur]
      generalize hcur : (if (line + 1 == 1) && bom.isPrefixOf l then l.drop 3 else l) = cur at he ⊢
      have erest : (if line + 1 = 0 then dropBom ls else ls) = ls := by simp
      unfold reports
      cases hkind : kind (K != []) cur with
      | blank =>
        rw [hkind] at he
        simp only [Effect] at he
        subst he
        simp only
        obtain ⟨calls', rc, e3, h3⟩ := ih (st := st') (fuel := fuel) (line := line + 1) (buf := buf2)
          (calls := calls) cb hd (by omega) (by omega) (by omega) hs hk (by omega)
        rw [erest] at h3
        exact ⟨calls', rc, e3, h3⟩
      | bad =>
        rw [hkind] at he
        simp only [Effect] at he
        subst he
        simp only
        exact ⟨[], _, by simp, ends_nil _ (some (line + 1))⟩
      | header name =>
        rw [hkind] at he
        obtain ⟨sec', key', rfl, hs', hk'⟩ := he
        simp only
        obtain ⟨calls', rc, e3, h3⟩ := ih (st := st') (fuel := fuel) (line := line + 1) (buf := buf2)
          (calls := calls) cb hd (by omega) (by omega) (by omega) hs' hk' (by omega)
        rw [erest] at h3
        exact ⟨calls', rc, e3, h3⟩
      | more v =>
        rw [hkind] at he
        simp only [Effect] at he
        subst he
        simp only
        by_cases hr : cb calls ⟨line + 1, S, K, v⟩ = 0
        · rw [if_neg (by simpa using hr)]
          obtain ⟨calls', rc, e3, h3⟩ := ih (st := st') (fuel := fuel) (line := line + 1) (buf := buf2)
            (calls := calls ++ [⟨line + 1, S, K, v⟩]) cb hd (by omega) (by omega) (by omega) hs hk
            (by omega)
          rw [erest] at h3
          refine ⟨⟨line + 1, S, K, v⟩ :: calls', rc, by rw [e3]; simp, ?_⟩
          apply ends_cons (by simpa using hr)
          simpa using h3
        · rw [if_pos (by simpa using hr)]
          exact ⟨[⟨line + 1, S, K, v⟩], _, rfl, ends_refuse (by simpa using hr)⟩
      | pair k v =>
        rw [hkind] at he
        obtain ⟨key', rfl, hk'⟩ := he
        simp only
        by_cases hr : cb calls ⟨line + 1, S, k, v⟩ = 0
        · rw [if_neg (by simpa using hr)]
          obtain ⟨calls', rc, e3, h3⟩ := ih (st := st') (fuel := fuel) (line := line + 1) (buf := buf2)
            (calls := calls ++ [⟨line + 1, S, k, v⟩]) cb hd (by omega) (by omega) (by omega) hs hk'
            (by omega)
          rw [erest] at h3
          refine ⟨⟨line + 1, S, k, v⟩ :: calls', rc, by rw [e3]; simp, ?_⟩
          apply ends_cons (by simpa using hr)
          simpa using h3
        · rw [if_pos (by simpa using hr)]
          exact ⟨[⟨line + 1, S, k, v⟩], _, rfl, ends_refuse (by simpa using hr)⟩

theorem parse_delivers {σ : Type} {next : σ → List UInt8 → Res (Option (σ × List UInt8))}
    {ls : List (List UInt8)} {st : σ} {fuel : Nat} {buf : List UInt8} (cb : List Item → Item → Int)
    (hd : Delivers next st ls) (hf : ls.length < fuel) (hl : ls.length ≤ 2147483647)
    (hb : buf.length = 1024) : ∃ calls rc, parse next cb fuel st buf = .ok (calls, rc) ∧
      Ends cb (reports 0 [] [] (dropBom ls)).1 (reports 0 [] [] (dropBom ls)).2 calls rc := by
  obtain ⟨calls, rc, e, h⟩ := parseLoop_eq (calls := []) cb hd hf (line := 0) (by omega) hb name_init
    name_init (fun _ => rfl)
  exact ⟨calls, rc, e, h⟩

/-! ## The sources -/

theorem lines_length {s : List UInt8} {ls : List (List UInt8)} (h : Lines s ls) :
    ls.length ≤ s.length := by
  induction h with
  | nil => simp
  | last h _ => have := List.length_pos_iff.2 h; simp; omega
  | cons _ _ ih => simp; omega

theorem copied {mem a b buf : List UInt8} {str n : Nat} (h : CStr mem str (a ++ b))
    (hb : buf.length = 1024) (hn : n = min a.length 1023) :
    ∃ buf', (do let buf ← memcpy buf 0 mem str n; wr buf n 0) = .ok buf' ∧ buf'.length = 1024 ∧
      CStr buf' 0 (a.take 1023) := by
  have hlt := h.lt
  simp at hlt
  have hna : n ≤ a.length := by omega
  rw [memcpy_ok (by omega) (by omega), Res.ok_bind]
  have hsl : slice mem str n = a.take 1023 := by
    have h1 : slice mem str n = (slice mem str (a ++ b).length).take n := by
      rw [slice, slice, List.take_take, Nat.min_eq_left (by rw [List.length_append]; omega)]
    rw [h1, h.slice, List.take_append_of_le_length hna]
    by_cases hc : a.length ≤ 1023
    · rw [show n = a.length by omega, List.take_length, List.take_of_length_le hc]
    · rw [show n = 1023 by omega]
  have hlen : (slice mem str n).length = n := length_slice (by omega)
  have hl2 : (splice buf 0 (slice mem str n)).length = 1024 := by rw [length_splice (by omega), hb]
  rw [wr_lt (by omega)]
  refine ⟨_, rfl, by rw [List.length_set]; exact hl2, ?_⟩
  rw [← hsl]
  refine ⟨?_, ?_, ?_⟩
  · intro i hi
    rw [List.getElem?_set_ne (by omega), splice_getElem? (by omega), if_neg (by omega),
      if_pos (by omega), Nat.zero_add, Nat.sub_zero, List.getElem?_eq_getElem hi]
  · intro x hx
    rw [hsl] at hx
    exact h.nonzero x (by simp [List.mem_of_mem_take hx])
  · rw [hlen, Nat.zero_add, List.getElem?_set_self (by omega)]

theorem stringLine_delivers {mem s : List UInt8} {ls : List (List UInt8)} (hl : Lines s ls) :
    ∀ {p : Nat}, CStr mem p s →
      Delivers (stringLine mem) (some p) (ls.map (·.take 1023)) := by
  induction hl with
  | nil =>
    intro p h
    refine .nil ?_
    intro buf _
    unfold stringLine
    simp only
    rw [CStr.rd0 h, Res.ok_bind, if_pos (by rfl)]
  | @last l hne hnl =>
    intro p h
    refine .cons (st' := none) ?_ (.nil fun buf _ => rfl)
    intro buf hb
    obtain ⟨c, l', rfl⟩ := List.exists_cons_of_ne_nil hne
    have hc : c ≠ 0 := h.nonzero c (by simp)
    unfold stringLine
    simp only
    rw [CStr.rd_cons h, Res.ok_bind, if_neg hc, strchrAt_none h hnl, Res.ok_bind]
    simp only
    rw [strlen_eq h]
    simp only [Res.ok_bind]
    obtain ⟨buf', e, hb', hc'⟩ := copied (a := c :: l') (b := []) (str := p) (mem := mem) (buf := buf)
      (n := if p + (c :: l').length - p < 1023 then p + (c :: l').length - p else 1023)
      (by simpa using h) hb (by split <;> omega)
    rw [Res.bind_eq_ok] at e
    obtain ⟨buf1, e1, e2⟩ := e
    rw [e1, Res.ok_bind, e2, Res.ok_bind]
    have hz : rd mem (p + (c :: l').length) = .ok 0 := by
      rw [rd_eq_ok]; exact h.nul
    rw [hz, Res.ok_bind, if_pos rfl]
    exact ⟨_, rfl, hb', hc'⟩
  | @cons l s ls hnl hls ih =>
    intro p h
    have h1 : CStr mem (p + l.length + 1) s := by
      have := CStr.suffix (a := l ++ [10]) (b := s) (p := p) (mem := mem) (by simpa using h)
      simpa [Nat.add_assoc] using this
    refine .cons (st' := some (p + l.length + 1)) ?_ (ih h1)
    intro buf hb
    have hne : ∃ c r, l ++ 10 :: s = c :: r := by cases l <;> simp
    obtain ⟨c, r, ecr⟩ := hne
    have hc : c ≠ 0 := h.nonzero c (by rw [ecr]; simp)
    unfold stringLine
    simp only
    rw [CStr.rd_cons (ecr ▸ h), Res.ok_bind, if_neg hc, strchrAt_some h hnl, Res.ok_bind]
    simp only [Res.ok_bind]
    obtain ⟨buf', e, hb', hc'⟩ := copied (a := l) (b := 10 :: s) (str := p) (mem := mem) (buf := buf)
      (n := if p + l.length - p < 1023 then p + l.length - p else 1023)
      h hb (by split <;> omega)
    rw [Res.bind_eq_ok] at e
    obtain ⟨buf1, e1, e2⟩ := e
    rw [e1, Res.ok_bind, e2, Res.ok_bind]
    rw [CStr.rd_mid h, Res.ok_bind, if_neg (by decide)]
    exact ⟨_, rfl, hb', hc'⟩

/-! ### Files -/

theorem fileLine_delivers {err : Bool} {bytes : List UInt8} {ls : List (List UInt8)}
    (h : Chunks err bytes ls) :
    ∃ ls', Delivers (fileLine err) bytes ls' ∧ ls'.length = ls.length ∧
      ∀ i (h : i < ls.length), ls'[i]? = some (ls[i].takeWhile (· ≠ 0)) ∨
        ls'[i]? = some (ls[i] ++ [10]) ∧ 0 ∉ ls[i] := by
  -- a chunk in the buffer
  have put : ∀ (x buf : List UInt8), x.length < 1024 → buf.length = 1024 →
      (splice buf 0 (x ++ [0])).length = 1024 ∧
      CStr (splice buf 0 (x ++ [0])) 0 (x.takeWhile (· ≠ 0)) := by
    intro x buf hx hb
    have hl : (x ++ [0]).length = x.length + 1 := by simp
    have key : ∀ i, i ≤ x.length → (splice buf 0 (x ++ [0]))[i]? = (x ++ [0])[i]? := by
      intro i hi
      rw [splice_getElem? (by omega), if_neg (by omega), if_pos (by omega), Nat.sub_zero]
    refine ⟨by rw [length_splice (by omega), hb], ?_, ?_, ?_⟩
    · intro i hi
      have hle : (x.takeWhile (· ≠ 0)).length ≤ x.length :=
        (List.takeWhile_prefix _).length_le
      rw [Nat.zero_add, key i (by omega), List.getElem?_append_left (by omega)]
      have := List.IsPrefix.getElem (List.takeWhile_prefix (p := (· ≠ 0)) (l := x)) hi
      rw [List.getElem?_eq_getElem (by omega), this]
    · intro b hb
      simpa using mem_takeWhile' hb
    · have hle : (x.takeWhile (· ≠ 0)).length ≤ x.length :=
        (List.takeWhile_prefix _).length_le
      rw [Nat.zero_add, key _ hle]
      have e := takeWhile_append_dropWhile' (· ≠ 0) x
      cases hd : x.dropWhile (· ≠ 0) with
      | nil =>
        rw [hd, List.append_nil] at e
        rw [← e]
        simp
      | cons c r =>
        have hc : c = 0 := by
          have := dropWhile_head (p := (· ≠ 0)) (l := x) (c := c) (by rw [hd]; rfl)
          simpa using this
        rw [hd] at e
        conv => lhs; lhs; rw [e]
        rw [List.append_assoc, List.getElem?_append_right (Nat.le_refl _)]
        simp [hc]
  induction h with
  | @eof bytes hb =>
    refine ⟨[], .nil ?_, rfl, by simp⟩
    intro buf hbuf
    unfold fileLine fgets
    simp only
    have hlt : bytes.length < 1022 ∧ 10 ∉ bytes ∧ (err = true ∨ bytes = []) := by
      rcases hb with rfl | ⟨h1, h2, h3⟩
      · simp
      · exact ⟨h2, h3, Or.inl h1⟩
    have ht : bytes.take (1023 - 1) = bytes := List.take_of_length_le (by omega)
    have hw : bytes.takeWhile (· ≠ 10) = bytes := by
      have := takeWhile_append (p := (· ≠ 10)) (a := bytes) (b := [])
        (by intro x hx; simp; rintro rfl; exact hlt.2.1 hx) (by simp)
      simpa using this
    rw [ht, hw, if_neg (by omega), if_pos ⟨by omega, hlt.2.2⟩]
  | @line l rest ls hn hl _ ih =>
    obtain ⟨ls', hd, hlen, hall⟩ := ih
    refine ⟨(l ++ [10]).takeWhile (· ≠ 0) :: ls', .cons ?_ hd, by simp [hlen], ?_⟩
    · intro buf hbuf
      unfold fileLine fgets
      simp only
      have ht : (l ++ 10 :: rest).take (1023 - 1) = l ++ 10 :: (rest.take (1021 - l.length)) := by
        rw [List.take_append, List.take_of_length_le (by omega)]
        congr 1
        rw [show 1023 - 1 - l.length = (1021 - l.length) + 1 by omega, List.take_succ_cons]
      have hw : (l ++ 10 :: (rest.take (1021 - l.length))).takeWhile (· ≠ 10) = l := by
        apply takeWhile_append
        · intro x hx; simp; rintro rfl; exact hn hx
        · intro x hx; simp at hx; simp [← hx]
      rw [ht, hw, if_pos (by simp), if_pos (by omega)]
      have hdrop : (l ++ 10 :: rest).drop (l.length + 1) = rest := by
        rw [List.drop_append]; simp
      rw [hdrop]
      have := put (l ++ [10]) buf (by simp; omega) hbuf
      exact ⟨_, rfl, this.1, this.2⟩
    · intro i hi
      cases i with
      | succ i => simpa using hall i (by simpa using hi)
      | zero =>
        simp only [List.getElem?_cons_zero, List.getElem_cons_zero, Option.some.injEq]
        by_cases h0 : 0 ∈ l
        · left
          rcases split_char 0 l with hn0 | ⟨a, b, rfl, ha⟩
          · exact absurd h0 hn0
          · rw [List.append_assoc, takeWhile_append (a := a), takeWhile_append (a := a)]
            · intro x hx; simp; rintro rfl; exact ha hx
            · intro x hx; simp at hx; simp [← hx]
            · intro x hx; simp; rintro rfl; exact ha hx
            · intro x hx; simp at hx; simp [← hx]
        · right
          refine ⟨?_, h0⟩
          have := takeWhile_append (p := (· ≠ 0)) (a := l ++ [10]) (b := [])
            (by intro x hx; simp at hx ⊢; rintro rfl; rcases hx with hx | hx
                · exact h0 hx
                · exact absurd hx (by decide)) (by simp)
          simpa using this
  | @part l rest ls hn hl _ ih =>
    obtain ⟨ls', hd, hlen, hall⟩ := ih
    refine ⟨l.takeWhile (· ≠ 0) :: ls', .cons ?_ hd, by simp [hlen], ?_⟩
    · intro buf hbuf
      unfold fileLine fgets
      simp only
      have ht : (l ++ rest).take (1023 - 1) = l := by
        rw [List.take_append, List.take_of_length_le (by omega), hl, Nat.sub_self, List.take_zero,
          List.append_nil]
      have hw : l.takeWhile (· ≠ 10) = l := by
        have := takeWhile_append (p := (· ≠ 10)) (a := l) (b := [])
          (by intro x hx; simp; rintro rfl; exact hn hx) (by simp)
        simpa using this
      rw [ht, hw, if_neg (by omega), if_neg (by omega), if_pos (by omega), List.drop_left]
      have := put l buf (by omega) hbuf
      exact ⟨_, rfl, this.1, this.2⟩
    · intro i hi
      cases i with
      | succ i => simpa using hall i (by simpa using hi)
      | zero => left; rfl
  | @last l hne hn hl he =>
    refine ⟨[l.takeWhile (· ≠ 0)], .cons (st' := []) ?_ (.nil ?_), rfl, ?_⟩
    · intro buf hbuf
      unfold fileLine fgets
      simp only
      have ht : l.take (1023 - 1) = l := List.take_of_length_le (by omega)
      have hw : l.takeWhile (· ≠ 10) = l := by
        have := takeWhile_append (p := (· ≠ 10)) (a := l) (b := [])
          (by intro x hx; simp; rintro rfl; exact hn hx) (by simp)
        simpa using this
      rw [ht, hw, if_neg (by omega), if_neg (by rintro ⟨-, h | h⟩; simp [he] at h; exact hne h),
        if_pos (by omega), List.drop_length]
      have := put l buf (by omega) hbuf
      exact ⟨_, rfl, this.1, this.2⟩
    · intro buf hbuf
      unfold fileLine fgets
      simp
    · intro i hi
      have : i = 0 := by simpa using hi
      subst this
      left; rfl

/-! ### The new line at the end of a line -/

theorem cutAfterSpace_newline (l : List UInt8) :
    cutAfterSpace (l ++ [10]) = cutAfterSpace l ∨ cutAfterSpace (l ++ [10]) = cutAfterSpace l ++ [10] := by
  induction l with
  | nil => right; rfl
  | cons c l ih =>
    cases l with
    | nil =>
      right
      simp only [List.singleton_append, cutAfterSpace]
      rw [if_neg (by simp [IsSign])]
    | cons d l =>
      rw [List.cons_append, List.cons_append, cutAfterSpace, cutAfterSpace]
      split
      · left; rfl
      · rcases ih with h | h
        · left; rw [List.cons_append] at h; rw [h]
        · right; rw [List.cons_append] at h; rw [h]; rfl

theorem strip_newline (x : List UInt8) : strip (x ++ [10]) = strip x := by
  unfold strip
  have : (x ++ [10]).dropWhile isSpace = [] ∧ x.dropWhile isSpace = [] ∨
      (x ++ [10]).dropWhile isSpace = x.dropWhile isSpace ++ [10] := by
    induction x with
    | nil => left; decide
    | cons c x ih =>
      rw [List.cons_append, List.dropWhile_cons, List.dropWhile_cons]
      split
      · exact ih
      · right; rfl
  rcases this with ⟨h1, h2⟩ | h
  · rw [h1, h2]
  · rw [h, stripRight_concat, if_pos (by decide)]

theorem kind_newline (hk : Bool) (l : List UInt8) : kind hk (l ++ [10]) = kind hk l := by
  cases l with
  | nil => revert hk; decide
  | cons c l =>
    have e : strip (cut (c :: l ++ [10])) = strip (cut (c :: l)) := by
      rw [List.cons_append, cut, cut]
      split
      · rfl
      · rcases cutAfterSpace_newline (c :: l) with h | h
        · rw [List.cons_append] at h; rw [h]
        · rw [List.cons_append] at h; rw [h, strip_newline]
    have e2 : indented (c :: l ++ [10]) = indented (c :: l) := rfl
    unfold kind
    rw [e, e2]

theorem bom_newline (l : List UInt8) : bom.isPrefixOf (l ++ [10]) = bom.isPrefixOf l := by
  rcases l with _ | ⟨a, _ | ⟨b, _ | ⟨c, l⟩⟩⟩ <;> simp [bom, List.isPrefixOf]

/-- Lines with the same meaning. -/
def Same (a b : List UInt8) : Prop := a = b ∨ a = b ++ [10]

theorem reports_same {ls : List (List UInt8)} : ∀ {ls' : List (List UInt8)} {n : Nat}
    {S K : List UInt8}, ls'.length = ls.length →
    (∀ i (h : i < ls.length) (h' : i < ls'.length), Same ls'[i] ls[i]) →
    reports n S K ls' = reports n S K ls := by
  induction ls with
  | nil =>
    intro ls' n S K hl _
    have : ls' = [] := List.length_eq_zero_iff.1 hl
    rw [this]
  | cons l ls ih =>
    intro ls' n S K hl h
    cases ls' with
    | nil => simp at hl
    | cons l' ls' =>
      have h0 := h 0 (by simp) (by simp)
      have hk : ∀ hk, kind hk l' = kind hk l := by
        intro hk
        rcases h0 with h0 | h0
        · simp only [List.getElem_cons_zero] at h0; rw [h0]
        · simp only [List.getElem_cons_zero] at h0; rw [h0, kind_newline]
      have ih : ∀ {n : Nat} {S K : List UInt8}, reports n S K ls' = reports n S K ls := by
        intro n S K
        apply ih (by simpa using hl)
        intro i hi hi'
        exact h (i + 1) (by simp; omega) (by simp; omega)
      unfold reports
      rw [hk]
      simp only [ih]

theorem dropBom_same {ls ls' : List (List UInt8)} (hl : ls'.length = ls.length)
    (h : ∀ i (h : i < ls.length) (h' : i < ls'.length), Same ls'[i] ls[i]) :
    (dropBom ls').length = (dropBom ls).length ∧
    ∀ i (h : i < (dropBom ls).length) (h' : i < (dropBom ls').length), Same (dropBom ls')[i] (dropBom ls)[i] := by
  cases ls with
  | nil =>
    have : ls' = [] := List.length_eq_zero_iff.1 hl
    rw [this]
    exact ⟨rfl, fun i h => by simp [dropBom] at h⟩
  | cons l ls =>
    cases ls' with
    | nil => simp at hl
    | cons l' ls' =>
      have h0 := h 0 (by simp) (by simp)
      simp only [List.getElem_cons_zero] at h0
      refine ⟨by simpa [dropBom] using hl, ?_⟩
      intro i hi hi'
      cases i with
      | succ i => exact h (i + 1) (by simpa [dropBom] using hi) (by simpa [dropBom] using hi')
      | zero =>
        simp only [dropBom, List.getElem_cons_zero]
        rcases h0 with h0 | h0
        · rw [h0]; exact Or.inl rfl
        · rw [h0, bom_newline]
          by_cases hp : bom.isPrefixOf l = true
          · rw [if_pos hp, if_pos hp]
            right
            rw [List.isPrefixOf_iff_prefix] at hp
            obtain ⟨r, rfl⟩ := hp
            simp [bom]
          · rw [if_neg hp, if_neg hp]; exact Or.inr rfl

end Verif.Ini
