import Verif.Ini.Lemmas

namespace Verif.Ini

open Spec

/-! ## C55 -/

/-- Every text has lines. -/
theorem lines_exist (s : List UInt8) : ∃ ls, Lines s ls := by
  suffices h : ∀ n (s : List UInt8), s.length ≤ n → ∃ ls, Lines s ls from h _ s (Nat.le_refl _)
  intro n
  induction n with
  | zero =>
    intro s hs
    have : s = [] := List.length_eq_zero_iff.1 (by omega)
    exact ⟨[], this ▸ .nil⟩
  | succ n ih =>
    intro s hs
    rcases split_char 10 s with hn | ⟨a, b, rfl, ha⟩
    · by_cases h0 : s = []
      · exact ⟨[], h0 ▸ .nil⟩
      · exact ⟨[s], .last h0 hn⟩
    · obtain ⟨ls, h⟩ := ih b (by simp at hs; omega)
      exact ⟨a :: ls, .cons ha h⟩

/-- Every file is read in lines. -/
theorem chunks_exist (err : Bool) (s : List UInt8) : ∃ ls, Chunks err s ls ∧ ls.length ≤ s.length := by
  suffices h : ∀ n (s : List UInt8), s.length ≤ n → ∃ ls, Chunks err s ls ∧ ls.length ≤ s.length from
    h _ s (Nat.le_refl _)
  intro n
  induction n with
  | zero =>
    intro s hs
    have : s = [] := List.length_eq_zero_iff.1 (by omega)
    exact ⟨[], .eof (Or.inl this), by simp⟩
  | succ n ih =>
    intro s hs
    -- the next piece is cut after 1022 bytes
    have big : ∀ a b, s = a ++ b → 10 ∉ a → 1022 ≤ a.length → ∃ ls, Chunks err s ls ∧ ls.length ≤ s.length := by
      intro a b e ha hl
      have hlen : (a.take 1022).length = 1022 := by rw [List.length_take]; omega
      obtain ⟨ls, h, hle⟩ := ih (s.drop 1022) (by simp; omega)
      refine ⟨a.take 1022 :: ls, ?_, ?_⟩
      · have e2 : s = a.take 1022 ++ s.drop 1022 := by
          have : s.take 1022 = a.take 1022 := by rw [e, List.take_append_of_le_length hl]
          rw [← this, List.take_append_drop]
        conv => arg 2; rw [e2]
        exact .part (fun h => ha (List.mem_of_mem_take h)) hlen h
      · have : s.length = a.length + b.length := by rw [e]; simp
        simp at hle ⊢
        omega
    rcases split_char 10 s with hn | ⟨a, b, e, ha⟩
    · by_cases hl : 1022 ≤ s.length
      · exact big s [] (by simp) hn hl
      · by_cases h0 : s = []
        · exact ⟨[], .eof (Or.inl h0), by simp⟩
        · cases err with
          | true => exact ⟨[], .eof (Or.inr ⟨rfl, by omega, hn⟩), by simp⟩
          | false =>
            have := List.length_pos_iff.2 h0
            exact ⟨[s], .last h0 hn (by omega) rfl, by simp; omega⟩
    · by_cases hl : 1022 ≤ a.length
      · exact big a (10 :: b) e ha hl
      · subst e
        obtain ⟨ls, h, hle⟩ := ih b (by simp at hs; omega)
        exact ⟨a :: ls, .line ha (by omega) h, by simp; omega⟩

/-- Parsing a string never goes wrong: with the lines cut to 1023 bytes and a byte order mark
dropped, the callback gets the values of the document in order, up to the first one it refuses or
to the first bad line, and the result is the number of that line, or 0 if there is none. -/
theorem ini_string {mem s buf : List UInt8} {ls : List (List UInt8)} (cb : List Item → Item → Int)
    (h : CStr mem 0 s) (hls : Lines s ls) (hn : ls.length ≤ 2147483647) (hb : buf.length = 1024) :
    ∃ calls rc, parseString cb buf (some mem) = .ok (calls, rc) ∧
      Ends cb (reports 0 [] [] (dropBom (ls.map (·.take 1023)))).1
        (reports 0 [] [] (dropBom (ls.map (·.take 1023)))).2 calls rc := by
  unfold parseString
  simp only
  have hl := lines_length hls
  have hlt := h.lt
  exact parse_delivers cb (stringLine_delivers hls h) (by simp; omega) (by simpa using hn) hb

/-- Parsing a NULL string reports nothing. -/
theorem ini_null (cb : List Item → Item → Int) (buf : List UInt8) :
    parseString cb buf none = .ok ([], 0) := rfl

/-- Parsing a file: the same with the lines in which the file is read, each up to a NUL byte, and
with the result -1 instead of 0 if reading fails. -/
theorem ini_file {bytes buf : List UInt8} {err : Bool} {ls : List (List UInt8)}
    (cb : List Item → Item → Int) (hls : Chunks err bytes ls) (hn : ls.length ≤ 2147483647)
    (hf : ls.length ≤ bytes.length) (hb : buf.length = 1024) :
    ∃ calls rc, parseFile cb buf (some (bytes, err)) =
        .ok (calls, if rc = 0 ∧ err = true then -1 else rc) ∧
      Ends cb (reports 0 [] [] (dropBom (ls.map (·.takeWhile (· ≠ 0))))).1
        (reports 0 [] [] (dropBom (ls.map (·.takeWhile (· ≠ 0))))).2 calls rc := by
  obtain ⟨ls', hd, hlen, hall⟩ := fileLine_delivers hls
  obtain ⟨calls, rc, e, h⟩ := parse_delivers (fuel := bytes.length + 1) cb hd (by omega) (by omega) hb
  have hsame : ∀ i (h : i < (ls.map (·.takeWhile (· ≠ 0))).length) (h' : i < ls'.length),
      Same ls'[i] (ls.map (·.takeWhile (· ≠ 0)))[i] := by
    intro i hi hi'
    have hi2 : i < ls.length := by simpa using hi
    rw [List.getElem_map]
    rcases hall i hi2 with h1 | ⟨h1, h0⟩
    · rw [List.getElem?_eq_getElem hi'] at h1
      exact Or.inl (by simpa using h1)
    · rw [List.getElem?_eq_getElem hi'] at h1
      right
      have := takeWhile_append (p := (· ≠ 0)) (a := ls[i]) (b := [])
        (by intro x hx; simp; rintro rfl; exact h0 hx) (by simp)
      rw [List.append_nil] at this
      rw [this]
      simpa using h1
  obtain ⟨d1, d2⟩ := dropBom_same (by simpa using hlen) hsame
  rw [reports_same d1 d2] at h
  refine ⟨calls, rc, ?_, h⟩
  unfold parseFile
  simp only
  rw [e, Res.ok_bind]
  simp only
  by_cases hrc : rc = 0
  · rw [if_pos hrc]
    cases err <;> simp [hrc]
  · rw [if_neg hrc, if_neg (by simp [hrc])]

/-- A file that cannot be opened. -/
theorem ini_no_file (cb : List Item → Item → Int) (buf : List UInt8) :
    parseFile cb buf none = .ok ([], -1) := rfl

theorem reports_line {ls : List (List UInt8)} : ∀ {n : Nat} {S K : List UInt8},
    (∀ r ∈ (reports n S K ls).1, n < r.line ∧ r.line ≤ n + ls.length) ∧
    ∀ b, (reports n S K ls).2 = some b → n < b ∧ b ≤ n + ls.length := by
  induction ls with
  | nil => intro n S K; simp [reports]
  | cons l ls ih =>
    intro n S K
    unfold reports
    have ih := fun {S K : List UInt8} => ih (n := n + 1) (S := S) (K := K)
    have mk : ∀ {S K : List UInt8} (p : Item), p.line = n + 1 →
        (∀ r ∈ p :: (reports (n + 1) S K ls).1, n < r.line ∧ r.line ≤ n + (l :: ls).length) ∧
        ∀ b, (reports (n + 1) S K ls).2 = some b → n < b ∧ b ≤ n + (l :: ls).length := by
      intro S K p hp
      refine ⟨?_, ?_⟩
      · intro r hr
        rcases List.mem_cons.1 hr with rfl | hr
        · simp; omega
        · have := ih.1 r hr; simp; omega
      · intro b hb; have := ih.2 b hb; simp; omega
    have mk0 : ∀ {S K : List UInt8},
        (∀ r ∈ (reports (n + 1) S K ls).1, n < r.line ∧ r.line ≤ n + (l :: ls).length) ∧
        ∀ b, (reports (n + 1) S K ls).2 = some b → n < b ∧ b ≤ n + (l :: ls).length := by
      intro S K
      refine ⟨?_, ?_⟩
      · intro r hr; have := ih.1 r hr; simp; omega
      · intro b hb; have := ih.2 b hb; simp; omega
    cases kind (K != []) l with
    | blank => exact mk0
    | bad => exact ⟨by simp, by simp⟩
    | header name => exact mk0
    | more v => exact mk _ rfl
    | pair k v => exact mk _ rfl

/-- 0 is returned exactly when there is no bad line and the callback accepts everything; the
result is never negative. -/
theorem ends_zero {cb : List Item → Item → Int} {ls : List (List UInt8)} {calls : List Item} {rc : Int}
    (h : Ends cb (reports 0 [] [] ls).1 (reports 0 [] [] ls).2 calls rc) :
    0 ≤ rc ∧ (rc = 0 ↔ calls = (reports 0 [] [] ls).1 ∧ (reports 0 [] [] ls).2 = none ∧
      ∀ i (h : i < (reports 0 [] [] ls).1.length),
        cb ((reports 0 [] [] ls).1.take i) (reports 0 [] [] ls).1[i] = 0) := by
  have hl := reports_line (ls := ls) (n := 0) (S := []) (K := [])
  generalize (reports 0 [] [] ls).1 = rs at *
  generalize (reports 0 [] [] ls).2 = bad at *
  cases h with
  | refused done r rest hrs ha hr =>
    have hr0 := (hl.1 r (by rw [hrs]; simp)).1
    refine ⟨by omega, ?_⟩
    constructor
    · intro h; omega
    · rintro ⟨h1, h2, h3⟩
      exfalso
      have hi : done.length < rs.length := by rw [hrs]; simp
      have := h3 done.length hi
      have e1 : rs.take done.length = done := by rw [hrs]; simp
      have e2 : rs[done.length] = r := by simp [hrs]
      rw [e1, e2] at this
      exact hr this
  | accepted ha =>
    refine ⟨by omega, ?_⟩
    cases bad with
    | none => simpa using ha
    | some b =>
      have := (hl.2 b rfl).1
      simp
      omega

/-! ## C56 -/

/-- A file whose lines have at most 1021 bytes is read in its lines. -/
theorem chunks_lines {s : List UInt8} {ls : List (List UInt8)} (h : Lines s ls)
    (hl : ∀ l ∈ ls, l.length ≤ 1021) : Chunks false s ls := by
  induction h with
  | nil => exact .eof (Or.inl rfl)
  | last h1 h2 => exact .last h1 h2 (by have := hl _ (List.mem_singleton.2 rfl); omega) rfl
  | cons h1 _ ih => exact .line h1 (hl _ (by simp)) (ih (fun l hm => hl l (by simp [hm])))

theorem lines_mem {s : List UInt8} {ls : List (List UInt8)} (h : Lines s ls) :
    ∀ l ∈ ls, ∀ c ∈ l, c ∈ s := by
  induction h with
  | nil => simp
  | last => simp
  | cons _ _ ih =>
    intro l hl c hc
    rcases List.mem_cons.1 hl with rfl | hl
    · simp [hc]
    · simp [ih l hl c hc]

theorem ends_unique {cb : List Item → Item → Int} {rs : List Item} {bad : Option Nat}
    {c1 c2 : List Item} {r1 r2 : Int} (h1 : Ends cb rs bad c1 r1) (h2 : Ends cb rs bad c2 r2) :
    c1 = c2 ∧ r1 = r2 := by
  have clash : ∀ (done : List Item) (r : Item) (rest : List Item), rs = done ++ r :: rest →
      cb done r ≠ 0 → ¬ ∀ i (h : i < rs.length), cb (rs.take i) rs[i] = 0 := by
    intro done r rest e hr ha
    have hi : done.length < rs.length := by rw [e]; simp
    have := ha done.length hi
    have e1 : rs.take done.length = done := by rw [e]; simp
    have e2 : rs[done.length] = r := by simp [e]
    rw [e1, e2] at this
    exact hr this
  have less : ∀ (d1 : List Item) (x1 : Item) (t1 : List Item) (d2 : List Item) (x2 : Item)
      (t2 : List Item), rs = d1 ++ x1 :: t1 → rs = d2 ++ x2 :: t2 → cb d1 x1 ≠ 0 →
      (∀ i (h : i < d2.length), cb (d2.take i) d2[i] = 0) → ¬ d1.length < d2.length := by
    intro d1 x1 t1 d2 x2 t2 e1 e2 hr ha hlt
    have := ha d1.length hlt
    have hd : d2.take d1.length = d1 := by
      have : (rs.take d2.length).take d1.length = rs.take d1.length := by
        rw [List.take_take, Nat.min_eq_left (by omega)]
      have a1 : rs.take d2.length = d2 := by rw [e2]; simp
      have a2 : rs.take d1.length = d1 := by rw [e1]; simp
      rwa [a1, a2] at this
    have hx : d2[d1.length] = x1 := by
      have a1 : rs[d1.length]? = some x1 := by rw [e1]; simp
      have a2 : rs[d1.length]? = some d2[d1.length] := by
        rw [e2, List.getElem?_append_left hlt, List.getElem?_eq_getElem hlt]
      rw [a1] at a2
      simpa using a2.symm
    rw [hd, hx] at this
    exact hr this
  cases h1 with
  | refused d1 x1 t1 e1 a1 b1 =>
    cases h2 with
    | refused d2 x2 t2 e2 a2 b2 =>
      have l1 := less _ _ _ _ _ _ e1 e2 b1 a2
      have l2 := less _ _ _ _ _ _ e2 e1 b2 a1
      have hlen : d1.length = d2.length := by omega
      have : d1 ++ x1 :: t1 = d2 ++ x2 :: t2 := by rw [← e1, ← e2]
      obtain ⟨rfl, h⟩ := List.append_inj this hlen
      simp at h
      exact ⟨by rw [h.1], by rw [h.1]⟩
    | accepted a2 => exact absurd a2 (clash _ _ _ e1 b1)
  | accepted a1 =>
    cases h2 with
    | refused d2 x2 t2 e2 a2 b2 => exact absurd a1 (clash _ _ _ e2 b2)
    | accepted a2 => exact ⟨rfl, rfl⟩

/-- A document whose lines have at most 1021 bytes and which contains no NUL gives the same calls
and the same result from a file as from a string. For longer lines this is false although they fit
the line buffer, see `ini_file_string_violated`. -/
theorem ini_file_string_partial {mem s buf buf' : List UInt8} {ls : List (List UInt8)}
    (cb : List Item → Item → Int) (h : CStr mem 0 s) (hls : Lines s ls)
    (hl : ∀ l ∈ ls, l.length ≤ 1021) (hn : ls.length ≤ 2147483647) (hb : buf.length = 1024)
    (hb' : buf'.length = 1024) :
    parseFile cb buf (some (s, false)) = parseString cb buf' (some mem) := by
  obtain ⟨c1, r1, e1, h1⟩ := ini_file cb (chunks_lines hls hl) hn (lines_length hls) hb
  obtain ⟨c2, r2, e2, h2⟩ := ini_string cb h hls hn hb'
  have m1 : ls.map (·.takeWhile (· ≠ 0)) = ls := by
    conv => rhs; rw [← List.map_id ls]
    apply List.map_congr_left
    intro l hm
    have := takeWhile_append (p := (· ≠ 0)) (a := l) (b := [])
      (by intro x hx
          have := h.nonzero x (lines_mem hls l hm x hx)
          simpa using this) (by simp)
    simpa using this
  have m2 : ls.map (·.take 1023) = ls := by
    conv => rhs; rw [← List.map_id ls]
    apply List.map_congr_left
    intro l hm
    have := hl l hm
    exact List.take_of_length_le (by omega)
  rw [m1] at h1
  rw [m2] at h2
  obtain ⟨rfl, rfl⟩ := ends_unique h1 h2
  rw [e1, e2]
  simp

/-! ## C54 -/

theorem strip_concat_white (x : List UInt8) {c : UInt8} (hc : isSpace c = true) :
    strip (x ++ [c]) = strip x := by
  unfold strip
  have : (x ++ [c]).dropWhile isSpace = [] ∧ x.dropWhile isSpace = [] ∨
      (x ++ [c]).dropWhile isSpace = x.dropWhile isSpace ++ [c] := by
    induction x with
    | nil => left; simp [hc]
    | cons d x ih =>
      rw [List.cons_append, List.dropWhile_cons, List.dropWhile_cons]
      split
      · exact ih
      · right; rfl
  rcases this with ⟨h1, h2⟩ | h
  · rw [h1, h2]
  · rw [h, stripRight_concat, if_pos hc]

theorem strip_append_white (x : List UInt8) {w : List UInt8} (h : White w) : strip (x ++ w) = strip x := by
  induction w generalizing x with
  | nil => simp
  | cons c w ih =>
    rw [show x ++ c :: w = (x ++ [c]) ++ w by simp, ih _ (fun d hd => h d (by simp [hd])),
      strip_concat_white _ (h c (by simp))]

theorem strip_white_append (x : List UInt8) {w : List UInt8} (h : White w) : strip (w ++ x) = strip x := by
  unfold strip
  induction w with
  | nil => rfl
  | cons c w ih =>
    rw [List.cons_append, List.dropWhile_cons, if_pos (h c (by simp))]
    exact ih (fun d hd => h d (by simp [hd]))

theorem strip_trimmed {x : List UInt8} (h : Trimmed x) : strip x = x := by
  unfold strip stripRight
  have e1 : x.dropWhile isSpace = x := by
    cases x with
    | nil => rfl
    | cons c x => rw [List.dropWhile_cons, if_neg (by simp [h.1 c rfl])]
  rw [e1]
  have e2 : x.reverse.dropWhile isSpace = x.reverse := by
    have h2 := h.2
    rw [← List.head?_reverse] at h2
    cases hr : x.reverse with
    | nil => rfl
    | cons c y =>
      rw [hr] at h2
      rw [List.dropWhile_cons, if_neg (by simp [h2 c rfl])]
  rw [e2, List.reverse_reverse]

theorem strip_white {w : List UInt8} (h : White w) : strip w = [] := by
  have := strip_append_white [] h
  rw [List.nil_append] at this
  rw [this]
  rfl

/-- No sign after a space. -/
def NoPair (l : List UInt8) : Prop := ∀ a c b, l = a ++ 32 :: c :: b → ¬ IsSign c

theorem NoPair.tail {c : UInt8} {l : List UInt8} (h : NoPair (c :: l)) : NoPair l := by
  intro a d b e
  exact h (c :: a) d b (by rw [e]; rfl)

theorem white_sign {c : UInt8} (h : isSpace c = true) : ¬ IsSign c := by
  rintro (rfl | rfl) <;> revert h <;> decide

theorem NoPair.white {x w : List UInt8} (h : NoPair x) (hw : White w) : NoPair (x ++ w) := by
  intro a c b e hs
  by_cases hc : c ∈ w
  · exact white_sign (hw c hc) hs
  · rcases List.append_eq_append_iff.1 e with ⟨a', e1, e2⟩ | ⟨c', e1, e2⟩
    · exact hc (by rw [e2]; simp)
    · rcases c' with _ | ⟨x1, _ | ⟨x2, c'⟩⟩
      · exact hc (by simp at e2; rw [← e2]; simp)
      · simp at e2; exact hc (by rw [← e2.2]; simp)
      · simp at e2
        refine h a c c' ?_ hs
        rw [e1, e2.1, e2.2.1]

theorem cutAfterSpace_noPair {l : List UInt8} (h : NoPair l) : cutAfterSpace l = l := by
  induction l with
  | nil => rfl
  | cons c l ih =>
    cases l with
    | nil => rfl
    | cons d l =>
      rw [cutAfterSpace, if_neg, ih h.tail]
      rintro ⟨rfl, hd⟩
      exact h [] d l rfl hd

theorem cutAfterSpace_pair {l t : List UInt8} {c : UInt8} (h : NoPair l) (hc : IsSign c) :
    cutAfterSpace (l ++ 32 :: c :: t) = l ++ [32] := by
  induction l with
  | nil =>
    rw [List.nil_append, cutAfterSpace, if_pos ⟨rfl, hc⟩]
    rfl
  | cons x l ih =>
    cases l with
    | nil =>
      rw [List.singleton_append, cutAfterSpace, if_neg (by simp [IsSign])]
      have := ih h.tail
      rw [List.nil_append] at this
      rw [this]
      rfl
    | cons y l =>
      rw [List.cons_append, List.cons_append, cutAfterSpace, if_neg]
      · have := ih h.tail
        rw [List.cons_append] at this
        rw [this]
        rfl
      · rintro ⟨rfl, hd⟩
        exact h [] y l rfl hd

theorem cut_eq {l : List UInt8} (h : ∀ c, l.head? = some c → ¬ IsSign c) : cut l = cutAfterSpace l := by
  cases l with
  | nil => rfl
  | cons c l => rw [cut, if_neg (h c rfl)]

/-- What is left of a line after its comment and the white space around it have been removed. -/
theorem strip_cut {x : List UInt8} {t : Trail} (hx : NoComment x) (ht : t.Ok) :
    strip (cut (x ++ t.text)) = strip x := by
  have hn : NoPair (x ++ t.ws) := NoPair.white hx.2 ht.1
  unfold Trail.text
  cases hc : t.comment with
  | none =>
    simp only [List.append_nil]
    rw [cut_eq, cutAfterSpace_noPair hn, strip_append_white _ ht.1]
    intro c h
    cases x with
    | nil =>
      rw [List.nil_append] at h
      exact white_sign (ht.1 c (List.mem_of_mem_head? h))
    | cons d x => exact hx.1 c h
  | some p =>
    obtain ⟨c, y⟩ := p
    simp only
    rw [← List.append_assoc, cut_eq, cutAfterSpace_pair hn (ht.2 c y hc),
      strip_append_white _ (by intro d hd; rw [List.mem_singleton.1 hd]; decide),
      strip_append_white _ ht.1]
    intro d h
    cases x with
    | nil =>
      rw [List.nil_append] at h
      cases hw : t.ws with
      | nil =>
        rw [hw] at h
        simp at h
        subst h
        simp [IsSign]
      | cons e w =>
        rw [hw] at h
        simp at h
        subst h
        exact white_sign (ht.1 e (by rw [hw]; simp))
    | cons e x => exact hx.1 d h

theorem isSpace_of_white {c : UInt8} {w : List UInt8} (h : White (c :: w)) : isSpace c = true := h c (by simp)

theorem kind_blank (hk : Bool) {t : Trail} (h : t.Ok) : kind hk t.text = .blank := by
  have e := strip_cut (x := []) ⟨by simp, by simp⟩ h
  unfold kind
  rw [List.nil_append] at e
  simp only [e]
  rfl

theorem kind_comment (hk : Bool) {c : UInt8} {x : List UInt8} (h : IsSign c) :
    kind hk (c :: x) = .blank := by
  unfold kind
  rw [cut, if_pos h]
  rfl

theorem noComment_snoc {x : List UInt8} {c : UInt8} (h : NoComment x) (hx : x ≠ []) (hc : ¬ IsSign c) :
    NoComment (x ++ [c]) := by
  refine ⟨?_, ?_⟩
  · intro d hd
    cases x with
    | nil => exact absurd rfl hx
    | cons e x => exact h.1 d hd
  · intro a d b e hs
    rcases List.append_eq_append_iff.1 e with ⟨a', e1, e2⟩ | ⟨c', e1, e2⟩
    · have := congrArg List.length e2
      simp at this
      omega
    · rcases c' with _ | ⟨x1, _ | ⟨x2, c'⟩⟩
      · simp at e2
      · simp at e2
        exact hc (e2.2.1 ▸ hs)
      · simp at e2
        refine h.2 a d c' ?_ hs
        rw [e1, e2.1, e2.2.1]

theorem kind_header (hk : Bool) {name : List UInt8} {t : Trail} (h1 : 93 ∉ name)
    (h2 : NoComment (91 :: name)) (ht : t.Ok) :
    kind hk ([91] ++ name ++ [93] ++ t.text) = .header name := by
  have hn : NoComment ([91] ++ name ++ [93]) := noComment_snoc h2 (by simp) (by simp [IsSign])
  have e := strip_cut hn ht
  have htr : Trimmed ([91] ++ name ++ [93]) := by
    refine ⟨?_, ?_⟩
    · intro c hc; simp at hc; subst hc; decide
    · intro c hc; rw [List.getLast?_append] at hc; simp at hc; subst hc; decide
  rw [strip_trimmed htr] at e
  unfold kind
  simp only [e]
  rw [if_neg (by simp), if_neg, if_pos (by simp), if_pos (by simp)]
  · congr 1
    show (name ++ [93]).takeWhile (· ≠ 93) = name
    exact takeWhile_append (p := fun c => c ≠ 93)
      (by intro x hx; simp; rintro rfl; exact h1 hx) (by simp)
  · have : indented ([91] ++ name ++ [93] ++ t.text) = false := by
      simp [indented]; decide
    rw [this]
    simp

theorem kind_item (hk : Bool) {key ws1 ws2 value : List UInt8} {sep : UInt8} {t : Trail}
    (h : Elem.Ok (.item key ws1 sep ws2 value t)) :
    kind hk (key ++ ws1 ++ [sep] ++ ws2 ++ value ++ t.text) = .pair key value := by
  obtain ⟨hk0, -, hkt, h61, h58, h91, hw1, hsep, hw2, hv, hn, ht⟩ := h
  have e := strip_cut hn ht
  have hsp : isSpace sep = false := by rcases hsep with rfl | rfl <;> decide
  obtain ⟨k0, key', rfl⟩ := List.exists_cons_of_ne_nil hk0
  have hk0s : isSpace k0 = false := hkt.1 k0 rfl
  -- what is left of the line
  have e2 : ∃ r, strip ((k0 :: key') ++ ws1 ++ [sep] ++ ws2 ++ value) = (k0 :: key') ++ ws1 ++ [sep] ++ r ∧
      strip r = value := by
    cases value with
    | nil =>
      refine ⟨[], ?_, rfl⟩
      rw [List.append_nil, strip_append_white _ hw2, strip_trimmed]
      · simp
      · refine ⟨?_, ?_⟩
        · intro c hc
          simp at hc
          exact hc ▸ hk0s
        · intro c hc
          rw [List.getLast?_append] at hc
          simp at hc
          exact hc ▸ hsp
    | cons v0 value' =>
      refine ⟨ws2 ++ v0 :: value', ?_, ?_⟩
      · rw [strip_trimmed]
        · simp
        · refine ⟨?_, ?_⟩
          · intro c hc
            simp at hc
            exact hc ▸ hk0s
          · intro c hc
            rw [List.getLast?_append, List.getLast?_eq_some_getLast (by simp)] at hc
            exact hv.2 c (by rw [List.getLast?_eq_some_getLast (by simp)]; simpa using hc)
      · rw [strip_white_append _ hw2, strip_trimmed hv]
  obtain ⟨r, e2, er⟩ := e2
  rw [e2] at e
  have hno : ∀ x ∈ (k0 :: key') ++ ws1, (x ≠ 61 && x ≠ 58) = true := by
    intro x hx
    rcases List.mem_append.1 hx with hx | hx
    · simp only [Bool.and_eq_true, decide_eq_true_eq]
      exact ⟨by rintro rfl; exact h61 hx, by rintro rfl; exact h58 hx⟩
    · have := hw1 x hx
      simp only [Bool.and_eq_true, decide_eq_true_eq]
      exact ⟨by rintro rfl; revert this; decide, by rintro rfl; revert this; decide⟩
  have hstop : (sep ≠ 61 && sep ≠ 58) = false := by rcases hsep with rfl | rfl <;> decide
  have et : ((k0 :: key') ++ ws1 ++ [sep] ++ r).takeWhile (fun c => c ≠ 61 && c ≠ 58) = (k0 :: key') ++ ws1 := by
    rw [List.append_assoc ((k0 :: key') ++ ws1)]
    exact takeWhile_append hno (by simpa using hstop)
  have ed : ((k0 :: key') ++ ws1 ++ [sep] ++ r).dropWhile (fun c => c ≠ 61 && c ≠ 58) = sep :: r := by
    have := takeWhile_append_dropWhile' (fun c => c ≠ 61 && c ≠ 58) ((k0 :: key') ++ ws1 ++ [sep] ++ r)
    rw [et] at this
    rw [List.append_assoc ((k0 :: key') ++ ws1)] at this
    have := List.append_cancel_left this
    rw [List.append_assoc ((k0 :: key') ++ ws1)]
    exact this.symm
  unfold kind
  simp only [e, et, ed]
  rw [if_neg (by simp), if_neg, if_neg, if_pos, List.tail_cons, er, strip_append_white _ hw1, strip_trimmed hkt]
  · rcases hsep with rfl | rfl <;> simp
  · simpa using h91
  · have : indented ((k0 :: key') ++ ws1 ++ [sep] ++ ws2 ++ value ++ t.text) = false := by
      simp [indented, hk0s]
    rw [this]
    simp

theorem kind_more {indent value : List UInt8} {t : Trail} (h : Elem.Ok (.more indent value t)) :
    kind true (indent ++ value ++ t.text) = .more value := by
  obtain ⟨hi, hw, hv0, hv, hn, ht⟩ := h
  have e := strip_cut hn ht
  rw [strip_white_append _ hw, strip_trimmed hv] at e
  obtain ⟨i0, indent', rfl⟩ := List.exists_cons_of_ne_nil hi
  unfold kind
  simp only [e]
  rw [if_neg hv0, if_pos]
  simp [indented, hw i0 (by simp)]

/-- The reports of a well-formed document. -/
theorem reports_doc : ∀ {doc : List Elem} {n : Nat} {S K : List UInt8}, DocOk (K != []) doc →
    reports n S K (doc.map Elem.text) = (items n S K doc, none) := by
  intro doc
  induction doc with
  | nil => intro n S K _; rfl
  | cons e doc ih =>
    intro n S K h
    obtain ⟨he, h⟩ := h
    rw [List.map_cons]
    unfold reports
    cases e with
    | blank t =>
      rw [Elem.text, kind_blank _ he]
      exact ih h
    | comment c x =>
      rw [Elem.text, kind_comment _ he]
      exact ih h
    | header name t =>
      rw [Elem.text, kind_header _ he.1 he.2.2.1 he.2.2.2]
      simp only
      rw [List.take_of_length_le he.2.1]
      exact ih h
    | item k w1 sep w2 v t =>
      rw [Elem.text, kind_item _ he]
      simp only
      rw [List.take_of_length_le he.2.1, ih (by
        have hk : (k != []) = true := by simp [he.1]
        rw [hk]; exact h)]
      rfl
    | more ind v t =>
      rw [Elem.text, h.1, kind_more he]
      simp only
      rw [ih h.2]
      rfl

/-- A well-formed document, with names of sections and keys of at most 255 bytes (`Elem.Ok`), lines of at most 1023 bytes and perhaps a byte order mark before
it, is reported item by item to a callback that accepts, with the section, the key and the value as
written and the number of the line, and the result is 0. The limit of 1023 bytes is documented, the one on
names is not: see `ini_section_violated` and `ini_key_violated`. -/
theorem ini_document_partial {mem s buf : List UInt8} {doc : List Elem} {ls : List (List UInt8)}
    (h : CStr mem 0 s) (hls : Lines s ls) (hdoc : DocOk false doc)
    (he : dropBom ls = doc.map Elem.text) (hlen : ∀ l ∈ ls, l.length ≤ 1023)
    (hn : doc.length ≤ 2147483647) (hb : buf.length = 1024) :
    parseString (fun _ _ => 0) buf (some mem) = .ok (items 0 [] [] doc, 0) := by
  have hl : ls.length = doc.length := by
    have := congrArg List.length he
    rw [List.length_map] at this
    rw [← this]
    cases ls <;> rfl
  obtain ⟨calls, rc, e, hE⟩ := ini_string (fun _ _ => 0) h hls (by omega) hb
  have m2 : ls.map (·.take 1023) = ls := by
    conv => rhs; rw [← List.map_id ls]
    apply List.map_congr_left
    intro l hm
    exact List.take_of_length_le (hlen l hm)
  rw [m2, he, reports_doc (by simpa using hdoc)] at hE
  rw [e]
  have hA : Ends (fun _ _ => 0) (items 0 [] [] doc) none (items 0 [] [] doc) 0 := .accepted (by intros; rfl)
  obtain ⟨rfl, rfl⟩ := ends_unique hE hA
  rfl

/-- The same from a file, when no line has more than 1021 bytes. -/
theorem ini_document_file_partial {s buf : List UInt8} {doc : List Elem} {ls : List (List UInt8)}
    (h0 : 0 ∉ s) (hls : Lines s ls) (hdoc : DocOk false doc)
    (he : dropBom ls = doc.map Elem.text) (hlen : ∀ l ∈ ls, l.length ≤ 1021)
    (hn : doc.length ≤ 2147483647) (hb : buf.length = 1024) :
    parseFile (fun _ _ => 0) buf (some (s, false)) = .ok (items 0 [] [] doc, 0) := by
  have hc : CStr (s ++ [0]) 0 s := by
    refine ⟨?_, ?_, by simp⟩
    · intro i hi; rw [Nat.zero_add, List.getElem?_append_left hi, List.getElem?_eq_getElem hi]
    · intro c hc; rintro rfl; exact h0 hc
  have hl : ls.length = doc.length := by
    have := congrArg List.length he
    rw [List.length_map] at this
    rw [← this]
    cases ls <;> rfl
  rw [ini_file_string_partial _ hc hls hlen (by omega) hb hb]
  exact ini_document_partial hc hls hdoc he (fun l hm => by have := hlen l hm; omega) hn hb

/-! ## What is not so -/

/-- The bytes of an ASCII text. -/
def ascii (s : String) : List UInt8 := s.toList.map fun c => UInt8.ofNat c.toNat

/-- A text with its terminator. -/
def cstring (s : List UInt8) : List UInt8 := s ++ [0]

/-- A line buffer. -/
def buffer : List UInt8 := List.replicate 1024 7

theorem cstring_ok {s : List UInt8} (h : ∀ c ∈ s, c ≠ 0) : CStr (cstring s) 0 s := by
  refine ⟨?_, h, by simp [cstring]⟩
  intro i hi
  unfold cstring
  rw [Nat.zero_add, List.getElem?_append_left hi, List.getElem?_eq_getElem hi]

/-- Parsing a string given by its lines, with a callback that accepts. -/
theorem string_run {s : List UInt8} {ls : List (List UInt8)} {rs : List Item}
    (h : Lines s ls) (h0 : ∀ c ∈ s, c ≠ 0) (hn : ls.length ≤ 100)
    (hr : reports 0 [] [] (dropBom (ls.map (·.take 1023))) = (rs, none)) :
    parseString (fun _ _ => 0) buffer (some (cstring s)) = .ok (rs, 0) := by
  obtain ⟨calls, rc, e, hE⟩ := ini_string (buf := buffer) (fun _ _ => 0) (cstring_ok h0) h (by omega)
    (List.length_replicate ..)
  rw [hr] at hE
  have hA : Ends (fun _ _ => 0) rs none rs 0 := .accepted (by intros; rfl)
  obtain ⟨rfl, rfl⟩ := ends_unique hE hA
  exact e

/-- Parsing a file given by the lines in which it is read, with a callback that accepts. -/
theorem file_run {s : List UInt8} {ls : List (List UInt8)} {rs : List Item}
    (h : Chunks false s ls) (hn : ls.length ≤ 100) (hl : ls.length ≤ s.length)
    (hr : reports 0 [] [] (dropBom (ls.map (·.takeWhile (· ≠ 0)))) = (rs, none)) :
    parseFile (fun _ _ => 0) buffer (some (s, false)) = .ok (rs, 0) := by
  obtain ⟨calls, rc, e, hE⟩ := ini_file (buf := buffer) (fun _ _ => 0) h (by omega) hl (List.length_replicate ..)
  rw [hr] at hE
  have hA : Ends (fun _ _ => 0) rs none rs 0 := .accepted (by intros; rfl)
  obtain ⟨rfl, rfl⟩ := ends_unique hE hA
  simpa using e

/-- The name of a section is cut to 255 bytes: all sections whose names share these are reported as
one. -/
theorem ini_section_violated :
    parseString (fun _ _ => 0) buffer
      (some (cstring (([91] ++ List.replicate 256 120 ++ [93]) ++ 10 :: ascii "k=v"))) =
      .ok ([⟨2, List.replicate 255 120, [107], [118]⟩], 0) :=
  string_run (.cons (by decide +kernel) (.last (by decide) (by decide))) (by decide +kernel) (by decide)
    (by decide +kernel)

/-- A key of more than 255 bytes is reported in full with its first value and cut with the
following ones. -/
theorem ini_key_violated :
    parseString (fun _ _ => 0) buffer
      (some (cstring ((List.replicate 256 107 ++ ascii "=v") ++ 10 :: ascii " w"))) =
      .ok ([⟨1, [], List.replicate 256 107, [118]⟩, ⟨2, [], List.replicate 255 107, [119]⟩], 0) :=
  string_run (.cons (by decide +kernel) (.last (by decide) (by decide))) (by decide +kernel) (by decide)
    (by decide +kernel)

/-- Files and strings differ: a line of 1022 bytes, within the limit of 1024, is read from a file as
two lines, and all following line numbers are wrong. -/
theorem ini_file_string_violated :
    parseString (fun _ _ => 0) buffer
      (some (cstring ((35 :: List.replicate 1021 120) ++ 10 :: ascii "k=v"))) =
      .ok ([⟨2, [], [107], [118]⟩], 0) ∧
    parseFile (fun _ _ => 0) buffer
      (some ((35 :: List.replicate 1021 120) ++ 10 :: ascii "k=v", false)) =
      .ok ([⟨3, [], [107], [118]⟩], 0) :=
  ⟨string_run (.cons (by decide +kernel) (.last (by decide) (by decide))) (by decide +kernel) (by decide)
    (by decide +kernel),
   file_run (.part (by decide +kernel) (by decide +kernel)
    (.line (l := []) (by decide) (by decide) (.last (by decide) (by decide) (by decide) rfl)))
    (by decide) (by decide +kernel) (by decide +kernel)⟩

/-- The end of a long line is not "truncated silently" when it comes from a file, as
SC_INI_MAX_LINE_LEN promises: here a part of a comment is reported as an item. -/
theorem ini_truncate_defect :
    parseFile (fun _ _ => 0) buffer (some ((35 :: List.replicate 1021 120) ++ ascii "k=v", false)) =
      .ok ([⟨2, [], [107], [118]⟩], 0) :=
  file_run (.part (by decide +kernel) (by decide +kernel)
    (.last (by decide) (by decide) (by decide) rfl)) (by decide) (by decide +kernel) (by decide +kernel)

/-- The result is the line number when the callback refuses an item, not the callback's result as
the header says. -/
theorem ini_callback_result_defect :
    parseString (fun _ _ => 7) buffer (some (cstring (ascii "k=v"))) =
      .ok ([⟨1, [], [107], [118]⟩], 1) := by
  decide +kernel

/-- For an empty line `trim_space` computes a pointer before the line buffer, which C does not
allow. For a line of blanks it is the last of them. -/
theorem trim_space_pointer_defect : trimEnd (cstring []) 0 = .ok (-1) ∧ trimEnd (cstring [32, 32]) 0 = .ok 1 ∧
    trimEnd (cstring [32, 97, 32]) 0 = .ok 2 := by decide +kernel

/-- The pointer that `trim_space` computes for a line is that of its last byte, counted from the start of the line buffer; so
it lies before the buffer, which C does not allow, exactly for empty lines. -/
theorem trim_space_pointer {mem s : List UInt8} (h : CStr mem 0 s) :
    trimEnd mem 0 = .ok ((s.length : Int) - 1) ∧ (trimEnd mem 0 = .ok (-1) ↔ s = []) := by
  have hl := h.lt
  have key : trimEnd mem 0 = .ok ((s.length : Int) - 1) := by
    unfold trimEnd
    have hlen : s.length = (s.takeWhile isSpace).length + (s.dropWhile isSpace).length := by
      rw [← List.length_append, List.takeWhile_append_dropWhile]
    have h1 : CStr mem (0 + (s.takeWhile isSpace).length) (s.dropWhile isSpace) := by
      have := h
      rw [← List.takeWhile_append_dropWhile (p := isSpace) (l := s)] at this
      exact this.suffix
    rw [skipSpace_eq h (by omega), Res.ok_bind, strlen_eq h1, Res.ok_bind]
    congr 1
    omega
  refine ⟨key, ?_⟩
  rw [key]
  constructor
  · intro h
    have : (s.length : Int) - 1 = -1 := Res.ok.inj h
    exact List.length_eq_zero_iff.1 (by omega)
  · rintro rfl; rfl

/-! ## Examples -/

/-- The document of the examples. -/
def doc : List Elem :=
  [.comment 35 (ascii "Comment"), .blank ⟨[], none⟩,
   .item (ascii "top") [] 61 [] (ascii "1") ⟨[], none⟩,
   .header (ascii "Network") ⟨[32], some (59, ascii "x")⟩,
   .item (ascii "hostname") [32] 61 [32] (ascii "github.com") ⟨[], some (35, ascii "Line")⟩,
   .more [32] (ascii "github.io") ⟨[9], none⟩, .item (ascii "e") [] 58 [] [] ⟨[], none⟩]

/-- Its text. -/
def docText : List UInt8 :=
  ascii "#Comment\n\ntop=1\n[Network]  ;x\nhostname = github.com #Line\n github.io\t\ne:\n"

example : docText = (doc.map (·.text ++ [10])).flatten := by decide +kernel

theorem lines_flatten : ∀ {ls : List (List UInt8)}, (∀ l ∈ ls, 10 ∉ l) → Lines (ls.map (· ++ [10])).flatten ls
  | [], _ => .nil
  | l :: ls, h => by
    have := Lines.cons (h l (by simp)) (lines_flatten (ls := ls) (fun x hx => h x (by simp [hx])))
    simpa using this

theorem doc_lines : Lines docText (doc.map Elem.text) := by
  have h := lines_flatten (ls := doc.map Elem.text) (by decide +kernel)
  have e : ((doc.map Elem.text).map (· ++ [10])).flatten = docText := by decide +kernel
  rwa [e] at h

theorem noPair_of {l : List UInt8} (h : ∀ i, i < l.length → l[i]? = some 32 →
    l[i + 1]? ≠ some 59 ∧ l[i + 1]? ≠ some 35) : NoPair l := by
  intro a c b e hs
  have := h a.length (by rw [e]; simp) (by rw [e]; simp)
  have e2 : l[a.length + 1]? = some c := by rw [e]; simp
  rw [e2] at this
  rcases hs with rfl | rfl <;> simp at this

theorem doc_ok : DocOk false doc := by
  have noc : ∀ l : List UInt8, l.head? ≠ some 59 → l.head? ≠ some 35 →
      (∀ i, i < l.length → l[i]? = some 32 → l[i + 1]? ≠ some 59 ∧ l[i + 1]? ≠ some 35) →
      NoComment l := by
    intro l h1 h2 h3
    refine ⟨?_, noPair_of h3⟩
    rintro c hc (rfl | rfl)
    · exact h1 hc
    · exact h2 hc
  have tr : ∀ l : List UInt8, (∀ c, c ∈ l.head? → isSpace c = false) →
      (∀ c, c ∈ l.getLast? → isSpace c = false) → Trimmed l := fun l h1 h2 => ⟨h1, h2⟩
  have tk : ∀ (w : List UInt8) (o : Option (UInt8 × List UInt8)), (∀ c ∈ w, isSpace c = true) →
      (∀ p ∈ o, IsSign p.1) → Trail.Ok ⟨w, o⟩ :=
    fun w o h1 h2 => ⟨h1, fun c x hx => h2 (c, x) hx⟩
  refine ⟨Or.inr rfl, tk _ _ (by decide) (by decide), ?_, ?_, ?_, ?_, ?_⟩
  · exact ⟨by decide, by decide, tr _ (by decide) (by decide), by decide, by decide, by decide, by simp [White],
      by decide, by simp [White], tr _ (by decide) (by decide),
      noc _ (by decide) (by decide) (by decide), tk _ _ (by decide) (by decide)⟩
  · exact ⟨by decide, by decide, noc _ (by decide) (by decide) (by decide), tk _ _ (by decide) (by decide)⟩
  · exact ⟨by decide, by decide, tr _ (by decide) (by decide), by decide, by decide, by decide, by
      unfold White; decide, by decide, by unfold White; decide, tr _ (by decide) (by decide),
      noc _ (by decide) (by decide) (by decide), tk _ _ (by decide) (by decide)⟩
  · exact ⟨by decide, by unfold White; decide, by decide, tr _ (by decide) (by decide),
      noc _ (by decide) (by decide) (by decide), tk _ _ (by decide) (by decide)⟩
  · exact ⟨rfl, ⟨by decide, by decide, tr _ (by decide) (by decide), by decide, by decide, by decide, by simp [White],
      by decide, by simp [White], by simp [Trimmed],
      noc _ (by decide) (by decide) (by decide), tk _ _ (by decide) (by decide)⟩, trivial⟩

example : parseString (fun _ _ => 0) buffer (some (cstring docText)) =
    .ok ([⟨3, [], ascii "top", ascii "1"⟩,
          ⟨5, ascii "Network", ascii "hostname", ascii "github.com"⟩,
          ⟨6, ascii "Network", ascii "hostname", ascii "github.io"⟩,
          ⟨7, ascii "Network", ascii "e", []⟩], 0) := by
  rw [ini_document_partial (buf := buffer) (cstring_ok (by decide +kernel)) doc_lines doc_ok (by decide +kernel) (by decide +kernel) (by decide) (List.length_replicate ..)]
  rfl

example : parseFile (fun _ _ => 0) buffer (some (docText, false)) =
    parseFile (fun _ _ => 0) buffer (some (bom ++ docText, false)) := by decide +kernel

example : parseString (fun _ _ => 0) buffer (some (cstring (ascii "a=1\nbad\nb=2"))) =
    .ok ([⟨1, [], [97], [49]⟩], 2) := by decide +kernel

example : parseString (fun old _ => if old.length = 1 then 1 else 0) buffer
    (some (cstring (ascii "a=1\nb=2\nc=3"))) =
    .ok ([⟨1, [], [97], [49]⟩, ⟨2, [], [98], [50]⟩], 2) := by decide +kernel

end Verif.Ini
