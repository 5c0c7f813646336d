import Verif.Ini.Props

/-!
# The layout of a document does not matter

Line ends, a byte order mark, empty lines and comments; and documents put together from parts.
-/

namespace Verif.Ini.Layout

open Spec

/-! ## Specification -/

/-- A line that says nothing: white space, a comment at its start, or white space and a comment after a space. -/
inductive Empty : List UInt8 → Prop
  | white {w} : White w → Empty w
  | comment {c x} : IsSign c → Empty (c :: x)
  | indented {w c x} : White w → IsSign c → Empty (w ++ 32 :: c :: x)

/-- The second document is the first with lines added that say nothing. -/
inductive Padded : List (List UInt8) → List (List UInt8) → Prop
  | nil : Padded [] []
  | keep {l ls ls'} : Padded ls ls' → Padded (l :: ls) (l :: ls')
  | add {l ls ls'} : Empty l → Padded ls ls' → Padded ls (l :: ls')

/-- A text of lines, each of them ended by `e` -/
def text (e : List UInt8) (ls : List (List UInt8)) : List UInt8 := (ls.map (· ++ e)).flatten

/-- What is reported of a value, but for the number of its line -/
def body (r : Item) : List UInt8 × List UInt8 × List UInt8 := (r.sec, r.key, r.value)

/-- A value that comes `n` lines later -/
def later (n : Nat) (r : Item) : Item := { r with line := n + r.line }

/-! ## Line ends -/

theorem cutAfterSpace_return (l : List UInt8) :
    cutAfterSpace (l ++ [13]) = cutAfterSpace l ∨ cutAfterSpace (l ++ [13]) = cutAfterSpace l ++ [13] := by
  induction l with
  | nil => right; rfl
  | cons c l ih =>
    cases l with
    | nil =>
      right
      simp only [List.singleton_append, cutAfterSpace]
      rw [if_neg (by simp [IsSign])]
    | cons d l =>
      rw [List.cons_append, List.cons_append, cutAfterSpace, cutAfterSpace]
      split
      · left; rfl
      · rcases ih with h | h
        · left; rw [List.cons_append] at h; rw [h]
        · right; rw [List.cons_append] at h; rw [h]; rfl

theorem kind_return (hk : Bool) (l : List UInt8) : kind hk (l ++ [13]) = kind hk l := by
  cases l with
  | nil => revert hk; decide
  | cons c l =>
    have e : strip (cut (c :: l ++ [13])) = strip (cut (c :: l)) := by
      rw [List.cons_append, cut, cut]
      split
      · rfl
      · rcases cutAfterSpace_return (c :: l) with h | h
        · rw [List.cons_append] at h; rw [h]
        · rw [List.cons_append] at h
          rw [h, strip_concat_white _ (by decide)]
    have e2 : indented (c :: l ++ [13]) = indented (c :: l) := rfl
    unfold kind
    rw [e, e2]

/-- Two documents of which each line means the same -/
inductive Alike : List (List UInt8) → List (List UInt8) → Prop
  | nil : Alike [] []
  | cons {l l' ls ls'} : (∀ hk, kind hk l' = kind hk l) → Alike ls ls' → Alike (l :: ls) (l' :: ls')

theorem Alike.reports {ls ls' : List (List UInt8)} (h : Alike ls ls') : ∀ {n : Nat} {S K : List UInt8},
    reports n S K ls' = reports n S K ls := by
  induction h with
  | nil => intros; rfl
  | cons hk _ ih =>
    intro n S K
    unfold Spec.reports
    rw [hk]
    simp only [ih]

theorem bom_return (l : List UInt8) : bom.isPrefixOf (l ++ [13]) = bom.isPrefixOf l := by
  rcases l with _ | ⟨a, _ | ⟨b, _ | ⟨c, l⟩⟩⟩ <;> simp [bom, List.isPrefixOf]

/-- A line cut to the buffer, with and without a carriage return -/
theorem take_return (l : List UInt8) :
    (l ++ [13]).take 1023 = l.take 1023 ∨ (l ++ [13]).take 1023 = l.take 1023 ++ [13] := by
  by_cases h : l.length < 1023
  · right
    rw [List.take_of_length_le (by simp; omega), List.take_of_length_le (by omega)]
  · left
    rw [List.take_append_of_le_length (by omega)]

theorem alike_return (ls : List (List UInt8)) :
    Alike (dropBom (ls.map (·.take 1023))) (dropBom ((ls.map (· ++ [13])).map (·.take 1023))) := by
  have tail : ∀ ls : List (List UInt8), Alike (ls.map (·.take 1023)) ((ls.map (· ++ [13])).map (·.take 1023)) := by
    intro ls
    induction ls with
    | nil => exact .nil
    | cons l ls ih =>
      refine .cons (fun hk => ?_) ih
      show kind hk ((l ++ [13]).take 1023) = kind hk (l.take 1023)
      rcases take_return l with h | h <;> rw [h]
      exact kind_return hk _
  cases ls with
  | nil => exact .nil
  | cons l ls =>
    refine .cons (fun hk => ?_) (tail ls)
    show kind hk (if bom.isPrefixOf ((l ++ [13]).take 1023) = true then ((l ++ [13]).take 1023).drop 3 else (l ++ [13]).take 1023) =
      kind hk (if bom.isPrefixOf (l.take 1023) = true then (l.take 1023).drop 3 else l.take 1023)
    rcases take_return l with h | h <;> rw [h]
    rw [bom_return]
    by_cases hp : bom.isPrefixOf (l.take 1023) = true
    · rw [if_pos hp, if_pos hp]
      rw [List.isPrefixOf_iff_prefix] at hp
      obtain ⟨r, hr⟩ := hp
      rw [← hr]
      simpa [bom] using kind_return hk r
    · rw [if_neg hp, if_neg hp]
      exact kind_return hk _

theorem text_lines {ls : List (List UInt8)} (h : ∀ l ∈ ls, 10 ∉ l) : Lines (text [10] ls) ls := by
  induction ls with
  | nil => exact .nil
  | cons l ls ih =>
    have := Lines.cons (h l (by simp)) (ih (fun x hx => h x (by simp [hx])))
    simpa [text] using this

theorem text_return (ls : List (List UInt8)) : text [13, 10] ls = text [10] (ls.map (· ++ [13])) := by
  simp [text, Function.comp_def]

/-- **C156.** Lines that end as on Windows are read as lines that end as on Unix: the same calls of the callback, the same result. -/
theorem crlf {mem mem' buf buf' : List UInt8} {ls : List (List UInt8)} (cb : List Item → Item → Int)
    (hl : ∀ l ∈ ls, 10 ∉ l) (h : CStr mem 0 (text [10] ls)) (h' : CStr mem' 0 (text [13, 10] ls))
    (hn : ls.length ≤ 2147483647) (hb : buf.length = 1024) (hb' : buf'.length = 1024) :
    parseString cb buf' (some mem') = parseString cb buf (some mem) := by
  rw [text_return] at h'
  obtain ⟨c1, r1, e1, h1⟩ := ini_string cb h (text_lines hl) hn hb
  obtain ⟨c2, r2, e2, h2⟩ := ini_string cb h' (text_lines (by
    intro l hm
    obtain ⟨x, hx, rfl⟩ := List.mem_map.1 hm
    have := hl x hx
    simp [this])) (by simpa using hn) hb'
  rw [(alike_return ls).reports] at h2
  obtain ⟨rfl, rfl⟩ := ends_unique h1 h2
  rw [e1, e2]

/-- **C156.** So are those of a file, if no line has more than 1020 bytes. -/
theorem crlf_file_partial {buf buf' : List UInt8} {ls : List (List UInt8)} (cb : List Item → Item → Int)
    (hl : ∀ l ∈ ls, 10 ∉ l ∧ 0 ∉ l ∧ l.length ≤ 1020) (hn : ls.length ≤ 2147483647) (hb : buf.length = 1024) (hb' : buf'.length = 1024) :
    parseFile cb buf' (some (text [13, 10] ls, false)) = parseFile cb buf (some (text [10] ls, false)) := by
  have z : ∀ e : List UInt8, 0 ∉ e → ∀ c ∈ text e ls, c ≠ 0 := by
    rintro e he c hc rfl
    obtain ⟨x, hx, hc⟩ := List.mem_flatten.1 hc
    obtain ⟨l, hm, rfl⟩ := List.mem_map.1 hx
    rcases List.mem_append.1 hc with hc | hc
    · exact (hl l hm).2.1 hc
    · exact he hc
  have k1 := cstring_ok (z [10] (by decide))
  have k2 := cstring_ok (z [13, 10] (by decide))
  rw [ini_file_string_partial cb k1 (text_lines (fun l hm => (hl l hm).1)) (fun l hm => by have := hl l hm; omega) hn hb hb]
  rw [← crlf cb (fun l hm => (hl l hm).1) k1 k2 hn hb hb]
  rw [text_return] at k2 ⊢
  refine ini_file_string_partial cb k2 (text_lines ?_) ?_ (by simpa using hn) hb' hb
  · intro l hm
    obtain ⟨x, hx, rfl⟩ := List.mem_map.1 hm
    have := (hl x hx).1
    simp [this]
  · intro l hm
    obtain ⟨x, hx, rfl⟩ := List.mem_map.1 hm
    have := (hl x hx).2.2
    simp; omega

/-- **C156 is violated** for a file with longer lines: a comment of 1021 bytes is one line with the line ends of Unix, and two with
those of Windows, so that the numbers of all lines after it are wrong. -/
theorem crlf_file_violated : ∃ ls : List (List UInt8), (∀ l ∈ ls, 10 ∉ l ∧ 0 ∉ l ∧ l.length ≤ 1021) ∧
    parseFile (fun _ _ => 0) buffer (some (text [10] ls, false)) = .ok ([⟨2, [], [107], [118]⟩], 0) ∧
    parseFile (fun _ _ => 0) buffer (some (text [13, 10] ls, false)) = .ok ([⟨3, [], [107], [118]⟩], 0) := by
  refine ⟨[35 :: List.replicate 1020 120, [107, 61, 118]], by decide +kernel, ?_, ?_⟩
  · refine file_run (ls := [35 :: List.replicate 1020 120, [107, 61, 118]]) ?_ (by decide) (by decide +kernel) (by decide +kernel)
    have e : text [10] [35 :: List.replicate 1020 120, [107, 61, 118]] =
        (35 :: List.replicate 1020 120) ++ 10 :: ([107, 61, 118] ++ 10 :: []) := by decide +kernel
    rw [e]
    exact .line (l := 35 :: List.replicate 1020 120) (by decide +kernel) (by decide +kernel) (.line (l := [107, 61, 118]) (by decide) (by decide) (.eof (Or.inl rfl)))
  · refine file_run (ls := [35 :: List.replicate 1020 120 ++ [13], [], [107, 61, 118, 13]]) ?_ (by decide) (by decide +kernel) (by decide +kernel)
    have e : text [13, 10] [35 :: List.replicate 1020 120, [107, 61, 118]] =
        (35 :: List.replicate 1020 120 ++ [13]) ++ ([] ++ 10 :: ([107, 61, 118, 13] ++ 10 :: [])) := by decide +kernel
    rw [e]
    exact .part (by decide +kernel) (by decide +kernel)
      (.line (l := []) (by decide) (by decide) (.line (l := [107, 61, 118, 13]) (by decide) (by decide) (.eof (Or.inl rfl))))

/-! ## Byte order mark -/

/-- **C156.** A byte order mark before a document changes nothing, if the first line has at most 1020 bytes. -/
theorem mark {mem mem' buf buf' s : List UInt8} {ls : List (List UInt8)} (cb : List Item → Item → Int)
    (hls : Lines s ls) (h : CStr mem 0 s) (h' : CStr mem' 0 (bom ++ s)) (hs : ¬ bom <+: s) (h1 : ∀ l, ls.head? = some l → l.length ≤ 1020)
    (hn : ls.length < 2147483647) (hb : buf.length = 1024) (hb' : buf'.length = 1024) :
    parseString cb buf' (some mem') = parseString cb buf (some mem) := by
  obtain ⟨c1, r1, e1, g1⟩ := ini_string cb h hls (by omega) hb
  have key : ∃ ls', Lines (bom ++ s) ls' ∧ ls'.length ≤ 2147483647 ∧
      reports 0 [] [] (dropBom (ls'.map (·.take 1023))) = reports 0 [] [] (dropBom (ls.map (·.take 1023))) := by
    have one : ∀ (l : List UInt8) (t : List (List UInt8)), 10 ∉ l → l <+: s → l.length ≤ 1020 → ls = l :: t →
        reports 0 [] [] (dropBom (((bom ++ l) :: t).map (·.take 1023))) = reports 0 [] [] (dropBom (ls.map (·.take 1023))) := by
      intro l t _ hp hlen e
      subst e
      have a1 : ¬ bom.isPrefixOf l = true := by
        rw [List.isPrefixOf_iff_prefix]
        exact fun hq => hs (hq.trans hp)
      simp only [List.map_cons, dropBom]
      rw [List.take_of_length_le (l := bom ++ l) (by simp [bom]; omega), List.take_of_length_le (l := l) (by omega), if_neg a1,
        if_pos (by rw [List.isPrefixOf_iff_prefix]; exact List.prefix_append _ _)]
      rfl
    cases hls with
    | nil => exact ⟨[bom], .last (by decide) (by decide), by simp, by decide +kernel⟩
    | last x y =>
      refine ⟨[bom ++ s], .last (by simp [x]) ?_, by simp, one s [] y List.prefix_rfl (h1 s rfl) rfl⟩
      simp [bom, y]
    | @cons l s' ls' x y =>
      refine ⟨(bom ++ l) :: ls', ?_, by simp at hn ⊢; omega, one l ls' x (List.prefix_append _ _) (h1 l rfl) rfl⟩
      rw [← List.append_assoc]
      exact .cons (by simp [bom, x]) y
  obtain ⟨ls', k1, k2, k3⟩ := key
  obtain ⟨c2, r2, e2, g2⟩ := ini_string cb h' k1 k2 hb'
  rw [k3] at g2
  obtain ⟨rfl, rfl⟩ := ends_unique g1 g2
  rw [e1, e2]

/-! ## Empty lines and comments -/

theorem Empty.take {l : List UInt8} (h : Empty l) (n : Nat) : Empty (l.take n) := by
  have white : ∀ {w : List UInt8}, White w → ∀ n, White (w.take n) := fun hw n c hc => hw c (List.mem_of_mem_take hc)
  cases h with
  | white hw => exact .white (white hw n)
  | comment hc =>
    cases n with
    | zero => exact .white (by intro c hc; simp at hc)
    | succ n => exact .comment hc
  | @indented w c x hw hc =>
    by_cases h : n ≤ w.length + 1
    · refine .white ?_
      rw [show w ++ 32 :: c :: x = (w ++ [32]) ++ c :: x by simp, List.take_append_of_le_length (by simpa using h)]
      refine white ?_ n
      intro d hd
      rcases List.mem_append.1 hd with hd | hd
      · exact hw d hd
      · simp at hd; subst hd; decide
    · rw [List.take_append, List.take_of_length_le (by omega)]
      obtain ⟨k, hk⟩ : ∃ k, n - w.length = k + 2 := ⟨n - w.length - 2, by omega⟩
      rw [hk]
      exact .indented hw hc

theorem Empty.kind {l : List UInt8} (h : Empty l) (hk : Bool) : kind hk l = .blank := by
  cases h with
  | white hw =>
    have := kind_blank hk (t := ⟨l, none⟩) ⟨hw, by simp⟩
    simpa [Trail.text] using this
  | comment hc => exact kind_comment hk hc
  | @indented w c x hw hc =>
    exact kind_blank hk (t := ⟨w, some (c, x)⟩) ⟨hw, fun c' x' e => by cases e; exact hc⟩

theorem Padded.reports {ls ls' : List (List UInt8)} (h : Padded ls ls') : ∀ {n n' : Nat} {S K : List UInt8},
    (reports n' S K (ls'.map (·.take 1023))).1.map body = (reports n S K (ls.map (·.take 1023))).1.map body ∧
    ((reports n' S K (ls'.map (·.take 1023))).2 = none ↔ (reports n S K (ls.map (·.take 1023))).2 = none) := by
  induction h with
  | nil => intro n n' S K; simp [Spec.reports]
  | @keep l ls ls' _ ih =>
    intro n n' S K
    simp only [List.map_cons, Spec.reports]
    cases Spec.kind (K != []) (l.take 1023) with
    | blank => exact ih
    | bad => simp
    | header name => exact ih
    | more v =>
      have := @ih (n + 1) (n' + 1) S K
      simp only [List.map_cons]
      exact ⟨by rw [this.1]; rfl, this.2⟩
    | pair k v =>
      have := @ih (n + 1) (n' + 1) S (k.take 255)
      simp only [List.map_cons]
      exact ⟨by rw [this.1]; rfl, this.2⟩
  | @add l ls ls' he _ ih =>
    intro n n' S K
    rw [List.map_cons, Spec.reports, (he.take 1023).kind]
    exact ih

/-- A run over values that are the same but for their lines, of a callback that does not look at these -/
theorem Ends.body {f : List (List UInt8 × List UInt8 × List UInt8) → List UInt8 × List UInt8 × List UInt8 → Int}
    {rs rs' : List Item} {bad bad' : Option Nat} {calls calls' : List Item} {rc rc' : Int} (hr : rs'.map body = rs.map body)
    (h : Ends (fun old r => f (old.map body) (body r)) rs bad calls rc) (h' : Ends (fun old r => f (old.map body) (body r)) rs' bad' calls' rc') :
    calls'.map body = calls.map body := by
  have hlen : rs'.length = rs.length := by simpa using congrArg List.length hr
  have hget : ∀ i (h : i < rs.length) (h' : i < rs'.length), Layout.body rs'[i] = Layout.body rs[i] := by
    intro i h h'
    have : (rs'.map Layout.body)[i]? = (rs.map Layout.body)[i]? := by rw [hr]
    simpa [List.getElem?_eq_getElem h, List.getElem?_eq_getElem h'] using this
  have htake : ∀ i, (rs'.take i).map Layout.body = (rs.take i).map Layout.body := by
    intro i; rw [List.map_take, List.map_take, hr]
  -- how far a run goes is told by the answers
  have stop : ∀ {xs ys : List Item} {b : Option Nat} {c : List Item} {r : Int}, ys.map Layout.body = xs.map Layout.body →
      Ends (fun old r => f (old.map Layout.body) (Layout.body r)) xs b c r →
      ∃ k, k ≤ xs.length ∧ c = xs.take k ∧ (∀ i, i + 1 < k → ∀ h : i < ys.length, f ((ys.take i).map Layout.body) (Layout.body ys[i]) = 0) ∧
        (k < xs.length → ∃ i, i + 1 = k ∧ ∀ h : i < ys.length, f ((ys.take i).map Layout.body) (Layout.body ys[i]) ≠ 0) ∧
        (k = xs.length → ∀ i, i < k → (∀ h : i < ys.length, f ((ys.take i).map Layout.body) (Layout.body ys[i]) = 0) ∨ i + 1 = k) := by
    intro xs ys b c r he hE
    have hl : ys.length = xs.length := by simpa using congrArg List.length he
    have ht : ∀ i, (ys.take i).map Layout.body = (xs.take i).map Layout.body := by
      intro i; rw [List.map_take, List.map_take, he]
    have hg : ∀ i (h : i < xs.length) (h' : i < ys.length), Layout.body ys[i] = Layout.body xs[i] := by
      intro i h h'
      have : (ys.map Layout.body)[i]? = (xs.map Layout.body)[i]? := by rw [he]
      simpa [List.getElem?_eq_getElem h, List.getElem?_eq_getElem h'] using this
    cases hE with
    | refused done x rest hrs acc ref =>
      subst hrs
      have ok : ∀ i, i < done.length → ∀ h : i < ys.length, f ((ys.take i).map Layout.body) (Layout.body ys[i]) = 0 := by
        intro i hi h
        have := acc i hi
        rw [ht i, hg i (by simp; omega) h, List.take_append_of_le_length (by omega), List.getElem_append_left hi]
        exact this
      refine ⟨done.length + 1, by simp, by rw [List.take_append, List.take_of_length_le (by omega)]; simp, fun i hi => ok i (by omega), fun _ => ⟨done.length, rfl, fun h => ?_⟩,
        fun _ i hi => ?_⟩
      · rw [ht, hg _ (by simp) h]
        simpa using ref
      · by_cases e : i < done.length
        · exact Or.inl (ok i e)
        · exact Or.inr (by omega)
    | accepted acc =>
      have ok : ∀ i, i < xs.length → ∀ h : i < ys.length, f ((ys.take i).map Layout.body) (Layout.body ys[i]) = 0 := by
        intro i hi h
        rw [ht i, hg i hi h]
        exact acc i hi
      exact ⟨xs.length, Nat.le_refl _, by simp, fun i hi => ok i (by omega), fun h => by omega, fun _ i hi => Or.inl (ok i hi)⟩
  obtain ⟨k, a1, a2, a3, a4, a5⟩ := stop rfl h
  obtain ⟨k', b1, b2, b3, b4, b5⟩ := stop hr.symm h'
  have : k' = k := by
    rcases Nat.lt_trichotomy k k' with hlt | he | hgt
    · obtain ⟨i, hi, h2⟩ := a4 (by omega)
      exact absurd (b3 i (by omega) (by omega)) (h2 (by omega))
    · exact he.symm
    · obtain ⟨i, hi, h2⟩ := b4 (by omega)
      exact absurd (a3 i (by omega) (by omega)) (h2 (by omega))
  rw [a2, b2, this, htake]

theorem lines_head {s : List UInt8} {ls : List (List UInt8)} (h : Lines s ls) (hs : ¬ bom <+: s) :
    dropBom (ls.map (·.take 1023)) = ls.map (·.take 1023) := by
  have one : ∀ l : List UInt8, l <+: s → ¬ bom.isPrefixOf (l.take 1023) = true := by
    intro l hl hp
    rw [List.isPrefixOf_iff_prefix] at hp
    exact hs ((hp.trans (List.take_prefix _ _)).trans hl)
  cases h with
  | nil => rfl
  | last => simp only [List.map_cons, dropBom]; rw [if_neg (one s List.prefix_rfl)]
  | cons => simp only [List.map_cons, dropBom]; rw [if_neg (one _ (List.prefix_append _ _))]

/-- **C156.** Empty lines and comments can be added to a document anywhere: a callback that does not look at the numbers of lines is called
with the same sections, keys and values, and the result is 0 for both or for none. -/
theorem padded {mem mem' buf buf' s s' : List UInt8} {ls ls' : List (List UInt8)}
    (f : List (List UInt8 × List UInt8 × List UInt8) → List UInt8 × List UInt8 × List UInt8 → Int)
    (hls : Lines s ls) (hls' : Lines s' ls') (hp : Padded ls ls') (h : CStr mem 0 s) (h' : CStr mem' 0 s') (hs : ¬ bom <+: s) (hs' : ¬ bom <+: s')
    (hn : ls'.length ≤ 2147483647) (hb : buf.length = 1024) (hb' : buf'.length = 1024) :
    ∃ calls calls' rc rc', parseString (fun old r => f (old.map body) (body r)) buf (some mem) = .ok (calls, rc) ∧
      parseString (fun old r => f (old.map body) (body r)) buf' (some mem') = .ok (calls', rc') ∧
      calls'.map body = calls.map body ∧ (rc' = 0 ↔ rc = 0) := by
  have hlen : ls.length ≤ ls'.length := by
    clear hls hls' hn
    induction hp with
    | nil => simp
    | keep _ ih => simp; exact ih
    | add _ _ ih => simp; omega
  obtain ⟨c1, r1, e1, g1⟩ := ini_string (fun old r => f (old.map body) (body r)) h hls (by omega) hb
  obtain ⟨c2, r2, e2, g2⟩ := ini_string (fun old r => f (old.map body) (body r)) h' hls' hn hb'
  have z1 := (ends_zero g1).2
  have z2 := (ends_zero g2).2
  rw [lines_head hls hs] at g1 z1
  rw [lines_head hls' hs'] at g2 z2
  obtain ⟨k1, k2⟩ := hp.reports (n := 0) (n' := 0) (S := []) (K := [])
  have hc := Ends.body k1 g1 g2
  refine ⟨c1, c2, r1, r2, e1, e2, hc, ?_⟩
  have both : ∀ {xs ys : List Item} {bx by' : Option Nat} {cx cy : List Item}, ys.map body = xs.map body → (by' = none ↔ bx = none) →
      cy.map body = cx.map body → (cx <+: xs) → (cy <+: ys) →
      (cx = xs ∧ bx = none ∧ ∀ i (h : i < xs.length), f ((xs.take i).map body) (body xs[i]) = 0) →
      (cy = ys ∧ by' = none ∧ ∀ i (h : i < ys.length), f ((ys.take i).map body) (body ys[i]) = 0) := by
    intro xs ys bx by' cx cy he hb hc hx hy ⟨a, b, c⟩
    have hl : ys.length = xs.length := by simpa using congrArg List.length he
    have hl2 : cy.length = cx.length := by simpa using congrArg List.length hc
    refine ⟨hy.eq_of_length (by rw [hl2, a, hl]), hb.2 b, fun i hi => ?_⟩
    have := c i (by omega)
    rw [List.map_take, he, ← List.map_take]
    have e : (ys.map body)[i]? = (xs.map body)[i]? := by rw [he]
    simp only [List.getElem?_map, List.getElem?_eq_getElem hi, List.getElem?_eq_getElem (show i < xs.length by omega), Option.map_some,
      Option.some.injEq] at e
    rw [e]
    exact this
  have pre : ∀ {cb : List Item → Item → Int} {xs : List Item} {b : Option Nat} {c : List Item} {r : Int}, Ends cb xs b c r → c <+: xs := by
    intro cb xs b c r hE
    cases hE with
    | refused done x rest hrs => subst hrs; exact ⟨rest, by simp⟩
    | accepted => exact List.prefix_rfl
  constructor
  · intro h0
    exact z1.2 (both k1.symm k2.symm hc.symm (pre g2) (pre g1) (z2.1 h0))
  · intro h0
    exact z2.2 (both k1 k2 hc (pre g1) (pre g2) (z1.1 h0))

/-! ## Parts -/

theorem reports_append {a b : List (List UInt8)} : ∀ {n : Nat} {S K : List UInt8},
    (∀ k, (reports n S K a).2 = some k → reports n S K (a ++ b) = reports n S K a) ∧
    ((reports n S K a).2 = none → ∃ S' K', reports n S K (a ++ b) =
      ((reports n S K a).1 ++ (reports (n + a.length) S' K' b).1, (reports (n + a.length) S' K' b).2)) := by
  induction a with
  | nil => intro n S K; simp [reports]; exact ⟨S, K, rfl⟩
  | cons l a ih =>
    intro n S K
    have e : n + (l :: a).length = n + 1 + a.length := by simp; omega
    rw [e]
    simp only [List.cons_append, reports]
    cases kind (K != []) l with
    | blank => exact ih
    | bad => simp
    | header name => exact ih
    | more v =>
      obtain ⟨h1, h2⟩ := @ih (n + 1) S K
      refine ⟨fun k hk => ?_, fun hk => ?_⟩
      · rw [h1 k hk]
      · obtain ⟨S', K', h⟩ := h2 hk
        exact ⟨S', K', by rw [h]; rfl⟩
    | pair k v =>
      obtain ⟨h1, h2⟩ := @ih (n + 1) S (k.take 255)
      dsimp only
      refine ⟨fun k hk => ?_, fun hk => ?_⟩
      · rw [h1 k hk]
      · obtain ⟨S', K', h⟩ := h2 hk
        exact ⟨S', K', by rw [h]; rfl⟩

theorem reports_later {b : List (List UInt8)} : ∀ {m n : Nat} {S K : List UInt8},
    reports (m + n) S K b = ((reports n S K b).1.map (later m), (reports n S K b).2.map (m + ·)) := by
  induction b with
  | nil => intros; rfl
  | cons l b ih =>
    intro m n S K
    have ih : ∀ {S K : List UInt8}, reports (m + n + 1) S K b = ((reports (n + 1) S K b).1.map (later m), (reports (n + 1) S K b).2.map (m + ·)) := by
      intro S K
      rw [Nat.add_assoc]; exact ih
    simp only [reports]
    cases kind (K != []) l with
    | blank => exact ih
    | bad => simp [Nat.add_assoc]
    | header name => exact ih
    | more v => simp only [ih]; rfl
    | pair k v => simp only [ih]; rfl

/-- A line that begins with `[` is the same after every key. -/
theorem kind_bracket (l : List UInt8) (hk hk' : Bool) : kind hk (91 :: l) = kind hk' (91 :: l) ∧
    (kind hk (91 :: l) = .bad ∨ ∃ name, kind hk (91 :: l) = .header name) := by
  obtain ⟨t, ht⟩ : ∃ t, strip (cut (91 :: l)) = 91 :: t := by
    rw [cut, if_neg (by decide)]
    obtain ⟨r, hr⟩ := cutAfterSpace_head (c := 91) (l := l)
    rw [hr]
    unfold strip
    rw [List.dropWhile_cons, if_neg (by decide)]
    obtain ⟨w, h1, h2⟩ := stripRight_prefix (91 :: r)
    cases hs : stripRight (91 :: r) with
    | nil =>
      rw [hs, List.nil_append] at h1
      exact absurd (h2 91 (by rw [← h1]; simp)) (by decide)
    | cons c t =>
      rw [hs] at h1
      simp only [List.cons_append, List.cons.injEq] at h1
      exact ⟨t, by rw [← h1.1]⟩
  have hi : indented (91 :: l) = false := rfl
  unfold kind
  simp only [ht, hi]
  simp only [Bool.false_and]
  split
  · rename_i h; cases h
  · split
    · rename_i h; cases h
    · rw [if_pos (show (91 :: t).head? = some 91 from rfl)]
      refine ⟨trivial, ?_⟩
      split
      · exact Or.inr ⟨_, rfl⟩
      · exact Or.inl rfl

theorem reports_bracket {l : List UInt8} {b : List (List UInt8)} {n : Nat} {S K S' K' : List UInt8} :
    reports n S K ((91 :: l) :: b) = reports n S' K' ((91 :: l) :: b) := by
  simp only [reports]
  rw [(kind_bracket l (K != []) (K' != [])).1]
  rcases (kind_bracket l (K' != []) false).2 with h | ⟨name, h⟩ <;> rw [h]

theorem lines_append {s t : List UInt8} {a b : List (List UInt8)} (ha : Lines s a) (hb : Lines t b) (he : s = [] ∨ s.getLast? = some 10) :
    Lines (s ++ t) (a ++ b) := by
  induction ha with
  | nil => exact hb
  | last h1 h2 =>
    rcases he with he | he
    · exact absurd he h1
    · exact absurd (List.mem_of_getLast? he) h2
  | @cons l s ls h1 _ ih =>
    rw [List.append_assoc, List.cons_append, List.cons_append]
    refine .cons h1 (ih ?_)
    rcases he with he | he
    · simp at he
    · cases s with
      | nil => exact Or.inl rfl
      | cons c s => right; simpa using he

theorem lines_bracket {t : List UInt8} {b : List (List UInt8)} (hb : Lines t b) (h : t.head? = some 91) : ∃ l b', b = (91 :: l) :: b' := by
  cases hb with
  | nil => simp at h
  | last h1 h2 =>
    cases t with
    | nil => simp at h
    | cons c t => simp at h; subst h; exact ⟨_, _, rfl⟩
  | @cons l s ls h1 _ =>
    cases l with
    | nil => simp at h
    | cons c l => simp at h; subst h; exact ⟨_, _, rfl⟩

/-- **C156.** A document whose lines are complete, followed by a part that begins with a section: the callback gets the values of the document, and
then those that the part has on its own, with the numbers of their lines counted on. It may answer as it likes: whether it accepts a value of the part
is asked of it with the values before and with the number of the line as they are in the whole. The result is the number of a line in the whole. -/
theorem parts {mem₁ mem₂ mem buf₁ buf₂ buf s t : List UInt8} {a b : List (List UInt8)} (cb : List Item → Item → Int)
    (ha : Lines s a) (hb : Lines t b) (he : s = [] ∨ s.getLast? = some 10) (ht : t.head? = some 91)
    (h₁ : CStr mem₁ 0 s) (h₂ : CStr mem₂ 0 t) (h : CStr mem 0 (s ++ t)) (hn : a.length + b.length ≤ 2147483647)
    (b₁ : buf₁.length = 1024) (b₂ : buf₂.length = 1024) (hbuf : buf.length = 1024) :
    ∃ calls rc, parseString cb buf₁ (some mem₁) = .ok (calls, rc) ∧
      if rc = 0 then
        ∃ calls' rc', parseString (fun old r => cb (calls ++ old.map (later a.length)) (later a.length r)) buf₂ (some mem₂) = .ok (calls', rc') ∧
          parseString cb buf (some mem) = .ok (calls ++ calls'.map (later a.length), if rc' = 0 then 0 else a.length + rc')
      else parseString cb buf (some mem) = .ok (calls, rc) := by
  obtain ⟨l, b', rfl⟩ := lines_bracket hb ht
  obtain ⟨c1, r1, e1, g1⟩ := ini_string cb h₁ ha (by omega) b₁
  obtain ⟨c3, r3, e3, g3⟩ := ini_string cb h (lines_append ha hb he) (by simpa using hn) hbuf
  refine ⟨c1, r1, e1, ?_⟩
  have z1 := ends_zero g1
  -- the lines of the whole
  have hcut : ∀ x : List UInt8, (91 :: x).take 1023 = 91 :: x.take 1022 := fun x => rfl
  have hB : dropBom ((((91 :: l) :: b')).map (·.take 1023)) = (91 :: l.take 1022) :: b'.map (·.take 1023) := by
    simp only [List.map_cons, dropBom]
    rw [hcut, if_neg (by simp [bom])]
  obtain ⟨A, hA, hAl, hAB⟩ : ∃ A, A = dropBom (a.map (·.take 1023)) ∧ A.length = a.length ∧
      dropBom ((a ++ (91 :: l) :: b').map (·.take 1023)) = A ++ (91 :: l.take 1022) :: b'.map (·.take 1023) := by
    refine ⟨_, rfl, by cases a <;> simp [dropBom], ?_⟩
    cases a with
    | nil => simpa [dropBom] using hB
    | cons x a => simp [dropBom]
  rw [← hA] at g1 z1
  rw [hAB] at g3
  obtain ⟨p1, p2⟩ := reports_append (a := A) (b := (91 :: l.take 1022) :: b'.map (·.take 1023)) (n := 0) (S := []) (K := [])
  by_cases hr : r1 = 0
  · rw [if_pos hr]
    obtain ⟨q1, q2, q3⟩ := z1.2.1 hr
    obtain ⟨S', K', p2⟩ := p2 q2
    rw [Nat.zero_add, hAl, reports_bracket (S' := []) (K' := [])] at p2
    have p3 := reports_later (m := a.length) (n := 0) (S := []) (K := []) (b := (91 :: l.take 1022) :: b'.map (·.take 1023))
    rw [Nat.add_zero] at p3
    rw [p3] at p2
    rw [p2, ← q1] at g3
    obtain ⟨c2, r2, e2, g2⟩ := ini_string (fun old r => cb (c1 ++ old.map (later a.length)) (later a.length r)) h₂ hb (by simp at hn ⊢; omega) b₂
    have z2 := ends_zero g2
    have w2 := (reports_line (ls := dropBom ((((91 :: l) :: b')).map (·.take 1023))) (n := 0) (S := []) (K := []))
    rw [hB] at g2 z2 w2
    refine ⟨c2, r2, e2, ?_⟩
    rw [e3]
    rw [← q1] at q3
    generalize (reports 0 [] [] ((91 :: l.take 1022) :: b'.map (·.take 1023))).1 = rs at *
    generalize (reports 0 [] [] ((91 :: l.take 1022) :: b'.map (·.take 1023))).2 = bad at *
    have join : ∀ {d : List Item}, (∀ i (h : i < d.length), cb (c1 ++ (d.take i).map (later a.length)) (later a.length d[i]) = 0) →
        ∀ i (h : i < (c1 ++ d.map (later a.length)).length), cb ((c1 ++ d.map (later a.length)).take i) (c1 ++ d.map (later a.length))[i] = 0 := by
      intro d hd i hi
      by_cases hlt : i < c1.length
      · rw [List.getElem_append_left hlt, List.take_append_of_le_length (by omega)]
        exact q3 i hlt
      · have hi' : i - c1.length < d.length := by simp at hi; omega
        have := hd (i - c1.length) hi'
        rw [List.getElem_append_right (by omega), List.take_append, List.take_of_length_le (by omega), ← List.map_take]
        simpa using this
    have want : Ends cb (c1 ++ rs.map (later a.length)) (bad.map (a.length + ·)) (c1 ++ c2.map (later a.length))
        (if r2 = 0 then 0 else a.length + r2) := by
      cases g2 with
      | refused done x rest hrs acc ref =>
        have hx := (w2.1 x (by rw [hrs]; simp)).1
        rw [if_neg (by omega)]
        have e : (a.length : Int) + x.line = (later a.length x).line := by simp [later]
        rw [e]
        have := Ends.refused (cb := cb) (rs := c1 ++ rs.map (later a.length)) (bad := bad.map (a.length + ·))
          (c1 ++ done.map (later a.length)) (later a.length x) (rest.map (later a.length)) (by rw [hrs]; simp) (join acc) ref
        simpa using this
      | accepted acc =>
        have := Ends.accepted (cb := cb) (rs := c1 ++ c2.map (later a.length)) (bad := bad.map (a.length + ·)) (join acc)
        cases bad with
        | none => simpa using this
        | some k =>
          have hk := (w2.2 k rfl).1
          simp only [Option.getD_some]
          rw [if_neg (by omega)]
          simpa using this
    obtain ⟨rfl, rfl⟩ := ends_unique g3 want
    rfl
  · rw [if_neg hr, e3]
    cases g1 with
    | refused done x rest hrs acc ref =>
      have : ∃ more, (reports 0 [] [] (A ++ (91 :: l.take 1022) :: b'.map (·.take 1023))).1 = done ++ x :: (rest ++ more) := by
        cases hbad : (reports 0 [] [] A).2 with
        | none =>
          obtain ⟨S', K', p2⟩ := p2 hbad
          rw [p2, hrs]
          exact ⟨_, List.append_assoc ..⟩
        | some k => rw [p1 k hbad, hrs]; exact ⟨[], by simp⟩
      obtain ⟨more, hm⟩ := this
      obtain ⟨rfl, rfl⟩ := ends_unique g3 (.refused done x (rest ++ more) hm acc ref)
      rfl
    | accepted acc =>
      cases hbad : (reports 0 [] [] A).2 with
      | none => rw [hbad] at hr; simp at hr
      | some k =>
        rw [p1 k hbad] at g3
        obtain ⟨rfl, rfl⟩ := ends_unique g3 (.accepted acc)
        rw [hbad]

/-! ## Examples -/

/-- `k = 1`, ` 2`, `[s]`, `x : y` -/
def sample : List (List UInt8) := [[107, 32, 61, 32, 49], [32, 50], [91, 115, 93], [120, 32, 58, 32, 121]]

theorem sample_run : parseString (fun _ _ => 0) buffer (some (cstring (text [10] sample))) =
    .ok ([⟨1, [], [107], [49]⟩, ⟨2, [], [107], [50]⟩, ⟨4, [115], [120], [121]⟩], 0) := by decide +kernel

example : parseString (fun _ _ => 0) buffer (some (cstring (text [13, 10] sample))) =
    .ok ([⟨1, [], [107], [49]⟩, ⟨2, [], [107], [50]⟩, ⟨4, [115], [120], [121]⟩], 0) := by
  rw [← sample_run]
  exact crlf _ (by decide) (cstring_ok (by decide)) (cstring_ok (by decide)) (by decide) (by decide +kernel) (by decide +kernel)

example : parseString (fun _ _ => 0) buffer (some (cstring (bom ++ text [10] sample))) =
    .ok ([⟨1, [], [107], [49]⟩, ⟨2, [], [107], [50]⟩, ⟨4, [115], [120], [121]⟩], 0) := by
  rw [← sample_run]
  exact mark _ (text_lines (ls := sample) (by decide)) (cstring_ok (by decide)) (cstring_ok (by decide)) (by decide)
    (by intro l hl; simp [sample] at hl; subst hl; decide) (by decide) (by decide +kernel) (by decide +kernel)

/-- With a comment, an indented comment and an empty line -/
def sample' : List (List UInt8) :=
  [[35, 97], [107, 32, 61, 32, 49], [32, 32, 59, 61], [32, 50], [], [91, 115, 93], [120, 32, 58, 32, 121]]

theorem sample_padded : Padded sample sample' :=
  .add (.comment (Or.inr rfl)) (.keep (.add (.indented (w := [32]) (by unfold White; decide) (Or.inl rfl)) (.keep (.add (.white (by unfold White; decide)) (.keep (.keep .nil))))))

example : ∃ calls calls' rc rc', parseString (fun _ _ => 0) buffer (some (cstring (text [10] sample))) = .ok (calls, rc) ∧
    parseString (fun _ _ => 0) buffer (some (cstring (text [10] sample'))) = .ok (calls', rc') ∧
    calls'.map body = calls.map body ∧ (rc' = 0 ↔ rc = 0) :=
  padded (fun _ _ => 0) (text_lines (by decide)) (text_lines (by decide)) sample_padded (cstring_ok (by decide)) (cstring_ok (by decide))
    (by decide) (by decide) (by decide) (by decide +kernel) (by decide +kernel)

example : parseString (fun _ _ => 0) buffer (some (cstring (text [10] sample'))) =
    .ok ([⟨2, [], [107], [49]⟩, ⟨4, [], [107], [50]⟩, ⟨7, [115], [120], [121]⟩], 0) := by decide +kernel

/-- The two sections of the document as parts of it -/
example : ∃ calls rc, parseString (fun _ _ => 0) buffer (some (cstring (text [10] (sample.take 2)))) = .ok (calls, rc) ∧
    if rc = 0 then
      ∃ calls' rc', parseString (fun _ _ => 0) buffer (some (cstring (text [10] (sample.drop 2)))) = .ok (calls', rc') ∧
        parseString (fun _ _ => 0) buffer (some (cstring (text [10] (sample.take 2) ++ text [10] (sample.drop 2)))) =
          .ok (calls ++ calls'.map (later 2), if rc' = 0 then 0 else (2 : Nat) + rc')
    else parseString (fun _ _ => 0) buffer (some (cstring (text [10] (sample.take 2) ++ text [10] (sample.drop 2)))) = .ok (calls, rc) :=
  parts (a := sample.take 2) (fun _ _ => 0) (text_lines (by decide)) (text_lines (ls := sample.drop 2) (by decide)) (Or.inr (by decide)) (by decide)
    (cstring_ok (by decide)) (cstring_ok (by decide)) (cstring_ok (by decide)) (by decide) (by decide +kernel) (by decide +kernel) (by decide +kernel)

end Verif.Ini.Layout
