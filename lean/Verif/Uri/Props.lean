import Verif.Uri.Lemmas

namespace Verif.Uri

open Spec

/-! ## The fields of the result -/

/-- The strings a `struct sc_uri` points to are the components of `c`; an undefined component is
the empty string. -/
structure Holds (u : Uri) (c : Comp) : Prop where
  scheme : CStr u.buf u.scheme c.scheme
  userinfo : CStr u.buf u.userinfo (c.userinfo.getD [])
  host : CStr u.buf u.host c.host
  port : CStr u.buf u.port (c.port.getD [])
  path : CStr u.buf u.path c.path
  query : CStr u.buf u.query (c.query.getD [])
  fragment : CStr u.buf u.fragment (c.fragment.getD [])

theorem cstr_mid {a l b : List UInt8} {p : Nat} (hp : p = a.length) (hz : ∀ x ∈ l, x ≠ 0) :
    CStr (a ++ l ++ (0 :: b)) p l := by
  subst hp
  refine ⟨?_, hz, ?_⟩
  · intro i hi
    rw [List.append_assoc, List.getElem?_append_right (by omega), List.getElem?_append_left (by omega)]
    simp [hi]
  · rw [List.append_assoc, List.getElem?_append_right (by omega), List.getElem?_append_right (by omega)]
    simp

/-- The components of a cut. -/
def Cut.comp (c : Cut) : Comp where
  scheme := c.sc.dropLast
  authority := c.au
  userinfo := if c.ui = [] then none else some c.ui.dropLast
  host := c.ho
  port := if c.po = [] then none else some c.po.tail
  path := c.pa
  query := if c.qu = [] then none else some c.qu.tail
  fragment := if c.fr = [] then none else some c.fr.tail

theorem text_compose {c : Cut} (ok : c.Ok) : c.text = compose c.comp := by
  obtain ⟨sc, au, ui, ho, sk1, po, pa, sk2, qu, fr⟩ := c
  obtain ⟨⟨x, esc, hx58⟩, oui, opo, oqu, ofr, -, -, -⟩ := ok
  simp only at *
  have hpre : ∀ (d : UInt8) (l : List UInt8), (l = [] ∨ ∃ y, l = d :: y) →
      pre d (if l = [] then none else some l.tail) = l := by
    rintro d l (rfl | ⟨y, rfl⟩) <;> simp [pre]
  have hpost : post 64 (if ui = [] then none else some ui.dropLast) = ui := by
    rcases oui with rfl | ⟨y, rfl⟩ <;> simp [post]
  have hsc : sc.dropLast ++ [58] = sc := by rw [esc]; simp
  simp only [Cut.text, Cut.slashes, compose, Cut.comp]
  rw [hpre 58 po opo, hpre 63 qu oqu, hpre 35 fr ofr, hpost, hsc]

theorem create_cut {mem s : List UInt8} (al : Alloc UInt8) (h : CStr mem 0 s)
    (hl : s.length < 2147483640) {P : Parts} {c : Cut} (hP : parse mem = .ok (some P))
    (hs : s = c.input) (ok : c.Ok) (hm : Matches P c) :
    (al = none ∧ create al (some mem) = .ok none) ∨
    ∃ u, create al (some mem) = .ok (some u) ∧ al.isSome ∧ CStr u.buf u.str c.text ∧ Holds u c.comp := by
  subst hs
  unfold create
  simp only
  rw [hP, Res.ok_bind]
  simp only
  cases al with
  | none => exact Or.inl ⟨rfl, rfl⟩
  | some fill =>
    right
    refine ⟨_, build_eq fill h hl ok hm, rfl, ?_, ?_⟩
    all_goals
      have nz : ∀ b ∈ c.input, b ≠ 0 := h.nonzero
      obtain ⟨sc, au, ui, ho, sk1, po, pa, sk2, qu, fr⟩ := c
      have z1 : ∀ b ∈ sc, b ≠ 0 := fun b hb => nz b (by simp [Cut.input, hb])
      have z2 : ∀ b ∈ ui, b ≠ 0 := fun b hb => nz b (by simp [Cut.input, hb])
      have z3 : ∀ b ∈ ho, b ≠ 0 := fun b hb => nz b (by simp [Cut.input, hb])
      have z4 : ∀ b ∈ po, b ≠ 0 := fun b hb => nz b (by simp [Cut.input, hb])
      have z5 : ∀ b ∈ pa, b ≠ 0 := fun b hb => nz b (by simp [Cut.input, hb])
      have z6 : ∀ b ∈ qu, b ≠ 0 := fun b hb => nz b (by simp [Cut.input, hb])
      have z7 : ∀ b ∈ fr, b ≠ 0 := fun b hb => nz b (by simp [Cut.input, hb])
    · have hz : ∀ b ∈ (⟨sc, au, ui, ho, sk1, po, pa, sk2, qu, fr⟩ : Cut).text, b ≠ 0 := by
        intro b hb
        apply nz
        simp only [Cut.text, Cut.input, List.mem_append] at hb ⊢
        grind
      simp only [Cut.fields]
      have := cstr_mid (a := []) (p := 0) (b := Cut.fields ⟨sc, au, ui, ho, sk1, po, pa, sk2, qu, fr⟩ ++ [0])
        rfl hz
      simpa [Cut.fields] using this
    · have dl : ∀ {l : List UInt8}, (∀ b ∈ l, b ≠ 0) → ∀ b ∈ l.dropLast, b ≠ 0 :=
        fun {l} hz b hb => hz b (List.dropLast_subset l hb)
      have tl : ∀ {l : List UInt8}, (∀ b ∈ l, b ≠ 0) → ∀ b ∈ l.tail, b ≠ 0 :=
        fun hz b hb => hz b (List.mem_of_mem_tail hb)
      generalize hT : Cut.text ⟨sc, au, ui, ho, sk1, po, pa, sk2, qu, fr⟩ = T
      have gu : (if ui = [] then none else some ui.dropLast).getD [] = ui.dropLast := by
        split <;> simp_all
      have gt : ∀ l : List UInt8, (if l = [] then none else some l.tail).getD [] = l.tail := by
        intro l; split <;> simp_all
      constructor
      · have := cstr_mid (a := T ++ [0]) (l := sc.dropLast) (p := T.length + 1)
          (b := ui.dropLast ++ [0] ++ ho ++ [0] ++ po.tail ++ [0] ++ pa ++ [0] ++ qu.tail ++ [0] ++
            fr.tail ++ [0] ++ [0]) (by simp) (dl z1)
        simpa [Cut.fields, Cut.comp] using this
      · simp only [Cut.comp, gu]
        have := cstr_mid (a := T ++ [0] ++ sc.dropLast ++ [0]) (l := ui.dropLast)
          (p := T.length + 1 + sc.dropLast.length + 1)
          (b := ho ++ [0] ++ po.tail ++ [0] ++ pa ++ [0] ++ qu.tail ++ [0] ++ fr.tail ++ [0] ++ [0])
          (by simp; omega) (dl z2)
        simpa [Cut.fields] using this
      · have := cstr_mid (a := T ++ [0] ++ sc.dropLast ++ [0] ++ ui.dropLast ++ [0]) (l := ho)
          (p := T.length + 1 + sc.dropLast.length + 1 + ui.dropLast.length + 1)
          (b := po.tail ++ [0] ++ pa ++ [0] ++ qu.tail ++ [0] ++ fr.tail ++ [0] ++ [0])
          (by simp; omega) z3
        simpa [Cut.fields, Cut.comp] using this
      · simp only [Cut.comp, gt]
        have := cstr_mid (a := T ++ [0] ++ sc.dropLast ++ [0] ++ ui.dropLast ++ [0] ++ ho ++ [0])
          (l := po.tail) (p := T.length + 1 + sc.dropLast.length + 1 + ui.dropLast.length + 1 +
            ho.length + 1)
          (b := pa ++ [0] ++ qu.tail ++ [0] ++ fr.tail ++ [0] ++ [0])
          (by simp; omega) (tl z4)
        simpa [Cut.fields] using this
      · have := cstr_mid (a := T ++ [0] ++ sc.dropLast ++ [0] ++ ui.dropLast ++ [0] ++ ho ++ [0] ++
            po.tail ++ [0])
          (l := pa) (p := T.length + 1 + sc.dropLast.length + 1 + ui.dropLast.length + 1 +
            ho.length + 1 + po.tail.length + 1)
          (b := qu.tail ++ [0] ++ fr.tail ++ [0] ++ [0])
          (by simp; omega) z5
        simpa [Cut.fields, Cut.comp] using this
      · simp only [Cut.comp, gt]
        have := cstr_mid (a := T ++ [0] ++ sc.dropLast ++ [0] ++ ui.dropLast ++ [0] ++ ho ++ [0] ++
            po.tail ++ [0] ++ pa ++ [0])
          (l := qu.tail) (p := T.length + 1 + sc.dropLast.length + 1 + ui.dropLast.length + 1 +
            ho.length + 1 + po.tail.length + 1 + pa.length + 1)
          (b := fr.tail ++ [0] ++ [0])
          (by simp; omega) (tl z6)
        simpa [Cut.fields] using this
      · simp only [Cut.comp, gt]
        have := cstr_mid (a := T ++ [0] ++ sc.dropLast ++ [0] ++ ui.dropLast ++ [0] ++ ho ++ [0] ++
            po.tail ++ [0] ++ pa ++ [0] ++ qu.tail ++ [0])
          (l := fr.tail) (p := T.length + 1 + sc.dropLast.length + 1 + ui.dropLast.length + 1 +
            ho.length + 1 + po.tail.length + 1 + pa.length + 1 + qu.tail.length + 1)
          (b := [0])
          (by simp; omega) (tl z7)
        simpa [Cut.fields] using this

/-! ## C57 -/

/-- Parsing any string is free of undefined behaviour, and the `str` field of an accepted one is
the composition of the component fields: there are components, with neither userinfo, host nor
port if there is no authority, which the fields of the uri hold and whose composition is the `str`
field. -/
theorem uri_recompose {mem s : List UInt8} (al : Alloc UInt8) (h : CStr mem 0 s)
    (hl : s.length < 2147483640) : ∃ r, create al (some mem) = .ok r ∧ ∀ u, r = some u →
      ∃ c : Comp, c.Consistent ∧ Holds u c ∧ CStr u.buf u.str (compose c) := by
  obtain ⟨r, e, hr⟩ := parse_eq h
  cases r with
  | none =>
    refine ⟨none, ?_, by simp⟩
    unfold create
    simp only
    rw [e, Res.ok_bind]
  | some P =>
    obtain ⟨c, hs, ok, hm⟩ := hr P rfl
    rcases create_cut al h hl e hs ok hm with ⟨-, e1⟩ | ⟨u, e1, -, h1, h2⟩
    · exact ⟨none, e1, by simp⟩
    · refine ⟨some u, e1, ?_⟩
      intro u' eu
      cases eu
      refine ⟨c.comp, ?_, h2, text_compose ok ▸ h1⟩
      intro hau
      have := ok.auth hau
      simp [Cut.comp, this]

/-- A NULL argument is refused. -/
theorem uri_null (al : Alloc UInt8) : create al none = .ok none := rfl

/-! ## C59 -/

/-- A string whose colons and question marks are where the parser expects them: with `//` after
the first colon, there is no colon behind a `/`, `?` or `#` of the rest, and one behind a `]` only
directly after it; and no `?` follows a `#`. -/
structure Orderly (s : List UInt8) : Prop where
  slash : ∀ sc t, 58 ∉ sc → s = sc ++ 58 :: 47 :: 47 :: t →
    ∀ a d b, t = a ++ d :: b → d ∈ ([47, 63, 35] : List UInt8) → 58 ∉ b
  bracket : ∀ sc t, 58 ∉ sc → s = sc ++ 58 :: 47 :: 47 :: t →
    ∀ a b, t = a ++ 93 :: b → 58 ∈ b → b.head? = some 58
  hash : ∀ a b, s = a ++ 35 :: b → 63 ∉ b

theorem cut_skip {c : Cut} (ok : c.Ok) (ho : Orderly c.input) : c.sk1 = [] ∧ c.sk2 = [] := by
  obtain ⟨sc, au, ui, hh, sk1, po, pa, sk2, qu, fr⟩ := c
  obtain ⟨⟨x, esc, hx58⟩, oui, opo, oqu, ofr, oauth, osk1, ohe, osk2⟩ := ok
  obtain ⟨o1, o2, o3⟩ := ho
  simp only at *
  constructor
  · apply Classical.byContradiction
    intro hne
    obtain ⟨hp, hsk⟩ := osk1 hne
    obtain ⟨y, rfl⟩ : ∃ y, po = 58 :: y := by
      rcases opo with h | h
      · exact absurd h hp
      · exact h
    have hau : au = true := by
      cases au with
      | true => rfl
      | false => exact absurd (oauth rfl).2.2.1 hne
    subst hau esc
    have e : Cut.input ⟨x ++ [58], true, ui, hh, sk1, 58 :: y, pa, sk2, qu, fr⟩ =
        x ++ 58 :: 47 :: 47 :: (ui ++ hh ++ sk1 ++ 58 :: y ++ pa ++ sk2 ++ qu ++ fr) := by
      simp [Cut.input, Cut.slashes]
    obtain ⟨d, sk', rfl⟩ := List.exists_cons_of_ne_nil hne
    rcases ohe hne with h93 | hd
    · obtain ⟨h', rfl⟩ : ∃ h', hh = h' ++ [93] := by
        rw [List.getLast?_eq_some_iff] at h93
        exact h93
      have := o2 x _ hx58 e (ui ++ h') (d :: sk' ++ 58 :: y ++ pa ++ sk2 ++ qu ++ fr) (by simp)
        (by simp)
      simp at this
      subst this
      simp at hsk
    · have hd := hd d rfl
      have hd58 : d ≠ 58 := by rintro rfl; simp at hsk
      have := o1 x _ hx58 e (ui ++ hh) d (sk' ++ 58 :: y ++ pa ++ sk2 ++ qu ++ fr) (by simp)
        (by simpa [hd58] using hd)
      simp at this
  · apply Classical.byContradiction
    intro hne
    obtain ⟨hq, h35, -⟩ := osk2 hne
    obtain ⟨y, rfl⟩ : ∃ y, qu = 63 :: y := by
      rcases oqu with h | h
      · exact absurd h hq
      · exact h
    obtain ⟨d, sk', rfl⟩ := List.exists_cons_of_ne_nil hne
    simp at h35
    subst h35
    have := o3 (sc ++ Cut.slashes ⟨sc, au, ui, hh, sk1, po, pa, 35 :: sk', 63 :: y, fr⟩ ++ ui ++ hh ++
      sk1 ++ po ++ pa) (sk' ++ 63 :: y ++ fr) (by simp [Cut.input])
    simp at this

theorem text_sublist (c : Cut) : c.text.Sublist c.input := by
  unfold Cut.text Cut.input
  have hr : ∀ {a b : List UInt8} (x : List UInt8), a.Sublist b → a.Sublist (b ++ x) :=
    fun x h => h.trans (List.sublist_append_left ..)
  have hb : ∀ {a b : List UInt8} (x : List UInt8), a.Sublist b → (a ++ x).Sublist (b ++ x) :=
    fun x h => List.Sublist.append h (List.Sublist.refl x)
  exact hb _ (hb _ (hr _ (hb _ (hb _ (hr _ (List.Sublist.refl _))))))

/-- The `str` field of an accepted string is the string itself if its colons and question marks
are where the parser expects them. Of any other string it is a part left after removing
characters, see `uri_str_violated`. -/
theorem uri_str_partial {mem s : List UInt8} (al : Alloc UInt8) (h : CStr mem 0 s)
    (hl : s.length < 2147483640) {u : Uri} (hu : create al (some mem) = .ok (some u)) :
    ∃ t, CStr u.buf u.str t ∧ t.Sublist s ∧ (Orderly s → t = s) := by
  obtain ⟨r, e, hr⟩ := parse_eq h
  cases r with
  | none =>
    unfold create at hu
    simp only at hu
    rw [e, Res.ok_bind] at hu
    simp at hu
  | some P =>
    obtain ⟨c, hs, ok, hm⟩ := hr P rfl
    rcases create_cut al h hl e hs ok hm with ⟨-, e1⟩ | ⟨u', e1, -, h1, h2⟩
    · rw [e1] at hu; simp at hu
    · rw [e1] at hu
      simp at hu
      subst hu
      refine ⟨c.text, h1, hs ▸ text_sublist c, ?_⟩
      intro ho
      rw [hs] at ho
      obtain ⟨k1, k2⟩ := cut_skip ok ho
      rw [hs]
      simp [Cut.text, Cut.input, k1, k2]

/-! ## C58 -/

/-- The cut of given components. -/
def cutOf (c : Comp) : Cut :=
  ⟨c.scheme ++ [58], c.authority, post 64 c.userinfo, c.host, [], pre 58 c.port, c.path, [],
    pre 63 c.query, pre 35 c.fragment⟩

theorem cutOf_input (c : Comp) : (cutOf c).input = compose c := by
  cases h : c.authority <;> simp [cutOf, Cut.input, compose, Cut.slashes, h]

theorem cutOf_comp (c : Comp) : (cutOf c).comp = c := by
  obtain ⟨sc, au, ui, ho, po, pa, qu, fr⟩ := c
  cases ui <;> cases po <;> cases qu <;> cases fr <;> simp [cutOf, Cut.comp, pre, post]

theorem cutOf_ok {c : Comp} (wf : WellFormed c) : (cutOf c).Ok where
  sc := ⟨c.scheme, rfl, wf.scheme⟩
  ui := by cases h : c.userinfo <;> simp [cutOf, post, h]
  po := by cases h : c.port <;> simp [cutOf, pre, h]
  qu := by cases h : c.query <;> simp [cutOf, pre, h]
  fr := by cases h : c.fragment <;> simp [cutOf, pre, h]
  auth := by
    intro h
    have := wf.consistent h
    simp [cutOf, this, post, pre]
  sk1 := by simp [cutOf]
  hostEnd := by simp [cutOf]
  sk2 := by simp [cutOf]

/-- What follows the port starts with `/`, `?` or `#`. -/
theorem tail_head {path : List UInt8} {query fragment : Option (List UInt8)}
    (hp : path = [] ∨ path.head? = some 47) (d : UInt8)
    (hd : (path ++ pre 63 query ++ pre 35 fragment).head? = some d) :
    d ∈ ([47, 63, 35] : List UInt8) := by
  cases path with
  | cons x path => simp at hp hd; simp [← hd, hp]
  | nil =>
    cases query with
    | some q => simp [pre] at hd; simp [← hd]
    | none =>
      cases fragment with
      | some q => simp [pre] at hd; simp [← hd]
      | none => simp [pre] at hd

theorem parseTail_comp {mem path : List UInt8} {query fragment : Option (List UInt8)} {p : Nat}
    (h : CStr mem p (path ++ pre 63 query ++ pre 35 fragment))
    (hp : Only (fun b => b ∉ ([63, 35] : List UInt8)) path) (hq : ∀ q, query = some q → 35 ∉ q)
    (ha : query = none → 63 ∉ pre 35 fragment) :
    ∃ q f, parseTail mem p = .ok ((p, path.length), q, f) ∧
      Loc q (p + path.length) (pre 63 query) ∧
      Loc f (p + path.length + (pre 63 query).length) (pre 35 fragment) := by
  unfold parseTail
  rw [cspn_eq (a := path) (b := pre 63 query ++ pre 35 fragment) (by simpa using h) hp
    (by
      intro d hd
      cases query with
      | some q => simp [pre] at hd; simp [← hd]
      | none =>
        cases fragment with
        | some q => simp [pre] at hd; simp [← hd]
        | none => simp [pre] at hd), Res.ok_bind]
  simp only
  have h1 : CStr mem (p + path.length) (pre 63 query ++ pre 35 fragment) :=
    CStr.suffix (by simpa using h)
  cases query with
  | none =>
    have h1' : CStr mem (p + path.length) (pre 35 fragment) := h1
    rw [strchrAt_none h1' (ha rfl), Res.ok_bind]
    simp only [Res.ok_bind]
    rw [CStr.rd0 h1', Res.ok_bind]
    cases fragment with
    | none =>
      rw [if_neg (by simp [pre])]
      exact ⟨_, _, rfl, loc_nil, loc_nil⟩
    | some f =>
      rw [if_pos (by simp [pre]), strlen_eq h1', Res.ok_bind]
      exact ⟨_, _, rfl, loc_nil, rfl, fun _ => by simp [pre]⟩
  | some q =>
    have h1' : CStr mem (p + path.length) ([] ++ 63 :: (q ++ pre 35 fragment)) := by
      simpa [pre] using h1
    rw [strchrAt_some h1' (by simp), Res.ok_bind]
    simp only [List.length_nil, Nat.add_zero]
    have h2 : CStr mem (p + path.length) (63 :: q ++ pre 35 fragment) := by simpa using h1'
    rw [cspn_eq h2 (by
        intro x hx
        have := hq q rfl
        rcases List.mem_cons.1 hx with rfl | hx
        · simp
        · simp; rintro rfl; exact this hx) (by
        intro d hd
        cases fragment with
        | some q => simp [pre] at hd; simp [← hd]
        | none => simp [pre] at hd), Res.ok_bind, Res.ok_bind]
    simp only
    have h3 : CStr mem (p + path.length + (63 :: q).length) (pre 35 fragment) := h2.suffix
    rw [CStr.rd0 h3, Res.ok_bind]
    cases fragment with
    | none =>
      rw [if_neg (by simp [pre])]
      exact ⟨_, _, rfl, ⟨rfl, fun _ => rfl⟩, loc_nil⟩
    | some f =>
      rw [if_pos (by simp [pre]), strlen_eq h3, Res.ok_bind]
      exact ⟨_, _, rfl, ⟨rfl, fun _ => rfl⟩, rfl, fun _ => rfl⟩

theorem parsePort_comp {mem t : List UInt8} {port : Option (List UInt8)} {p : Nat}
    (h : CStr mem p (pre 58 port ++ t))
    (hp : ∀ p, port = some p → p ≠ [] ∧ Only (fun b => isDigit b) p ∧ decVal p ≤ 65535)
    (ht : ∀ d, t.head? = some d → d ∈ ([47, 63, 35] : List UInt8)) (hc : port = none → 58 ∉ t) :
    ∃ po, parsePort mem p = .ok (some (po, p + (pre 58 port).length)) ∧ Loc po p (pre 58 port) := by
  unfold parsePort
  cases port with
  | none =>
    rw [strchrAt_none h (hc rfl), Res.ok_bind]
    exact ⟨_, rfl, loc_nil⟩
  | some n =>
    obtain ⟨hne, hd, hv⟩ := hp n rfl
    have h' : CStr mem p ([] ++ 58 :: (n ++ t)) := by simpa [pre] using h
    rw [strchrAt_some h' (by simp), Res.ok_bind]
    simp only [List.length_nil, Nat.add_zero]
    have h1 : CStr mem (p + 1) (n ++ t) := CStr.suffix (a := [58]) h'
    rw [CStr.rd0 h1, Res.ok_bind]
    obtain ⟨d, n', rfl⟩ := List.exists_cons_of_ne_nil hne
    have hd0 : d ≠ 0 := h1.nonzero d (by simp)
    rw [if_neg (by simpa using hd0)]
    have hnum : IsNum (d :: n') false (decVal (d :: n')) :=
      ⟨[], [], d :: n', by simp, by simp, Or.inl ⟨rfl, rfl⟩, by simp, fun c hc => hd c hc, rfl⟩
    have hs := strtoNum_eq hnum (rest := t) (by
      intro c hc
      have := ht c hc
      simp at this
      rcases this with rfl | rfl | rfl <;> decide)
    unfold strtoul
    rw [cstr_eq h1, Res.ok_bind, hs]
    simp only
    rw [if_neg (by omega), Res.ok_bind]
    simp only [Bool.false_eq_true, if_false]
    rw [if_neg (by omega)]
    have e : 1 + (d :: n').length = (pre 58 (some (d :: n'))).length := by simp [pre]; omega
    rw [e]
    exact ⟨_, rfl, rfl, fun _ => rfl⟩

theorem parseAuth_comp {mem : List UInt8} {c : Comp} {p : Nat} (wf : WellFormed c)
    (un : Unambiguous c) (hau : c.authority = true)
    (h : CStr mem p (post 64 c.userinfo ++ c.host ++ pre 58 c.port ++
      (c.path ++ pre 63 c.query ++ pre 35 c.fragment))) :
    ∃ ui ho po, parseAuth mem p = .ok (some (ui, ho, po, p + (post 64 c.userinfo).length +
        c.host.length + (pre 58 c.port).length)) ∧ Loc ui p (post 64 c.userinfo) ∧
      Loc ho (p + (post 64 c.userinfo).length) c.host ∧
      Loc po (p + (post 64 c.userinfo).length + c.host.length) (pre 58 c.port) := by
  obtain ⟨_, w2, w3, w4, w5, w6, w7, _, w8, w9⟩ := wf
  obtain ⟨u1, u2, u3⟩ := un
  have w7 := w7 hau
  have u1 := u1 hau
  have u2 := u2 hau
  obtain ⟨scheme, au, userinfo, host, port, path, query, fragment⟩ := c
  simp only at *
  generalize hT : path ++ pre 63 query ++ pre 35 fragment = T at h u1 u2
  have hTh : ∀ d, T.head? = some d → d ∈ ([47, 63, 35] : List UInt8) := by
    intro d hd; rw [← hT] at hd; exact tail_head w7 d hd
  have main : ∀ (ui : Nat × Nat) (k : Nat), CStr mem k (host ++ pre 58 port ++ T) → (do
        let c ← rd mem k
        let n ← cspn mem k (if c = 91 then [93] else [58, 47, 63, 35])
        let ptr := k + n
        let host := k
        let hostLen := ptr - k + (if c = 91 then 1 else 0)
        let pos := host + hostLen
        let bad ← (if c = 91 then do
            let e ← rd mem (host + hostLen - 1)
            .ok (decide (e ≠ 93))
          else .ok false)
        if bad then .ok none
        else do
          let r ← parsePort mem pos
          match r with
          | none => .ok none
          | some (port, pos) => .ok (some (ui, (host, hostLen), port, pos))) =
        Res.ok (some (ui, (k, host.length), (if port = none then (0, 0) else
          (k + host.length, (pre 58 port).length)), k + host.length + (pre 58 port).length)) := by
    intro ui k hk
    have hport : CStr mem (k + host.length) (pre 58 port ++ T) :=
      CStr.suffix (by simpa using hk)
    have pp : parsePort mem (k + host.length) = .ok (some ((if port = none then (0, 0) else
          (k + host.length, (pre 58 port).length)), k + host.length + (pre 58 port).length)) := by
      obtain ⟨po, e, l1, l2⟩ := parsePort_comp hport w5 hTh u2
      rw [e]
      cases port with
      | none =>
        unfold parsePort at e
        rw [strchrAt_none hport (u2 rfl), Res.ok_bind] at e
        simp at e
        rw [← e.1]
        rfl
      | some n =>
        have := l2 (by simp [pre])
        rw [if_neg (by simp)]
        obtain ⟨a, b⟩ := po
        simp only at l1 this
        rw [l1, this]
    rw [CStr.rd0 hk, Res.ok_bind]
    rcases w4 with ⟨hh, rfl, hon⟩ | ⟨hon, hne⟩
    · have hc : ([91] ++ hh ++ [93] ++ pre 58 port ++ T).head?.getD 0 = 91 := by simp
      rw [hc]
      simp only [if_true]
      have hk1 : CStr mem k (91 :: hh ++ 93 :: (pre 58 port ++ T)) := by simpa using hk
      rw [cspn_eq hk1 (by
        intro x hx
        rcases List.mem_cons.1 hx with rfl | hx
        · simp
        · have := hon x hx
          simp at this
          simp [this]) (by simp), Res.ok_bind]
      have hk2 : CStr mem (k + (91 :: hh).length) (93 :: (pre 58 port ++ T)) := hk1.suffix
      have e0 : k + (91 :: hh).length - k + 1 = (91 :: hh).length + 1 := by omega
      rw [e0]
      have e1 : k + ((91 :: hh).length + 1) - 1 = k + (91 :: hh).length := by omega
      rw [e1, CStr.rd0 hk2, Res.ok_bind, Res.ok_bind, if_neg (by simp)]
      have e2 : (91 :: hh).length + 1 = ([91] ++ hh ++ [93]).length := by simp
      rw [e2, pp, Res.ok_bind]
    · have hc : (host ++ pre 58 port ++ T).head?.getD 0 ≠ 91 := by
        cases host with
        | cons d host => simpa using hne
        | nil =>
          cases port with
          | some n => simp [pre]
          | none =>
            simp only [pre, List.nil_append]
            cases hT' : T with
            | nil => simp
            | cons d T' =>
              have := hTh d (by rw [hT']; rfl)
              simp at this ⊢
              rintro rfl
              simp at this
      simp only [hc, if_false]
      have hk1 : CStr mem k (host ++ (pre 58 port ++ T)) := by simpa using hk
      rw [cspn_eq hk1 (by
        intro x hx
        have := hon x hx
        simp at this
        simp [this]) (by
        intro d hd
        cases port with
        | some n => simp [pre] at hd; simp [← hd]
        | none =>
          have := hTh d (by simpa [pre] using hd)
          simp at this ⊢
          grind), Res.ok_bind]
      have e0 : k + host.length - k + 0 = host.length := by omega
      rw [e0, Res.ok_bind]
      simp only [Bool.false_eq_true, if_false]
      rw [pp, Res.ok_bind]
  have lport : ∀ k : Nat, Loc (if port = none then (0, 0) else (k, (pre 58 port).length)) k
      (pre 58 port) := by
    intro k
    cases port with
    | none => exact loc_nil
    | some n => rw [if_neg (by simp)]; exact ⟨rfl, fun _ => rfl⟩
  unfold parseAuth
  cases userinfo with
  | none =>
    have hk : CStr mem p (host ++ pre 58 port ++ T) := by simpa [post] using h
    have hno : 64 ∉ host ++ pre 58 port ++ T := by
      simp only [List.mem_append]
      rintro ((hm | hm) | hm)
      · rcases w4 with ⟨hh, rfl, hon⟩ | ⟨hon, hne⟩
        · simp at hm
          have := hon 64 hm
          simp at this
        · have := hon 64 hm
          simp at this
      · cases port with
        | none => simp [pre] at hm
        | some n =>
          simp [pre] at hm
          have := (w5 n rfl).2.1 64 hm
          simp [isDigit] at this
      · exact u1 rfl hm
    rw [strchrAt_none hk hno, Res.ok_bind]
    refine ⟨(0, 0), (p, host.length), _, main (0, 0) p hk, loc_nil, ⟨rfl, fun _ => rfl⟩, lport _⟩
  | some u =>
    have hk : CStr mem p (u ++ 64 :: (host ++ pre 58 port ++ T)) := by simpa [post] using h
    rw [strchrAt_some hk (by
      intro hm
      have := w3 u rfl 64 hm
      simp at this), Res.ok_bind]
    have hk1 : CStr mem (p + u.length + 1) (host ++ pre 58 port ++ T) := by
      have := CStr.suffix (a := u ++ [64]) (b := host ++ pre 58 port ++ T) (mem := mem) (p := p)
        (by simpa using hk)
      simpa [Nat.add_assoc] using this
    simp only
    have e0 : p + u.length - p + 1 = u.length + 1 := by omega
    rw [e0]
    have e1 : p + (post 64 (some u)).length = p + u.length + 1 := by simp [post]; omega
    rw [e1]
    exact ⟨(p, u.length + 1), (p + u.length + 1, host.length), _, main _ _ hk1,
      ⟨by simp [post], fun _ => rfl⟩, ⟨rfl, fun _ => rfl⟩, lport _⟩

theorem parse_comp {mem : List UInt8} {c : Comp} (wf : WellFormed c) (un : Unambiguous c)
    (h : CStr mem 0 (compose c)) : ∃ P, parse mem = .ok (some P) ∧ Matches P (cutOf c) := by
  unfold parse
  generalize hT : c.path ++ pre 63 c.query ++ pre 35 c.fragment = T
  have hs : compose c = c.scheme ++ 58 :: ((if c.authority then [47, 47] else []) ++
      post 64 c.userinfo ++ c.host ++ pre 58 c.port ++ T) := by
    rw [← hT]; simp [compose]
  rw [hs] at h
  rw [strchrAt_some h wf.scheme, Res.ok_bind]
  simp only [Nat.zero_add]
  cases hau : c.authority with
  | false =>
    obtain ⟨q1, q2, q3⟩ := wf.consistent hau
    have h0 : CStr mem 0 (c.scheme ++ [58] ++ T) := by
      simpa [hau, q1, q2, q3, pre, post] using h
    have h1 : CStr mem (c.scheme.length + 1) T := by
      have := CStr.suffix h0
      simpa using this
    obtain ⟨q, f, e, lq, lf⟩ := parseTail_comp (hT ▸ h1) wf.path wf.query un.question
    have hm : Matches ⟨(0, c.scheme.length + 1), 0, (0, 0), (0, 0), (0, 0),
        (c.scheme.length + 1, c.path.length), q, f⟩ (cutOf c) := by
      refine ⟨⟨by simp [cutOf], fun _ => rfl⟩, by simp [cutOf, Cut.slashes, hau],
        ?_, ?_, ?_, ⟨rfl, fun _ => ?_⟩, ?_, ?_⟩
      · rw [show (cutOf c).ui = [] by simp [cutOf, q1, post]]; exact loc_nil
      · rw [show (cutOf c).ho = [] by simp [cutOf, q2]]; exact loc_nil
      · rw [show (cutOf c).po = [] by simp [cutOf, q3, pre]]; exact loc_nil
      · simp [cutOf, Cut.slashes, hau, q1, q2, q3, post, pre]
      · simpa [cutOf, Cut.slashes, hau, q1, q2, q3, post, pre] using lq
      · simpa [cutOf, Cut.slashes, hau, q1, q2, q3, post, pre] using lf
    rw [CStr.rd0 h1, Res.ok_bind]
    by_cases h47 : T.head?.getD 0 = 47
    · rw [if_pos h47]
      obtain ⟨T', rfl⟩ : ∃ T', T = 47 :: T' := by
        cases T with
        | nil => simp at h47
        | cons d T => simp at h47; exact ⟨T, by rw [h47]⟩
      have h2 : CStr mem (c.scheme.length + 1 + 1) T' := CStr.suffix (a := [47]) h1
      have hT' : T'.head?.getD 0 ≠ 47 := by
        have hp := wf.pathNoAuth hau
        intro hd
        obtain ⟨T'', rfl⟩ : ∃ T'', T' = 47 :: T'' := by
          cases T' with
          | nil => simp at hd
          | cons d T => simp at hd; exact ⟨T, by rw [hd]⟩
        rcases hpa : c.path with _ | ⟨a, _ | ⟨b, pa⟩⟩
        · rw [hpa] at hT
          cases hq : c.query <;> cases hf : c.fragment <;> simp [hq, hf, pre] at hT
        · rw [hpa] at hT
          cases hq : c.query <;> cases hf : c.fragment <;> simp [hq, hf, pre] at hT
        · rw [hpa] at hT hp
          simp at hT hp
          exact hp hT.1 hT.2.1
      rw [CStr.rd0 h2, Res.ok_bind, Res.ok_bind, if_neg (by simpa using hT'), e, Res.ok_bind]
      exact ⟨_, rfl, hm⟩
    · rw [if_neg h47, Res.ok_bind, if_neg (by simp), e, Res.ok_bind]
      exact ⟨_, rfl, hm⟩
  | true =>
    rw [hau] at h
    simp only [if_true] at h
    have h1 : CStr mem (c.scheme.length + 1) (47 :: 47 :: (post 64 c.userinfo ++ c.host ++
        pre 58 c.port ++ T)) := by
      have := CStr.suffix (a := c.scheme ++ [58]) (b := 47 :: 47 :: (post 64 c.userinfo ++ c.host ++
        pre 58 c.port ++ T)) (mem := mem) (p := 0) (by simpa using h)
      simpa using this
    have h2 : CStr mem (c.scheme.length + 1 + 1) (47 :: (post 64 c.userinfo ++ c.host ++
        pre 58 c.port ++ T)) := CStr.suffix (a := [47]) h1
    have h3 : CStr mem (c.scheme.length + 1 + 2) (post 64 c.userinfo ++ c.host ++
        pre 58 c.port ++ T) := CStr.suffix (a := [47]) h2
    rw [CStr.rd0 h1, Res.ok_bind, if_pos (by simp), CStr.rd0 h2, Res.ok_bind, Res.ok_bind,
      if_pos (by simp)]
    obtain ⟨ui, ho, po, e, l1, l2, l3⟩ := parseAuth_comp wf un hau (hT ▸ h3)
    rw [e, Res.ok_bind]
    have h4 : CStr mem (c.scheme.length + 1 + 2 + (post 64 c.userinfo).length + c.host.length +
        (pre 58 c.port).length) T := by
      have := CStr.suffix h3
      simpa [Nat.add_assoc] using this
    obtain ⟨q, f, e', lq, lf⟩ := parseTail_comp (hT ▸ h4) wf.path wf.query un.question
    simp only
    rw [e', Res.ok_bind]
    refine ⟨_, rfl, ⟨by simp [cutOf], fun _ => rfl⟩, by simp [cutOf, Cut.slashes, hau], ?_, ?_, ?_,
      ⟨rfl, fun _ => ?_⟩, ?_, ?_⟩
    · simpa [cutOf, Cut.slashes, hau] using l1
    · simpa [cutOf, Cut.slashes, hau] using l2
    · simpa [cutOf, Cut.slashes, hau] using l3
    · simp [cutOf, Cut.slashes, hau]
    · simpa [cutOf, Cut.slashes, hau] using lq
    · simpa [cutOf, Cut.slashes, hau] using lf

/-- Parsing the composition of well-formed components gives back these components, and the
`str` field is the composition, if no delimiter occurs where the parser takes it for that of a
missing component. Without the last condition, which RFC 3986 does not demand, the claim is false:
see `uri_path_at_violated`, `uri_path_colon_violated`, `uri_query_colon_violated` and
`uri_fragment_question_violated`. -/
theorem uri_parse_compose_partial {mem : List UInt8} {c : Comp} (fill : Nat → UInt8)
    (wf : WellFormed c) (un : Unambiguous c) (h : CStr mem 0 (compose c))
    (hl : (compose c).length < 2147483640) :
    ∃ u, create (some fill) (some mem) = .ok (some u) ∧ Holds u c ∧ CStr u.buf u.str (compose c) := by
  obtain ⟨P, e, hm⟩ := parse_comp wf un h
  rcases create_cut (some fill) h hl e (cutOf_input c).symm (cutOf_ok wf) hm with
    ⟨e1, -⟩ | ⟨u, e1, -, h1, h2⟩
  · simp at e1
  · refine ⟨u, e1, cutOf_comp c ▸ h2, ?_⟩
    have e2 := text_compose (cutOf_ok wf)
    rw [cutOf_comp] at e2
    rw [← e2]
    exact h1

/-! ## Where the claims fail -/

/-- A string literal as bytes. -/
def ascii (s : String) : List UInt8 := s.toList.map fun c => UInt8.ofNat c.toNat

/-- The seven fields and `str` of a parsed literal, in the order `str`, `scheme`, `userinfo`,
`host`, `port`, `path`, `query`, `fragment`. -/
def parsed (s : List UInt8) : Res (Option (List (List UInt8))) := do
  let r ← create (some fun _ => 0) (some (s ++ [0]))
  match r with
  | none => .ok none
  | some u => do
    let a ← cstr u.buf u.str
    let b ← cstr u.buf u.scheme
    let c ← cstr u.buf u.userinfo
    let d ← cstr u.buf u.host
    let e ← cstr u.buf u.port
    let f ← cstr u.buf u.path
    let g ← cstr u.buf u.query
    let h ← cstr u.buf u.fragment
    .ok (some [a, b, c, d, e, f, g, h])

theorem parsed_some {s : List UInt8} {l : List (List UInt8)} (h : parsed s = .ok (some l)) :
    ∃ u, create (some fun _ => 0) (some (s ++ [0])) = .ok (some u) ∧
      (∀ t c, CStr u.buf u.str t → Holds u c → l = [t, c.scheme, c.userinfo.getD [], c.host,
        c.port.getD [], c.path, c.query.getD [], c.fragment.getD []]) ∧
      ∀ t, CStr u.buf u.str t → l.head? = some t := by
  unfold parsed at h
  rw [Res.bind_eq_ok] at h
  obtain ⟨r, e, h⟩ := h
  cases r with
  | none => simp at h
  | some u =>
    simp only at h
    refine ⟨u, e, ?_, ?_⟩
    · intro t c ht hc
      rw [cstr_eq ht, cstr_eq hc.scheme, cstr_eq hc.userinfo, cstr_eq hc.host, cstr_eq hc.port,
        cstr_eq hc.path, cstr_eq hc.query, cstr_eq hc.fragment] at h
      simp only [Res.ok_bind, Res.ok.injEq, Option.some.injEq] at h
      exact h.symm
    · intro t ht
      rw [cstr_eq ht, Res.ok_bind] at h
      simp only [Res.bind_eq_ok] at h
      obtain ⟨_, _, _, _, _, _, _, _, _, _, _, _, _, _, h⟩ := h
      simp at h
      rw [← h]
      rfl

/-- Well-formedness of components without a userinfo and a port, as a check. -/
def plain (c : Comp) : Bool :=
  c.authority && c.userinfo.isNone && c.port.isNone && !c.scheme.contains 58 &&
    (c.host.all fun b => !([58, 47, 63, 35, 64, 91] : List UInt8).contains b) &&
    (c.path.all fun b => !([63, 35] : List UInt8).contains b) && c.path.head? == some 47 &&
    (c.query.all fun q => !q.contains 35) && (compose c).all fun b => b != 0

theorem plain_wf {c : Comp} (h : plain c = true) : WellFormed c := by
  simp only [plain, Bool.and_eq_true, Option.isNone_iff_eq_none] at h
  obtain ⟨⟨⟨⟨⟨⟨⟨⟨h1, h2⟩, h3⟩, h4⟩, h5⟩, h6⟩, h7⟩, h8⟩, h9⟩ := h
  simp at h4 h5 h6 h7 h8 h9
  constructor
  · intro h; rw [h1] at h; simp at h
  · exact h4
  · intro u hu; rw [h2] at hu; simp at hu
  · right
    constructor
    · intro b hb; have := h5 b hb; simp; grind
    · intro hd
      have := h5 91 (List.mem_of_mem_head? (by rw [hd]; rfl))
      simp at this
  · intro p hp; rw [h3] at hp; simp at hp
  · intro b hb; have := h6 b hb; simp; grind
  · intro _; right; exact h7
  · intro h; rw [h1] at h; simp at h
  · intro q hq; rw [hq] at h8; simpa using h8
  · intro b hb; exact h9 b hb

/-- A well-formed uri whose fields are not its components, given as what the fields are. -/
theorem compose_violated {c : Comp} {t : List UInt8} {l : List (List UInt8)} (hw : plain c = true)
    (hp : parsed (compose c) = .ok (some (t :: l)))
    (hne : l ≠ [c.scheme, c.userinfo.getD [], c.host, c.port.getD [], c.path, c.query.getD [],
      c.fragment.getD []]) :
    WellFormed c ∧ ∃ u, create (some fun _ => 0) (some (compose c ++ [0])) = .ok (some u) ∧
      ¬ ∃ t, CStr u.buf u.str t ∧ Holds u c := by
  refine ⟨plain_wf hw, ?_⟩
  obtain ⟨u, e, h, -⟩ := parsed_some hp
  refine ⟨u, e, ?_⟩
  rintro ⟨t', ht, hc⟩
  have := h t' c ht hc
  simp only [List.cons.injEq] at this
  apply hne
  simp [this]

/-- `http://h/u@x` has the path `/u@x` and no userinfo, but is parsed as the host `x` with the
userinfo `h/u`. -/
theorem uri_path_at_violated : ∃ c, WellFormed c ∧ ∃ u,
    create (some fun _ => 0) (some (compose c ++ [0])) = .ok (some u) ∧
      ¬ ∃ t, CStr u.buf u.str t ∧ Holds u c :=
  ⟨⟨ascii "http", true, none, ascii "h", none, ascii "/u@x", none, none⟩,
    compose_violated (t := ascii "http://h/u@x")
      (l := [ascii "http", ascii "h/u", ascii "x", [], [], [], []])
      (by decide +kernel) (by decide +kernel) (by decide +kernel)⟩

/-- `http://a/b:80/c` has the path `/b:80/c` and no port, but is parsed as the port 80 and the path
`/c`; `/b` is lost. -/
theorem uri_path_colon_violated : ∃ c, WellFormed c ∧ ∃ u,
    create (some fun _ => 0) (some (compose c ++ [0])) = .ok (some u) ∧
      ¬ ∃ t, CStr u.buf u.str t ∧ Holds u c :=
  ⟨⟨ascii "http", true, none, ascii "a", none, ascii "/b:80/c", none, none⟩,
    compose_violated (t := ascii "http://a:80/c")
      (l := [ascii "http", [], ascii "a", ascii "80", ascii "/c", [], []])
      (by decide +kernel) (by decide +kernel) (by decide +kernel)⟩

/-- `http://h/?q=a:b` has the query `q=a:b`, but is parsed as the empty port and the path `b`; the
rest is lost. -/
theorem uri_query_colon_violated : ∃ c, WellFormed c ∧ ∃ u,
    create (some fun _ => 0) (some (compose c ++ [0])) = .ok (some u) ∧
      ¬ ∃ t, CStr u.buf u.str t ∧ Holds u c :=
  ⟨⟨ascii "http", true, none, ascii "h", none, ascii "/", some (ascii "q=a:b"), none⟩,
    compose_violated (t := ascii "http://h:b")
      (l := [ascii "http", [], ascii "h", [], ascii "b", [], []])
      (by decide +kernel) (by decide +kernel) (by decide +kernel)⟩

/-- `http://h/p#f?x` has the fragment `f?x`, but is parsed as the query `x` without a fragment. -/
theorem uri_fragment_question_violated : ∃ c, WellFormed c ∧ ∃ u,
    create (some fun _ => 0) (some (compose c ++ [0])) = .ok (some u) ∧
      ¬ ∃ t, CStr u.buf u.str t ∧ Holds u c :=
  ⟨⟨ascii "http", true, none, ascii "h", none, ascii "/p", none, some (ascii "f?x")⟩,
    compose_violated (t := ascii "http://h/p?x")
      (l := [ascii "http", [], ascii "h", [], ascii "/p", ascii "x", []])
      (by decide +kernel) (by decide +kernel) (by decide +kernel)⟩

/-- The `str` field of `http://a/b:80/c` is `http://a:80/c`. -/
theorem uri_str_violated : ∃ s u, CStr (s ++ [0]) 0 s ∧
    create (some fun _ => 0) (some (s ++ [0])) = .ok (some u) ∧ ¬ CStr u.buf u.str s := by
  have hp : parsed (ascii "http://a/b:80/c") = .ok (some [ascii "http://a:80/c",
      ascii "http", [], ascii "a", ascii "80", ascii "/c", [], []]) := by decide +kernel
  obtain ⟨u, e, -, h⟩ := parsed_some hp
  refine ⟨ascii "http://a/b:80/c", u, CStr.self (by decide +kernel), e, ?_⟩
  intro hs
  have := h _ hs
  revert this
  decide +kernel

/-- Port 65536 is accepted. -/
theorem uri_port_defect : parsed (ascii "http://a:65536/") = .ok (some [ascii "http://a:65536/",
    ascii "http", [], ascii "a", ascii "65536", ascii "/", [], []]) := by decide +kernel

/-- A port need not be a number: blanks and a sign are taken for part of it. -/
theorem uri_port_sign_defect : parsed (ascii "http://a: +7/") = .ok (some [ascii "http://a: +7/",
    ascii "http", [], ascii "a", ascii " +7", ascii "/", [], []]) := by decide +kernel

/-! ## Examples -/

/-- The components of `http://u:p@[::1]:8080/a/b?x=1#end` meet the conditions of
`uri_parse_compose_partial`. -/
example : let c : Comp := ⟨ascii "http", true, some (ascii "u:p"), ascii "[::1]", some (ascii "8080"),
      ascii "/a/b", some (ascii "x=1"), some (ascii "end")⟩
    WellFormed c ∧ Unambiguous c ∧ compose c = ascii "http://u:p@[::1]:8080/a/b?x=1#end" ∧
      CStr (compose c ++ [0]) 0 (compose c) ∧ (compose c).length < 2147483640 := by
  intro c
  have e : compose c = ascii "http://u:p@[::1]:8080/a/b?x=1#end" := by decide +kernel
  have hz : ∀ b ∈ compose c, b ≠ 0 := by rw [e]; decide +kernel
  refine ⟨⟨?_, ?_, ?_, Or.inl ⟨ascii "::1", ?_, ?_⟩, ?_, ?_, ?_, ?_, ?_, hz⟩, ⟨?_, ?_, ?_⟩, e,
    CStr.self hz, ?_⟩
  · intro h; cases h
  · decide +kernel
  · rintro u ⟨⟩; unfold Only; decide +kernel
  · decide +kernel
  · unfold Only; decide +kernel
  · rintro u ⟨⟩
    refine ⟨by decide +kernel, ?_, by decide +kernel⟩
    unfold Only; decide +kernel
  · unfold Only; decide +kernel
  · intro _; decide +kernel
  · intro h; cases h
  · rintro u ⟨⟩; decide +kernel
  · intro _ h; cases h
  · intro _ h; cases h
  · intro h; cases h
  · rw [e]; decide +kernel

example : parsed (ascii "http://u:p@[::1]:8080/a/b?x=1#end") = .ok (some
    [ascii "http://u:p@[::1]:8080/a/b?x=1#end", ascii "http", ascii "u:p", ascii "[::1]",
      ascii "8080", ascii "/a/b", ascii "x=1", ascii "end"]) := by decide +kernel

/-- No authority. -/
example : parsed (ascii "mailto:a@b.org?subject=x:y") = .ok (some
    [ascii "mailto:a@b.org?subject=x:y", ascii "mailto", [], [], [], ascii "a@b.org",
      ascii "subject=x:y", []]) := by decide +kernel

/-- Refused: no colon, no bracket, no port, a port out of range. -/
example : parsed (ascii "http") = .ok none ∧ parsed (ascii "http://[::1/") = .ok none ∧
    parsed (ascii "http://a:") = .ok none ∧ parsed (ascii "http://a:65537") = .ok none ∧
    parsed (ascii "http://a:99999999999999999999") = .ok none := by decide +kernel

end Verif.Uri
