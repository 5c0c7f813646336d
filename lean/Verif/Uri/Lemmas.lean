import Verif.Uri.Model
import Verif.Uri.Spec

namespace Verif.Uri

open Spec

/-! ## Parsing -/

/-- The part `x` is the text `l` at `off`. -/
def Loc (x : Nat × Nat) (off : Nat) (l : List UInt8) : Prop :=
  x.2 = l.length ∧ (l ≠ [] → x.1 = off)

theorem loc_nil {off : Nat} : Loc (0, 0) off [] := ⟨rfl, fun h => (h rfl).elim⟩

theorem parsePort_eq {mem s : List UInt8} {p : Nat} (h : CStr mem p s) :
    ∃ r, parsePort mem p = .ok r ∧ ∀ port pos, r = some (port, pos) →
      ∃ sk o rest, s = sk ++ o ++ rest ∧ Loc port (p + sk.length) o ∧
        pos = p + sk.length + o.length ∧ (o = [] ∨ ∃ x, o = 58 :: x) ∧
        (sk ≠ [] → o ≠ [] ∧ 58 ∉ sk) := by
  unfold parsePort
  rcases split_char 58 s with hn | ⟨a, b, rfl, ha⟩
  · rw [strchrAt_none h hn, Res.ok_bind]
    refine ⟨_, rfl, ?_⟩
    intro port pos e
    simp at e
    obtain ⟨rfl, rfl⟩ := e
    exact ⟨[], [], s, rfl, loc_nil, by simp, Or.inl rfl, by simp⟩
  · rw [strchrAt_some h ha, Res.ok_bind]
    simp only
    have h1 : CStr mem (p + a.length + 1) b := by
      have := CStr.suffix (a := a ++ [58]) (b := b) (by simpa using h)
      simpa [Nat.add_assoc] using this
    rw [CStr.rd0 h1, Res.ok_bind]
    split
    · exact ⟨none, rfl, by simp⟩
    · unfold strtoul
      rw [cstr_eq h1, Res.ok_bind]
      have fin : ∀ (v k : Nat), k ≤ b.length → ∃ r : Option ((Nat × Nat) × Nat),
          (if v > 65536 then Res.ok none
            else .ok (some ((p + a.length, 1 + k), p + a.length + (1 + k)))) = Res.ok r ∧
          ∀ port pos, r = some (port, pos) →
          ∃ sk o rest, a ++ 58 :: b = sk ++ o ++ rest ∧ Loc port (p + sk.length) o ∧
            pos = p + sk.length + o.length ∧ (o = [] ∨ ∃ x, o = 58 :: x) ∧
            (sk ≠ [] → o ≠ [] ∧ 58 ∉ sk) := by
        intro v k hk
        split
        · exact ⟨none, rfl, by simp⟩
        · refine ⟨_, rfl, ?_⟩
          intro port pos e
          simp at e
          obtain ⟨rfl, rfl⟩ := e
          have hl : (b.take k).length = k := by simp; omega
          refine ⟨a, 58 :: b.take k, b.drop k, by simp, ⟨by simp [hl]; omega, fun _ => rfl⟩,
            by simp [hl]; omega, Or.inr ⟨_, rfl⟩, fun _ => ⟨by simp, ha⟩⟩
      rcases hs : strtoNum b with _ | ⟨neg, n, k⟩
      · simp only [Res.ok_bind]
        exact fin 0 0 (by omega)
      · have hk := (strtoNum_some hs).1
        simp only
        split
        · exact ⟨none, rfl, by simp⟩
        · simp only [Res.ok_bind]
          exact fin _ k hk

theorem parseAuth_eq {mem s : List UInt8} {p : Nat} (h : CStr mem p s) :
    ∃ r, parseAuth mem p = .ok r ∧ ∀ ui ho po pos, r = some (ui, ho, po, pos) →
      ∃ u hh sk o rest, s = u ++ hh ++ sk ++ o ++ rest ∧ Loc ui p u ∧ Loc ho (p + u.length) hh ∧
        Loc po (p + u.length + hh.length + sk.length) o ∧
        pos = p + u.length + hh.length + sk.length + o.length ∧
        (u = [] ∨ ∃ x, u = x ++ [64]) ∧ (o = [] ∨ ∃ x, o = 58 :: x) ∧
        (sk ≠ [] → o ≠ [] ∧ 58 ∉ sk) ∧
        (hh.getLast? = some 93 ∨ ∀ d, (sk ++ o ++ rest).head? = some d →
          d ∈ ([58, 47, 63, 35] : List UInt8)) := by
  -- the part after the userinfo
  have main : ∀ (u s' : List UInt8) (ui : Nat × Nat), s = u ++ s' → Loc ui p u →
      (u = [] ∨ ∃ x, u = x ++ [64]) → ∃ r, (do
        let c ← rd mem (p + u.length)
        let n ← cspn mem (p + u.length) (if c = 91 then [93] else [58, 47, 63, 35])
        let ptr := p + u.length + n
        let host := p + u.length
        let hostLen := ptr - (p + u.length) + (if c = 91 then 1 else 0)
        let pos := host + hostLen
        let bad ← (if c = 91 then do
            let e ← rd mem (host + hostLen - 1)
            .ok (decide (e ≠ 93))
          else .ok false)
        if bad then .ok none
        else do
          let r ← parsePort mem pos
          match r with
          | none => .ok none
          | some (port, pos) => .ok (some (ui, (host, hostLen), port, pos))) = .ok r ∧
      ∀ ui ho po pos, r = some (ui, ho, po, pos) →
      ∃ u hh sk o rest, s = u ++ hh ++ sk ++ o ++ rest ∧ Loc ui p u ∧ Loc ho (p + u.length) hh ∧
        Loc po (p + u.length + hh.length + sk.length) o ∧
        pos = p + u.length + hh.length + sk.length + o.length ∧
        (u = [] ∨ ∃ x, u = x ++ [64]) ∧ (o = [] ∨ ∃ x, o = 58 :: x) ∧
        (sk ≠ [] → o ≠ [] ∧ 58 ∉ sk) ∧
        (hh.getLast? = some 93 ∨ ∀ d, (sk ++ o ++ rest).head? = some d →
          d ∈ ([58, 47, 63, 35] : List UInt8)) := by
    intro u s' ui es hui hu
    subst es
    have h1 : CStr mem (p + u.length) s' := h.suffix
    -- once the host is known to be `hh`
    have fin : ∀ hh s'', s' = hh ++ s'' → (hh.getLast? = some 93 ∨
        ∀ d, s''.head? = some d → d ∈ ([58, 47, 63, 35] : List UInt8)) → ∃ r, (do
          let r ← parsePort mem (p + u.length + hh.length)
          match r with
          | none => .ok none
          | some (port, pos) =>
            .ok (some (ui, (p + u.length, hh.length), port, pos))) = Res.ok r ∧
        ∀ ui ho po pos, r = some (ui, ho, po, pos) →
        ∃ u2 hh sk o rest, u ++ s' = u2 ++ hh ++ sk ++ o ++ rest ∧ Loc ui p u2 ∧
          Loc ho (p + u2.length) hh ∧ Loc po (p + u2.length + hh.length + sk.length) o ∧
          pos = p + u2.length + hh.length + sk.length + o.length ∧
          (u2 = [] ∨ ∃ x, u2 = x ++ [64]) ∧ (o = [] ∨ ∃ x, o = 58 :: x) ∧
          (sk ≠ [] → o ≠ [] ∧ 58 ∉ sk) ∧
        (hh.getLast? = some 93 ∨ ∀ d, (sk ++ o ++ rest).head? = some d →
          d ∈ ([58, 47, 63, 35] : List UInt8)) := by
      intro hh s'' e hend
      subst e
      obtain ⟨r, e1, e2⟩ := parsePort_eq (p := p + u.length + hh.length) (s := s'') h1.suffix
      rw [e1, Res.ok_bind]
      cases r with
      | none => exact ⟨none, rfl, by simp⟩
      | some x =>
        obtain ⟨port, pos⟩ := x
        refine ⟨_, rfl, ?_⟩
        intro ui' ho po pos' e
        simp only [Option.some.injEq, Prod.mk.injEq] at e
        obtain ⟨rfl, rfl, rfl, rfl⟩ := e
        obtain ⟨sk, o, rest, rfl, h3, h4, h5, h6⟩ := e2 port pos rfl
        exact ⟨u, hh, sk, o, rest, by simp, hui, ⟨rfl, fun _ => rfl⟩, h3, h4, hu, h5, h6, by simpa using hend⟩
    rw [CStr.rd0 h1, Res.ok_bind]
    by_cases hc : s'.head?.getD 0 = 91
    · rw [hc]
      simp only [if_true]
      obtain ⟨a, b, e, ha, hb⟩ := split_set [93] s'
      rw [cspn_eq (a := a) (b := b) (by rw [← e]; exact h1) ha hb, Res.ok_bind]
      have e0 : p + u.length + a.length - (p + u.length) + 1 = a.length + 1 := by omega
      rw [e0]
      have e1 : p + u.length + (a.length + 1) - 1 = p + u.length + a.length := by omega
      rw [e1]
      have h2 : CStr mem (p + u.length + a.length) b := by rw [e] at h1; exact h1.suffix
      rw [CStr.rd0 h2, Res.ok_bind, Res.ok_bind]
      by_cases hbad : b.head?.getD 0 ≠ 93
      · rw [if_pos (by simpa using hbad)]
        exact ⟨none, rfl, by simp⟩
      · rw [if_neg (by simpa using hbad)]
        have hb' : ∃ b', b = 93 :: b' := by
          cases b with
          | nil => simp at hbad
          | cons d b => simp at hbad; exact ⟨b, by rw [hbad]⟩
        obtain ⟨b', rfl⟩ := hb'
        have := fin (a ++ [93]) b' (by rw [e]; simp) (Or.inl (by simp))
        simpa using this
    · simp only [hc, if_false]
      obtain ⟨a, b, e, ha, hb⟩ := split_set [58, 47, 63, 35] s'
      rw [cspn_eq (a := a) (b := b) (by rw [← e]; exact h1) ha hb, Res.ok_bind]
      have e0 : p + u.length + a.length - (p + u.length) + 0 = a.length := by omega
      rw [e0, Res.ok_bind]
      simp only [Bool.false_eq_true, if_false]
      exact fin a b e (Or.inr hb)
  unfold parseAuth
  rcases split_char 64 s with hn | ⟨a, b, e, ha⟩
  · rw [strchrAt_none h hn, Res.ok_bind]
    exact main [] s (0, 0) rfl loc_nil (Or.inl rfl)
  · rw [strchrAt_some (by rw [← e]; exact h) ha, Res.ok_bind]
    simp only
    have := main (a ++ [64]) b (p, a.length + 1) (by rw [e]; simp) ⟨by simp, fun _ => rfl⟩
      (Or.inr ⟨a, rfl⟩)
    have e0 : p + a.length - p = a.length := by omega
    rw [e0]
    have e2 : p + (a ++ [64]).length = p + a.length + 1 := by simp; omega
    rw [e2] at this
    exact this

theorem parseTail_eq {mem s : List UInt8} {p : Nat} (h : CStr mem p s) :
    ∃ pa q f, parseTail mem p = .ok (pa, q, f) ∧
      ∃ a sk b c, s = a ++ sk ++ b ++ c ∧ Loc pa p a ∧ Loc q (p + a.length + sk.length) b ∧
        Loc f (p + a.length + sk.length + b.length) c ∧ (b = [] ∨ ∃ x, b = 63 :: x) ∧
        (c = [] ∨ ∃ x, c = 35 :: x) ∧
        (sk ≠ [] → b ≠ [] ∧ sk.head? = some 35 ∧ 63 ∉ sk) := by
  unfold parseTail
  obtain ⟨a, t, rfl, ha, ht⟩ := split_set [63, 35] s
  rw [cspn_eq h ha ht, Res.ok_bind]
  simp only
  have h1 : CStr mem (p + a.length) t := h.suffix
  rcases split_char 63 t with hn | ⟨sk, b, rfl, hsk⟩
  · rw [strchrAt_none h1 hn, Res.ok_bind]
    simp only [Res.ok_bind]
    rw [CStr.rd0 h1, Res.ok_bind]
    cases t with
    | nil =>
      rw [if_neg (by simp)]
      exact ⟨_, _, _, rfl, a, [], [], [], by simp, ⟨rfl, fun _ => rfl⟩, loc_nil, loc_nil,
        Or.inl rfl, Or.inl rfl, by simp⟩
    | cons d t =>
      have hd : d = 35 := by
        have := ht d rfl
        simp at this
        rcases this with rfl | rfl
        · simp at hn
        · rfl
      subst hd
      rw [if_pos (by simp), strlen_eq h1, Res.ok_bind]
      exact ⟨_, _, _, rfl, a, [], [], 35 :: t, by simp, ⟨rfl, fun _ => rfl⟩, loc_nil,
        ⟨rfl, fun _ => rfl⟩, Or.inl rfl, Or.inr ⟨t, rfl⟩, by simp⟩
  · rw [strchrAt_some h1 hsk, Res.ok_bind]
    simp only
    have h2 : CStr mem (p + a.length + sk.length) (63 :: b) := h1.suffix
    obtain ⟨q, f, e, hq, hf⟩ := split_set [35] (63 :: b)
    have hq0 : ∃ x, q = 63 :: x := by
      cases q with
      | nil =>
        simp at e
        subst e
        have := hf 63 rfl
        simp at this
      | cons d q => simp at e; exact ⟨q, by rw [e.1]⟩
    obtain ⟨x, rfl⟩ := hq0
    rw [e] at h2
    rw [cspn_eq h2 hq hf, Res.ok_bind]
    have h3 : CStr mem (p + a.length + sk.length + (63 :: x).length) f := h2.suffix
    rw [Res.ok_bind]
    simp only
    rw [CStr.rd0 h3, Res.ok_bind]
    have hskh : sk ≠ [] → sk.head? = some 35 := by
      intro hne
      obtain ⟨d, sk', rfl⟩ := List.exists_cons_of_ne_nil hne
      have := ht d rfl
      simp at this
      rcases this with rfl | rfl
      · simp at hsk
      · rfl
    cases f with
    | nil =>
      rw [if_neg (by simp)]
      exact ⟨_, _, _, rfl, a, sk, 63 :: x, [], by rw [e]; simp, ⟨rfl, fun _ => rfl⟩,
        ⟨rfl, fun _ => rfl⟩, loc_nil, Or.inr ⟨x, rfl⟩, Or.inl rfl,
        fun hne => ⟨by simp, hskh hne, hsk⟩⟩
    | cons d f =>
      have hd : d = 35 := by simpa using hf d rfl
      subst hd
      rw [if_pos (by simp), strlen_eq h3, Res.ok_bind]
      exact ⟨_, _, _, rfl, a, sk, 63 :: x, 35 :: f, by rw [e]; simp, ⟨rfl, fun _ => rfl⟩,
        ⟨rfl, fun _ => rfl⟩, ⟨rfl, fun _ => rfl⟩, Or.inr ⟨x, rfl⟩, Or.inr ⟨f, rfl⟩,
        fun hne => ⟨by simp, hskh hne, hsk⟩⟩

/-- The texts of the parts of an accepted string: two pieces of the string may be skipped. -/
structure Cut where
  sc : List UInt8
  au : Bool
  ui : List UInt8
  ho : List UInt8
  sk1 : List UInt8
  po : List UInt8
  pa : List UInt8
  sk2 : List UInt8
  qu : List UInt8
  fr : List UInt8

/-- `//` or nothing -/
def Cut.slashes (c : Cut) : List UInt8 := if c.au then [47, 47] else []

/-- The parsed string. -/
def Cut.input (c : Cut) : List UInt8 :=
  c.sc ++ c.slashes ++ c.ui ++ c.ho ++ c.sk1 ++ c.po ++ c.pa ++ c.sk2 ++ c.qu ++ c.fr

/-- The string without the skipped pieces. -/
def Cut.text (c : Cut) : List UInt8 :=
  c.sc ++ c.slashes ++ c.ui ++ c.ho ++ c.po ++ c.pa ++ c.qu ++ c.fr

/-- The parts are those of the cut. -/
structure Matches (P : Parts) (c : Cut) : Prop where
  scheme : Loc P.scheme 0 c.sc
  authority : P.authority = c.slashes.length
  userinfo : Loc P.userinfo (c.sc.length + c.slashes.length) c.ui
  host : Loc P.host (c.sc.length + c.slashes.length + c.ui.length) c.ho
  port : Loc P.port (c.sc.length + c.slashes.length + c.ui.length + c.ho.length + c.sk1.length) c.po
  path : Loc P.path (c.sc.length + c.slashes.length + c.ui.length + c.ho.length + c.sk1.length +
    c.po.length) c.pa
  query : Loc P.query (c.sc.length + c.slashes.length + c.ui.length + c.ho.length + c.sk1.length +
    c.po.length + c.pa.length + c.sk2.length) c.qu
  fragment : Loc P.fragment (c.sc.length + c.slashes.length + c.ui.length + c.ho.length +
    c.sk1.length + c.po.length + c.pa.length + c.sk2.length + c.qu.length) c.fr

/-- What is known of the parts. -/
structure Cut.Ok (c : Cut) : Prop where
  sc : ∃ x, c.sc = x ++ [58] ∧ 58 ∉ x
  ui : c.ui = [] ∨ ∃ x, c.ui = x ++ [64]
  po : c.po = [] ∨ ∃ x, c.po = 58 :: x
  qu : c.qu = [] ∨ ∃ x, c.qu = 63 :: x
  fr : c.fr = [] ∨ ∃ x, c.fr = 35 :: x
  auth : c.au = false → c.ui = [] ∧ c.ho = [] ∧ c.sk1 = [] ∧ c.po = []
  sk1 : c.sk1 ≠ [] → c.po ≠ [] ∧ 58 ∉ c.sk1
  hostEnd : c.sk1 ≠ [] → c.ho.getLast? = some 93 ∨
    ∀ d, c.sk1.head? = some d → d ∈ ([58, 47, 63, 35] : List UInt8)
  sk2 : c.sk2 ≠ [] → c.qu ≠ [] ∧ c.sk2.head? = some 35 ∧ 63 ∉ c.sk2

theorem parse_eq {mem s : List UInt8} (h : CStr mem 0 s) :
    ∃ r, parse mem = .ok r ∧ ∀ P, r = some P → ∃ c : Cut, s = c.input ∧ c.Ok ∧ Matches P c := by
  unfold parse
  rcases split_char 58 s with hn | ⟨a, b, rfl, ha⟩
  · rw [strchrAt_none h hn, Res.ok_bind]
    exact ⟨none, rfl, by simp⟩
  · rw [strchrAt_some h ha, Res.ok_bind]
    simp only [Nat.zero_add]
    have h1 : CStr mem (a.length + 1) b := by
      have := CStr.suffix (a := a ++ [58]) (b := b) (by simpa using h)
      simpa using this
    rw [CStr.rd0 h1, Res.ok_bind]
    -- no authority
    have noAuth : ∃ r, (do
        let (path, query, fragment) ← parseTail mem (a.length + 1)
        .ok (some (⟨(0, a.length + 1), 0, (0, 0), (0, 0), (0, 0), path, query, fragment⟩ : Parts))) =
          Res.ok r ∧ ∀ P, r = some P → ∃ c : Cut, a ++ 58 :: b = c.input ∧ c.Ok ∧ Matches P c := by
      obtain ⟨pa, q, f, e, a', sk, b', c', rfl, l1, l2, l3, g1, g2, g3⟩ := parseTail_eq h1
      rw [e, Res.ok_bind]
      refine ⟨_, rfl, ?_⟩
      intro P hP
      simp at hP
      subst hP
      refine ⟨⟨a ++ [58], false, [], [], [], [], a', sk, b', c'⟩, by simp [Cut.input, Cut.slashes],
        ⟨⟨a, rfl, ha⟩, Or.inl rfl, Or.inl rfl, g1, g2, by simp, by simp, by simp, g3⟩, ?_⟩
      exact ⟨⟨by simp, fun _ => rfl⟩, rfl, loc_nil, loc_nil, loc_nil, by simpa [Cut.slashes] using l1,
        by simpa [Cut.slashes] using l2, by simpa [Cut.slashes] using l3⟩
    by_cases h47 : b.head?.getD 0 = 47
    · rw [if_pos h47]
      obtain ⟨b', rfl⟩ : ∃ b', b = 47 :: b' := by
        cases b with
        | nil => simp at h47
        | cons d b => simp at h47; exact ⟨b, by rw [h47]⟩
      have h2 : CStr mem (a.length + 1 + 1) b' := CStr.suffix (a := [47]) h1
      rw [CStr.rd0 h2, Res.ok_bind, Res.ok_bind]
      by_cases h47' : b'.head?.getD 0 = 47
      · rw [if_pos (by simpa using h47')]
        obtain ⟨t, rfl⟩ : ∃ t, b' = 47 :: t := by
          cases b' with
          | nil => simp at h47'
          | cons d b => simp at h47'; exact ⟨b, by rw [h47']⟩
        have h3 : CStr mem (a.length + 1 + 2) t := CStr.suffix (a := [47]) h2
        obtain ⟨r, e1, e2⟩ := parseAuth_eq h3
        rw [e1, Res.ok_bind]
        cases r with
        | none => exact ⟨none, rfl, by simp⟩
        | some x =>
          obtain ⟨ui, ho, po, pos⟩ := x
          obtain ⟨u, hh, sk, o, rest, rfl, l1, l2, l3, rfl, g1, g2, g3, g4⟩ := e2 _ _ _ _ rfl
          have h4 : CStr mem (a.length + 1 + 2 + u.length + hh.length + sk.length + o.length) rest := by
            have := CStr.suffix (a := u ++ hh ++ sk ++ o) (b := rest) h3
            have e : a.length + 1 + 2 + (u ++ hh ++ sk ++ o).length =
              a.length + 1 + 2 + u.length + hh.length + sk.length + o.length := by simp; omega
            rwa [e] at this
          obtain ⟨pa, q, f, e, a', sk', b', c', rfl, m1, m2, m3, k1, k2, k3⟩ := parseTail_eq h4
          simp only
          rw [e, Res.ok_bind]
          refine ⟨_, rfl, ?_⟩
          intro P hP
          simp at hP
          subst hP
          refine ⟨⟨a ++ [58], true, u, hh, sk, o, a', sk', b', c'⟩, by simp [Cut.input, Cut.slashes],
            ⟨⟨a, rfl, ha⟩, g1, g2, k1, k2, by simp, g3, ?_, k3⟩, ?_⟩
          · intro hne
            refine g4.imp_right ?_
            intro g d hd
            obtain ⟨d', sk', rfl⟩ := List.exists_cons_of_ne_nil hne
            exact g d (by simpa using hd)
          exact ⟨⟨by simp, fun _ => rfl⟩, rfl, by simpa [Cut.slashes] using l1,
            by simpa [Cut.slashes] using l2, by simpa [Cut.slashes] using l3,
            by simpa [Cut.slashes] using m1, by simpa [Cut.slashes] using m2,
            by simpa [Cut.slashes] using m3⟩
      · rw [if_neg (by simpa using h47')]
        exact noAuth
    · rw [if_neg h47, Res.ok_bind, if_neg (by simp)]
      exact noAuth

/-! ## Building the result -/

theorem fmtS_loc {mem a l b : List UInt8} {x : Nat × Nat} (h : CStr mem 0 (a ++ l ++ b))
    (hl : (a ++ l ++ b).length < 2147483648) (hx : Loc x a.length l) : fmtS mem x = .ok l := by
  obtain ⟨p, n⟩ := x
  obtain ⟨h1, h2⟩ := hx
  simp only at h1 h2
  subst h1
  unfold fmtS
  cases l with
  | nil => rfl
  | cons d l =>
    have e := h2 (by simp)
    subst e
    rw [if_neg (by simp)]
    have h3 : CStr mem (a.length) (d :: l ++ b) := by
      have := CStr.suffix (a := a) (b := d :: l ++ b) (p := 0) (mem := mem) (by simpa using h)
      simpa using this
    simp only
    have hs : (d :: l).length < 2147483648 := by simp at hl ⊢; omega
    rw [cstr_eq h3, Res.ok_bind, toInt32_small hs, if_neg (by omega)]
    simp

theorem splice_append {A B bs : List UInt8} {d : Nat} (h1 : A.length = d) (h2 : B.length = bs.length) :
    splice (A ++ B) d bs = A ++ bs := by
  subst h1
  unfold splice
  have : (A ++ B).drop (A.length + bs.length) = [] := by
    rw [List.drop_eq_nil_iff]; simp; omega
  rw [this]
  simp

theorem splice_zero {A bs : List UInt8} : splice A 0 bs = bs ++ A.drop bs.length := by
  simp [splice]

/-- The seven fields, each followed by a NUL. -/
def Cut.fields (c : Cut) : List UInt8 :=
  c.sc.dropLast ++ [0] ++ c.ui.dropLast ++ [0] ++ c.ho ++ [0] ++ c.po.tail ++ [0] ++ c.pa ++ [0] ++
    c.qu.tail ++ [0] ++ c.fr.tail ++ [0]

theorem loc_dropLast {x : Nat × Nat} {off : Nat} {l : List UInt8} (h : Loc x off l) :
    Loc (x.1, x.2 - nz x.2) off l.dropLast := by
  obtain ⟨h1, h2⟩ := h
  refine ⟨?_, fun hne => h2 (by rintro rfl; simp at hne)⟩
  simp only [h1, nz, List.length_dropLast]
  split <;> omega

theorem loc_tail {x : Nat × Nat} {off : Nat} {l : List UInt8} (h : Loc x off l) :
    Loc (x.1 + nz x.2, x.2 - nz x.2) (off + 1) l.tail := by
  obtain ⟨h1, h2⟩ := h
  have hz : l ≠ [] → nz x.2 = 1 := by
    intro hne
    have := List.length_pos_iff.2 hne
    rw [h1, nz, if_pos (by omega)]
  refine ⟨?_, ?_⟩
  · simp only [h1, nz, List.length_tail]
    split <;> omega
  · intro hne
    have hl : l ≠ [] := by rintro rfl; simp at hne
    simp only [h2 hl, hz hl]

theorem nz_length (l : List UInt8) : l.length - nz l.length = l.tail.length := by
  unfold nz; split <;> simp <;> omega

theorem build_eq {mem : List UInt8} {P : Parts} {c : Cut} (fill : Nat → UInt8)
    (h : CStr mem 0 c.input) (hl : c.input.length < 2147483640) (ok : c.Ok) (hm : Matches P c) :
    build (some fill) mem P = .ok (some
      { str := 0
        scheme := c.text.length + 1
        userinfo := c.text.length + 1 + c.sc.dropLast.length + 1
        host := c.text.length + 1 + c.sc.dropLast.length + 1 + c.ui.dropLast.length + 1
        port := c.text.length + 1 + c.sc.dropLast.length + 1 + c.ui.dropLast.length + 1 +
          c.ho.length + 1
        path := c.text.length + 1 + c.sc.dropLast.length + 1 + c.ui.dropLast.length + 1 +
          c.ho.length + 1 + c.po.tail.length + 1
        query := c.text.length + 1 + c.sc.dropLast.length + 1 + c.ui.dropLast.length + 1 +
          c.ho.length + 1 + c.po.tail.length + 1 + c.pa.length + 1
        fragment := c.text.length + 1 + c.sc.dropLast.length + 1 + c.ui.dropLast.length + 1 +
          c.ho.length + 1 + c.po.tail.length + 1 + c.pa.length + 1 + c.qu.tail.length + 1
        buf := c.text ++ [0] ++ (c.fields ++ [0]) }) := by
  obtain ⟨sc, au, ui, ho, sk1, po, pa, sk2, qu, fr⟩ := c
  obtain ⟨⟨x, esc, hx58⟩, oui, opo, oqu, ofr, oauth, osk1, ohe, osk2⟩ := ok
  obtain ⟨m1, m2, m3, m4, m5, m6, m7, m8⟩ := hm
  obtain ⟨Psc, Pau, Pui, Pho, Ppo, Ppa, Pqu, Pfr⟩ := P
  simp only at *
  generalize hsl : (if au then ([47, 47] : List UInt8) else []) = sl
  simp only [Cut.input, Cut.text, Cut.slashes, Cut.fields, hsl] at h hl m2 m3 m4 m5 m6 m7 m8 ⊢
  have hsl2 : ([47, 47] : List UInt8).take Pau = sl := by
    rw [m2, ← hsl]; cases au <;> rfl
  have nozero : ∀ b ∈ sc ++ sl ++ ui ++ ho ++ sk1 ++ po ++ pa ++ sk2 ++ qu ++ fr, b ≠ 0 := h.nonzero
  have hll : (sc ++ sl ++ ui ++ ho ++ sk1 ++ po ++ pa ++ sk2 ++ qu ++ fr).length < 2147483648 := by
    omega
  have f1 : fmtS mem Psc = .ok sc :=
    fmtS_loc (a := []) (b := sl ++ ui ++ ho ++ sk1 ++ po ++ pa ++ sk2 ++ qu ++ fr)
      (by simpa using h) (by simpa using hll) m1
  have f3 : fmtS mem Pui = .ok ui :=
    fmtS_loc (a := sc ++ sl) (b := ho ++ sk1 ++ po ++ pa ++ sk2 ++ qu ++ fr)
      (by simpa using h) (by simpa using hll) (by simpa using m3)
  have f4 : fmtS mem Pho = .ok ho :=
    fmtS_loc (a := sc ++ sl ++ ui) (b := sk1 ++ po ++ pa ++ sk2 ++ qu ++ fr)
      (by simpa using h) (by simpa using hll) (by simpa [Nat.add_assoc] using m4)
  have f5 : fmtS mem Ppo = .ok po :=
    fmtS_loc (a := sc ++ sl ++ ui ++ ho ++ sk1) (b := pa ++ sk2 ++ qu ++ fr)
      (by simpa using h) (by simpa using hll) (by simpa [Nat.add_assoc] using m5)
  have f6 : fmtS mem Ppa = .ok pa :=
    fmtS_loc (a := sc ++ sl ++ ui ++ ho ++ sk1 ++ po) (b := sk2 ++ qu ++ fr)
      (by simpa using h) (by simpa using hll) (by simpa [Nat.add_assoc] using m6)
  have f7 : fmtS mem Pqu = .ok qu :=
    fmtS_loc (a := sc ++ sl ++ ui ++ ho ++ sk1 ++ po ++ pa ++ sk2) (b := fr)
      (by simpa using h) (by simpa using hll) (by simpa [Nat.add_assoc] using m7)
  have f8 : fmtS mem Pfr = .ok fr :=
    fmtS_loc (a := sc ++ sl ++ ui ++ ho ++ sk1 ++ po ++ pa ++ sk2 ++ qu) (b := [])
      (by simpa using h) (by simpa using hll) (by simpa [Nat.add_assoc] using m8)
  have ui2 : ui.dropLast ++ (if ui = [] then [] else [64]) = ui := by
    rcases oui with rfl | ⟨y, rfl⟩ <;> simp
  have cons2 : ∀ (d : UInt8) (l : List UInt8), (l = [] ∨ ∃ y, l = d :: y) →
      (if l = [] then [] else [d]) ++ l.tail = l := by
    rintro d l (rfl | ⟨y, rfl⟩) <;> simp
  have g1 : fmtS mem (Psc.1, Psc.2 - nz Psc.2) = .ok sc.dropLast :=
    fmtS_loc (a := []) (b := [58] ++ sl ++ ui ++ ho ++ sk1 ++ po ++ pa ++ sk2 ++ qu ++ fr)
      (by simpa [esc] using h) (by simpa [esc] using hll) (loc_dropLast m1)
  have g3 : fmtS mem (Pui.1, Pui.2 - nz Pui.2) = .ok ui.dropLast := by
    refine fmtS_loc (a := sc ++ sl) (b := (if ui = [] then [] else [64]) ++ (ho ++ sk1 ++ po ++ pa ++
      sk2 ++ qu ++ fr)) ?_ ?_ (loc_dropLast (by simpa using m3))
    · rw [← List.append_assoc, List.append_assoc (sc ++ sl), ui2]; simpa using h
    · rw [← List.append_assoc, List.append_assoc (sc ++ sl), ui2]; simpa using hll
  have tl : ∀ (A B l : List UInt8) (d : UInt8) (X : Nat × Nat), (l = [] ∨ ∃ y, l = d :: y) →
      A ++ l ++ B = sc ++ sl ++ ui ++ ho ++ sk1 ++ po ++ pa ++ sk2 ++ qu ++ fr → Loc X A.length l →
      fmtS mem (X.1 + nz X.2, X.2 - nz X.2) = .ok l.tail := by
    intro A B l d X hd e hX
    rcases hd with rfl | ⟨y, rfl⟩
    · obtain ⟨p, n⟩ := X
      have : n = 0 := hX.1
      subst this
      rfl
    · have hX := loc_tail hX
      refine fmtS_loc (a := A ++ [d]) (b := B) ?_ ?_ (by simpa using hX)
      · have : A ++ [d] ++ (d :: y).tail ++ B = A ++ d :: y ++ B := by simp
        rw [this, e]; exact h
      · have : A ++ [d] ++ (d :: y).tail ++ B = A ++ d :: y ++ B := by simp
        rw [this, e]; exact hll
  have g5 := tl (sc ++ sl ++ ui ++ ho ++ sk1) (pa ++ sk2 ++ qu ++ fr) po 58 Ppo opo (by simp)
    (by simpa [Nat.add_assoc] using m5)
  have g7 := tl (sc ++ sl ++ ui ++ ho ++ sk1 ++ po ++ pa ++ sk2) fr qu 63 Pqu oqu (by simp)
    (by simpa [Nat.add_assoc] using m7)
  have g8 := tl (sc ++ sl ++ ui ++ ho ++ sk1 ++ po ++ pa ++ sk2 ++ qu) [] fr 35 Pfr ofr (by simp)
    (by simpa [Nat.add_assoc] using m8)
  have l1 := m1.1
  have l3 := m3.1
  have l4 := m4.1
  have l5 := m5.1
  have l6 := m6.1
  have l7 := m7.1
  have l8 := m8.1
  -- the two texts
  generalize hT1 : sc ++ sl ++ ui ++ ho ++ po ++ pa ++ qu ++ fr = T1
  generalize hT2 : sc.dropLast ++ [0] ++ ui.dropLast ++ [0] ++ ho ++ [0] ++ po.tail ++ [0] ++ pa ++
    [0] ++ qu.tail ++ [0] ++ fr.tail ++ [0] = T2
  have T1len : Psc.2 + Pau + Pui.2 + Pho.2 + Ppo.2 + Ppa.2 + Pqu.2 + Pfr.2 = T1.length := by
    rw [l1, m2, l3, l4, l5, l6, l7, l8, ← hT1]; simp; omega
  have T2len : Psc.2 + Pau + Pui.2 + Pho.2 + Ppo.2 + Ppa.2 + Pqu.2 + Pfr.2 + 1 - Pau + 7 - nz Psc.2 -
      nz Pui.2 - nz Ppo.2 - nz Pqu.2 - nz Pfr.2 = T2.length + 1 := by
    have q1 := nz_length sc
    have q2 := nz_length ui
    have q3 := nz_length po
    have q4 := nz_length qu
    have q5 := nz_length fr
    have k : ∀ l : List UInt8, nz l.length ≤ l.length := by
      intro l; unfold nz; split <;> omega
    have k1 := k sc
    have k2 := k ui
    have k3 := k po
    have k4 := k qu
    have k5 := k fr
    rw [l1, m2, l3, l4, l5, l6, l7, l8, ← hT2]
    simp only [List.length_append, List.length_dropLast, List.length_tail, List.length_cons,
      List.length_nil] at *
    omega
  have hT1b : T1.length < 2147483640 := by
    rw [← hT1]
    simp only [List.length_append] at hl ⊢
    omega
  have hT2b : T2.length < 2147483648 := by
    rw [← hT2]
    simp only [List.length_append, List.length_dropLast, List.length_tail, List.length_cons,
      List.length_nil] at hl ⊢
    omega
  have hT1z : ∀ b ∈ T1, b ≠ 0 := by
    intro b hb
    apply nozero
    rw [← hT1] at hb
    simp only [List.mem_append] at hb ⊢
    grind
  unfold build
  simp only
  rw [T2len, T1len, f1, f3, f4, f5, f6, f7, f8]
  simp only [Res.ok_bind]
  rw [hsl2, hT1, g1, g3, g5, g7, g8]
  simp only [Res.ok_bind]
  rw [hT2]
  have v1 : vsnprintf (resized [] (T2.length + 1 + (T1.length + 1)) fill) 0 (T1.length + 1) (limited T1) =
      .ok (T1 ++ [0] ++ (resized [] (T2.length + 1 + (T1.length + 1)) fill).drop (T1.length + 1),
        some T1.length) := by
    unfold limited
    rw [if_pos (by omega)]
    unfold vsnprintf
    simp only
    rw [if_neg (by omega)]
    have : T1.take (T1.length + 1 - 1) = T1 := by simp
    rw [this, if_pos (by simp), splice_zero]
    simp only [List.length_append, List.length_cons, List.length_nil, Nat.zero_add]
  rw [v1, Res.ok_bind]
  simp only
  rw [if_neg (by simp)]
  have hcs : CStr (T1 ++ [0] ++ (resized [] (T2.length + 1 + (T1.length + 1)) fill).drop (T1.length + 1)) 0
      T1 := by
    refine ⟨?_, hT1z, ?_⟩
    · intro i hi
      rw [List.append_assoc, List.getElem?_append_left (by omega)]
      simp
    · simp
  rw [strlen_eq hcs, Res.ok_bind]
  generalize hB : (resized [] (T2.length + 1 + (T1.length + 1)) fill).drop (T1.length + 1) = B
  have hBl : B.length = T2.length + 1 := by rw [← hB]; simp
  have v2 : vsnprintf (T1 ++ [0] ++ B) (T1.length + 1) (T2.length + 1) (limited T2) =
      .ok (T1 ++ [0] ++ (T2 ++ [0]), some T2.length) := by
    unfold limited
    rw [if_pos (by omega)]
    unfold vsnprintf
    simp only
    rw [if_neg (by omega)]
    have : T2.take (T2.length + 1 - 1) = T2 := by simp
    rw [this, if_pos (by simp; omega), splice_append (by simp) (by simp [hBl])]
  rw [v2, Res.ok_bind]
  simp only
  rw [if_neg (by simp)]
  simp only [l1, l3, l4, l5, l6, l7, nz_length, List.length_tail, List.length_dropLast]

end Verif.Uri
