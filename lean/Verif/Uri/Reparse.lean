import Verif.Uri.Props

/-!
# Parsing the text of a parsed uri again

The parser skips what is between the host and a colon after it, and what is between the path and a
question mark after it. The cut of a string, which says what is taken and what is skipped, is
described without the program; a string has a cut if and only if the program accepts it. What is left
without the skipped pieces has the same parts and nothing to skip.
-/

namespace Verif.Uri

open Spec

/-! ## What is taken and what is skipped -/

/-- Path, skipped piece, query and fragment. -/
structure TailCut (a sk b c : List UInt8) : Prop where
  path : ∀ x ∈ a, x ∉ ([63, 35] : List UInt8)
  query : (b = [] ∧ sk = [] ∧ 63 ∉ c) ∨
    ∃ x, b = 63 :: x ∧ 35 ∉ x ∧ 63 ∉ sk ∧ ∀ d, sk.head? = some d → d = 35
  fragment : ∀ d, c.head? = some d → d = 35

/-- The text of the port behind its colon, followed by `rest`: a number that is not too large, or
nothing if there is no number. -/
def PortText (y rest : List UInt8) : Prop :=
  (y = [] ∧ strtoNum rest = none) ∨ ∃ neg n, IsNum y neg n ∧ (∀ d, rest.head? = some d → isDigit d = false) ∧
    n ≤ SIZE_MAX ∧ (if neg then sub64 0 n else n) ≤ 65536

/-- Skipped piece and port, followed by `rest`. -/
def PortCut (sk o rest : List UInt8) : Prop :=
  (o = [] ∧ sk = [] ∧ 58 ∉ rest) ∨ ∃ y, o = 58 :: y ∧ 58 ∉ sk ∧ y ++ rest ≠ [] ∧ PortText y rest

/-- Userinfo, followed by `rest`. -/
def UserCut (u rest : List UInt8) : Prop :=
  (u = [] ∧ 64 ∉ rest) ∨ ∃ x, u = x ++ [64] ∧ 64 ∉ x

/-- Host, followed by `rest`. -/
def HostCut (ho rest : List UInt8) : Prop :=
  (∃ x, ho = 91 :: x ++ [93] ∧ 93 ∉ x) ∨
  (ho.head? ≠ some 91 ∧ (∀ x ∈ ho, x ∉ ([58, 47, 63, 35] : List UInt8)) ∧
    ∀ d, rest.head? = some d → d ∈ ([58, 47, 63, 35] : List UInt8))

/-- What follows the port. -/
def Cut.rest (c : Cut) : List UInt8 := c.pa ++ c.sk2 ++ c.qu ++ c.fr

/-- The cut is that of its input. -/
structure Exact (c : Cut) : Prop where
  scheme : ∃ x, c.sc = x ++ [58] ∧ 58 ∉ x
  bare : c.au = false → c.ui = [] ∧ c.ho = [] ∧ c.sk1 = [] ∧ c.po = [] ∧ c.rest.take 2 ≠ [47, 47]
  user : c.au = true → UserCut c.ui (c.ho ++ c.sk1 ++ c.po ++ c.rest)
  host : c.au = true → HostCut c.ho (c.sk1 ++ c.po ++ c.rest)
  port : c.au = true → PortCut c.sk1 c.po c.rest
  tail : TailCut c.pa c.sk2 c.qu c.fr

/-! ## The program finds the cut -/

theorem tail_of {mem a sk b c : List UInt8} {p : Nat} (h : CStr mem p (a ++ sk ++ b ++ c)) (t : TailCut a sk b c) :
    ∃ pa q f, parseTail mem p = .ok (pa, q, f) ∧ Loc pa p a ∧ Loc q (p + a.length + sk.length) b ∧
      Loc f (p + a.length + sk.length + b.length) c := by
  obtain ⟨ha, hq, hf⟩ := t
  have frag : ∀ {r : Nat}, CStr mem r c → ∀ x y : Nat × Nat, ∃ f, (do
      let d ← rd mem r
      if d = 35 then do
        let n ← strlen mem r
        Res.ok (x, y, (r, n))
      else Res.ok (x, y, ((0, 0) : Nat × Nat))) = .ok (x, y, f) ∧ Loc f r c := by
    intro r h x y
    rw [CStr.rd0 h, Res.ok_bind]
    cases c with
    | nil => exact ⟨(0, 0), by rw [if_neg (by simp)], loc_nil⟩
    | cons d c =>
      have := hf d rfl
      subst this
      exact ⟨(r, (35 :: c).length), by rw [if_pos (by simp), strlen_eq h, Res.ok_bind], rfl, fun _ => rfl⟩
  unfold parseTail
  rcases hq with ⟨rfl, rfl, hc⟩ | ⟨x, rfl, hx, hsk, hs⟩
  · simp only [List.append_nil] at h
    rw [cspn_eq h ha (fun d hd => by rw [hf d hd]; simp), Res.ok_bind]
    simp only
    have h1 : CStr mem (p + a.length) c := h.suffix
    rw [strchrAt_none h1 hc, Res.ok_bind]
    simp only [Res.ok_bind]
    obtain ⟨f, e, l⟩ := frag h1 (p, a.length) (0, 0)
    exact ⟨_, _, f, e, ⟨rfl, fun _ => rfl⟩, loc_nil, by simpa using l⟩
  · have h' : CStr mem p (a ++ (sk ++ 63 :: (x ++ c))) := by simpa using h
    rw [cspn_eq h' ha (fun d hd => by
      cases sk with
      | nil => simp at hd; simp [← hd]
      | cons e sk => simp at hd; rw [← hd, hs e rfl]; simp), Res.ok_bind]
    simp only
    have h1 : CStr mem (p + a.length) (sk ++ 63 :: (x ++ c)) := h'.suffix
    rw [strchrAt_some h1 hsk, Res.ok_bind]
    simp only
    have h2 : CStr mem (p + a.length + sk.length) ((63 :: x) ++ c) := by simpa using h1.suffix
    rw [cspn_eq h2 (fun y hy => by
      rcases List.mem_cons.1 hy with rfl | hy
      · decide
      · simp; rintro rfl; exact hx hy) (fun d hd => by rw [hf d hd]; simp), Res.ok_bind, Res.ok_bind]
    simp only
    obtain ⟨f, e, l⟩ := frag h2.suffix (p, a.length) (p + a.length + sk.length, (63 :: x).length)
    exact ⟨_, _, f, e, ⟨rfl, fun _ => rfl⟩, ⟨rfl, fun _ => rfl⟩, l⟩

theorem tail_ex (s : List UInt8) : ∃ a sk b c, s = a ++ sk ++ b ++ c ∧ TailCut a sk b c := by
  obtain ⟨a, t, rfl, ha, ht⟩ := split_set [63, 35] s
  rcases split_char 63 t with hn | ⟨sk, b, rfl, hsk⟩
  · refine ⟨a, [], [], t, by simp, ha, .inl ⟨rfl, rfl, hn⟩, fun d hd => ?_⟩
    have := ht d hd
    simp at this
    rcases this with rfl | rfl
    · exact absurd (List.mem_of_mem_head? hd) hn
    · rfl
  · obtain ⟨x, c, rfl, hx, hc⟩ := split_set [35] b
    refine ⟨a, sk, 63 :: x, c, by simp, ha, .inr ⟨x, rfl, fun h => by simpa using hx 35 h, hsk, fun d hd => ?_⟩,
      fun d hd => by simpa using hc d hd⟩
    have := ht d (by cases sk <;> simp_all)
    simp at this
    rcases this with rfl | rfl
    · exact absurd (List.mem_of_mem_head? hd) hsk
    · rfl

theorem port_of {mem sk o rest : List UInt8} {p : Nat} (h : CStr mem p (sk ++ o ++ rest)) (t : PortCut sk o rest) :
    ∃ port, parsePort mem p = .ok (some (port, p + sk.length + o.length)) ∧ Loc port (p + sk.length) o := by
  unfold parsePort
  rcases t with ⟨rfl, rfl, hn⟩ | ⟨y, rfl, hsk, hne, hy⟩
  · simp only [List.append_nil, List.nil_append] at h
    rw [strchrAt_none h hn, Res.ok_bind]
    exact ⟨(0, 0), rfl, loc_nil⟩
  · have h' : CStr mem p (sk ++ 58 :: (y ++ rest)) := by simpa using h
    rw [strchrAt_some h' hsk, Res.ok_bind]
    simp only
    have h1 : CStr mem (p + sk.length + 1) (y ++ rest) := by
      have := CStr.suffix (a := sk ++ [58]) (b := y ++ rest) (by simpa using h')
      simpa [Nat.add_assoc] using this
    rw [CStr.rd0 h1, Res.ok_bind]
    obtain ⟨d, z, ez⟩ := List.exists_cons_of_ne_nil hne
    have hd : d ≠ 0 := h1.nonzero d (by rw [ez]; simp)
    rw [if_neg (by rw [ez]; simpa using hd)]
    unfold strtoul
    rw [cstr_eq h1, Res.ok_bind]
    rcases hy with ⟨rfl, hnum⟩ | ⟨neg, n, hnum, hdig, hn, hv⟩
    · rw [List.nil_append, hnum]
      exact ⟨_, rfl, rfl, fun _ => rfl⟩
    · rw [strtoNum_eq hnum hdig]
      simp only
      rw [if_neg (by omega), Res.ok_bind]
      simp only
      rw [if_neg (by omega)]
      exact ⟨(p + sk.length, 1 + y.length), by simp; omega, by simp; omega, fun _ => rfl⟩

theorem port_ex {mem s : List UInt8} {p : Nat} (h : CStr mem p s) {r : (Nat × Nat) × Nat}
    (hr : parsePort mem p = .ok (some r)) : ∃ sk o rest, s = sk ++ o ++ rest ∧ PortCut sk o rest := by
  unfold parsePort at hr
  rcases split_char 58 s with hn | ⟨a, b, rfl, ha⟩
  · exact ⟨[], [], s, rfl, .inl ⟨rfl, rfl, hn⟩⟩
  · rw [strchrAt_some h ha, Res.ok_bind] at hr
    simp only at hr
    have h1 : CStr mem (p + a.length + 1) b := by
      have := CStr.suffix (a := a ++ [58]) (b := b) (by simpa using h)
      simpa [Nat.add_assoc] using this
    rw [CStr.rd0 h1, Res.ok_bind] at hr
    by_cases h0 : b.head?.getD 0 = 0
    · rw [if_pos h0] at hr; cases hr
    rw [if_neg h0] at hr
    have hb : b ≠ [] := by rintro rfl; exact h0 rfl
    unfold strtoul at hr
    rw [cstr_eq h1, Res.ok_bind] at hr
    cases hs : strtoNum b with
    | none => exact ⟨a, [58], b, by simp, .inr ⟨[], rfl, ha, hb, .inl ⟨rfl, hs⟩⟩⟩
    | some x =>
      obtain ⟨neg, n, k⟩ := x
      obtain ⟨hk, hnum, hd⟩ := strtoNum_some hs
      rw [hs] at hr
      simp only at hr
      by_cases hn : n > SIZE_MAX
      · rw [if_pos hn, Res.ok_bind] at hr; cases hr
      rw [if_neg hn, Res.ok_bind] at hr
      simp only at hr
      by_cases hv : (if neg = true then sub64 0 n else n) > 65536
      · rw [if_pos hv] at hr; cases hr
      refine ⟨a, 58 :: b.take k, b.drop k, by simp, .inr ⟨_, rfl, ha, by simpa using hb, .inr ⟨neg, n, hnum, hd, by omega, by omega⟩⟩⟩

theorem user_ex (s : List UInt8) : ∃ u r, s = u ++ r ∧ UserCut u r := by
  rcases split_char 64 s with hn | ⟨a, b, rfl, ha⟩
  · exact ⟨[], s, rfl, .inl ⟨rfl, hn⟩⟩
  · exact ⟨a ++ [64], b, by simp, .inr ⟨a, rfl, ha⟩⟩

/-- The part of `parseAuth` behind the userinfo, uri/sc_uri.c:80-104 -/
def parseHost (mem : List UInt8) (userinfo : Nat × Nat) (pos : Nat) :
    Res (Option ((Nat × Nat) × (Nat × Nat) × (Nat × Nat) × Nat)) := do
  let c ← rd mem pos
  let n ← cspn mem pos (if c = 91 then [93] else [58, 47, 63, 35])
  let ptr := pos + n
  let host := pos
  let hostLen := ptr - pos + (if c = 91 then 1 else 0)
  let pos := host + hostLen
  let bad ← (if c = 91 then do
      let e ← rd mem (host + hostLen - 1)
      .ok (decide (e ≠ 93))
    else .ok false)
  if bad then .ok none
  else do
    let r ← parsePort mem pos
    match r with
    | none => .ok none
    | some (port, pos) => .ok (some (userinfo, (host, hostLen), port, pos))

theorem user_of {mem u r : List UInt8} {p : Nat} (h : CStr mem p (u ++ r)) (t : UserCut u r) :
    ∃ ui, parseAuth mem p = parseHost mem ui (p + u.length) ∧ Loc ui p u := by
  unfold parseAuth
  rcases t with ⟨rfl, hn⟩ | ⟨x, rfl, hx⟩
  · rw [List.nil_append] at h
    rw [strchrAt_none h hn, Res.ok_bind]
    exact ⟨(0, 0), rfl, loc_nil⟩
  · have h' : CStr mem p (x ++ 64 :: r) := by simpa using h
    rw [strchrAt_some h' hx, Res.ok_bind]
    refine ⟨(p, x.length + 1), ?_, by simp, fun _ => rfl⟩
    have e : p + x.length - p + 1 = x.length + 1 := by omega
    have e2 : p + (x ++ [64]).length = p + x.length + 1 := by simp; omega
    rw [e2, ← e]
    rfl

theorem host_of {mem ho rest : List UInt8} {p : Nat} {ui : Nat × Nat} (h : CStr mem p (ho ++ rest)) (t : HostCut ho rest) :
    parseHost mem ui p = (do
      let r ← parsePort mem (p + ho.length)
      match r with
      | none => .ok none
      | some (port, pos) => .ok (some (ui, (p, ho.length), port, pos))) := by
  unfold parseHost
  rw [CStr.rd0 h, Res.ok_bind]
  rcases t with ⟨x, rfl, hx⟩ | ⟨h91, hset, hend⟩
  · have e1 : ((91 :: x ++ [93] ++ rest).head?.getD 0) = 91 := rfl
    rw [e1]
    simp only [if_true]
    have h' : CStr mem p ((91 :: x) ++ (93 :: rest)) := by simpa using h
    rw [cspn_eq h' (fun y hy => by
      rcases List.mem_cons.1 hy with rfl | hy
      · decide
      · simp; rintro rfl; exact hx hy) (fun d hd => by simp at hd; simp [hd]), Res.ok_bind]
    have e0 : p + (91 :: x).length - p + 1 = (91 :: x ++ [93]).length := by simp
    simp only [e0]
    have e1 : p + (91 :: x ++ [93]).length - 1 = p + (91 :: x).length := by simp
    rw [e1, CStr.rd0 (h'.suffix), Res.ok_bind, Res.ok_bind, if_neg (by simp)]
  · have hc : (ho ++ rest).head?.getD 0 ≠ 91 := by
      cases ho with
      | nil =>
        cases rest with
        | nil => simp
        | cons d rest =>
          have := hend d rfl
          simp at this ⊢
          rintro rfl
          simp at this
      | cons d ho => simpa using h91
    simp only [hc, if_false]
    rw [cspn_eq h hset hend, Res.ok_bind, Res.ok_bind, if_neg (by simp)]
    have e : p + ho.length - p + 0 = ho.length := by omega
    rw [e]

theorem host_ex {mem s : List UInt8} {p : Nat} {ui : Nat × Nat} {r : (Nat × Nat) × (Nat × Nat) × (Nat × Nat) × Nat}
    (h : CStr mem p s) (hr : parseHost mem ui p = .ok (some r)) : ∃ ho rest, s = ho ++ rest ∧ HostCut ho rest := by
  unfold parseHost at hr
  rw [CStr.rd0 h, Res.ok_bind] at hr
  by_cases hc : s.head?.getD 0 = 91
  · obtain ⟨a, b, rfl, ha, hb⟩ := split_set [93] s
    rw [hc] at hr
    simp only [if_true] at hr
    rw [cspn_eq h ha hb, Res.ok_bind] at hr
    have e0 : p + a.length - p + 1 = a.length + 1 := by omega
    simp only [e0] at hr
    have e1 : p + (a.length + 1) - 1 = p + a.length := by omega
    rw [e1, CStr.rd0 h.suffix, Res.ok_bind, Res.ok_bind] at hr
    by_cases hbad : b.head?.getD 0 ≠ 93
    · rw [if_pos (by simpa using hbad)] at hr; cases hr
    cases b with
    | nil => exact absurd (by decide) hbad
    | cons d b =>
      have hd : d = 93 := by simpa using hbad
      subst hd
      cases a with
      | nil => simp at hc
      | cons e a =>
        have he : e = 91 := by simpa using hc
        subst he
        refine ⟨91 :: a ++ [93], b, by simp, .inl ⟨a, rfl, fun h => ?_⟩⟩
        exact absurd (ha 93 (by simp [h])) (by simp)
  · obtain ⟨a, b, rfl, ha, hb⟩ := split_set [58, 47, 63, 35] s
    refine ⟨a, b, rfl, .inr ⟨fun e => hc ?_, ha, hb⟩⟩
    cases a with
    | nil => cases e
    | cons d a => simpa using e

theorem parse_of_exact {mem : List UInt8} {c : Cut} (h : CStr mem 0 c.input) (x : Exact c) :
    ∃ P, parse mem = .ok (some P) ∧ Matches P c := by
  obtain ⟨sc, au, ui, ho, sk1, po, pa, sk2, qu, fr⟩ := c
  obtain ⟨⟨s, rfl, hs⟩, bare, user, host, port, tail⟩ := x
  simp only [Cut.rest] at *
  unfold parse
  have h0 : CStr mem 0 (s ++ 58 :: (Cut.slashes ⟨s ++ [58], au, ui, ho, sk1, po, pa, sk2, qu, fr⟩ ++ ui ++ ho ++ sk1 ++ po ++
      (pa ++ sk2 ++ qu ++ fr))) := by simpa [Cut.input] using h
  rw [strchrAt_some h0 hs, Res.ok_bind]
  simp only [Nat.zero_add]
  have h1 := CStr.suffix (a := s ++ [58]) (p := 0) (by simpa using h0)
  simp only [Nat.zero_add, List.length_append, List.length_singleton] at h1
  cases au with
  | false =>
    obtain ⟨rfl, rfl, rfl, rfl, hb⟩ := bare rfl
    replace h1 : CStr mem (s.length + 1) (pa ++ sk2 ++ qu ++ fr) := by simpa [Cut.slashes] using h1
    have noSlash : (do
        let c ← rd mem (s.length + 1)
        let slashes ← (if c = 47 then do
            let d ← rd mem (s.length + 1 + 1)
            Res.ok (decide (d = 47))
          else .ok false)
        Res.ok slashes) = .ok false := by
      rw [CStr.rd0 h1, Res.ok_bind]
      generalize pa ++ sk2 ++ qu ++ fr = r at h1 hb
      cases r with
      | nil => rfl
      | cons d r =>
        by_cases hd : d = 47
        · subst hd
          have h2 : CStr mem (s.length + 1 + 1) r := CStr.suffix (a := [47]) h1
          rw [if_pos (by rfl), CStr.rd0 h2, Res.ok_bind, Res.ok_bind]
          cases r with
          | nil => rfl
          | cons e r =>
            have he : e ≠ 47 := by rintro rfl; exact hb rfl
            simp [he]
        · rw [if_neg (by simpa using hd)]; rfl
    obtain ⟨a, b, f, e, l1, l2, l3⟩ := tail_of h1 tail
    rw [CStr.rd0 h1, Res.ok_bind] at noSlash ⊢
    refine ⟨⟨(0, s.length + 1), 0, (0, 0), (0, 0), (0, 0), a, b, f⟩, ?_, ?_⟩
    · generalize hg : (if (pa ++ sk2 ++ qu ++ fr).head?.getD 0 = 47 then do
            let d ← rd mem (s.length + 1 + 1)
            Res.ok (decide (d = 47))
          else .ok false) = g at noSlash ⊢
      cases g with
      | ub => cases noSlash
      | ok g =>
        rw [Res.ok_bind] at noSlash ⊢
        cases noSlash
        simp only [Bool.false_eq_true, if_false]
        rw [e, Res.ok_bind]
    · exact ⟨⟨by simp, fun _ => rfl⟩, rfl, loc_nil, loc_nil, loc_nil, by simpa [Cut.slashes] using l1,
        by simpa [Cut.slashes] using l2, by simpa [Cut.slashes] using l3⟩
  | true =>
    simp only [Cut.slashes, if_true] at h1
    have h2 : CStr mem (s.length + 1) (47 :: 47 :: (ui ++ (ho ++ sk1 ++ po ++ (pa ++ sk2 ++ qu ++ fr)))) := by simpa using h1
    have h2' : CStr mem (s.length + 1 + 1) (47 :: (ui ++ (ho ++ sk1 ++ po ++ (pa ++ sk2 ++ qu ++ fr)))) :=
      CStr.suffix (a := [47]) h2
    rw [CStr.rd0 h2, Res.ok_bind, if_pos (by rfl), CStr.rd0 h2', Res.ok_bind, Res.ok_bind, if_pos (by simp)]
    have h3 : CStr mem (s.length + 1 + 2) (ui ++ (ho ++ sk1 ++ po ++ (pa ++ sk2 ++ qu ++ fr))) := CStr.suffix (a := [47, 47]) h2
    obtain ⟨u, eu, lu⟩ := user_of h3 (user rfl)
    have h4 : CStr mem (s.length + 1 + 2 + ui.length) (ho ++ (sk1 ++ po ++ (pa ++ sk2 ++ qu ++ fr))) := by simpa using h3.suffix
    have h5 := h4.suffix
    obtain ⟨o, eo, lo⟩ := port_of h5 (port rfl)
    have h6 : CStr mem (s.length + 1 + 2 + ui.length + ho.length + sk1.length + po.length) (pa ++ sk2 ++ qu ++ fr) := by
      have := CStr.suffix (a := sk1 ++ po) (b := pa ++ sk2 ++ qu ++ fr) h5
      simpa [Nat.add_assoc] using this
    obtain ⟨a, b, f, e, l1, l2, l3⟩ := tail_of h6 tail
    rw [eu, host_of h4 (host rfl), eo, Res.ok_bind, Res.ok_bind]
    simp only
    rw [e, Res.ok_bind]
    refine ⟨_, rfl, ?_⟩
    exact ⟨⟨by simp, fun _ => rfl⟩, rfl, by simpa [Cut.slashes] using lu, ⟨rfl, fun _ => by simp [Cut.slashes]⟩,
      by simpa [Cut.slashes] using lo, by simpa [Cut.slashes] using l1, by simpa [Cut.slashes] using l2,
      by simpa [Cut.slashes] using l3⟩

theorem exact_of_parse {mem s : List UInt8} {P : Parts} (h : CStr mem 0 s) (hp : parse mem = .ok (some P)) :
    ∃ c : Cut, s = c.input ∧ Exact c := by
  unfold parse at hp
  rcases split_char 58 s with hn | ⟨a, b, rfl, ha⟩
  · rw [strchrAt_none h hn, Res.ok_bind] at hp; cases hp
  rw [strchrAt_some h ha, Res.ok_bind] at hp
  simp only [Nat.zero_add] at hp
  have h1 : CStr mem (a.length + 1) b := by
    have := CStr.suffix (a := a ++ [58]) (b := b) (by simpa using h)
    simpa using this
  by_cases hb : ∃ t, b = 47 :: 47 :: t
  · obtain ⟨t, rfl⟩ := hb
    have h2 : CStr mem (a.length + 1 + 1) (47 :: t) := CStr.suffix (a := [47]) h1
    rw [CStr.rd0 h1, Res.ok_bind, if_pos (by rfl), CStr.rd0 h2, Res.ok_bind, Res.ok_bind, if_pos (by simp)] at hp
    have h3 : CStr mem (a.length + 1 + 2) t := CStr.suffix (a := [47, 47]) h1
    obtain ⟨u, r, rfl, hu⟩ := user_ex t
    obtain ⟨ui, eu, -⟩ := user_of h3 hu
    obtain ⟨x, hx, hp⟩ := Res.bind_eq_ok.1 hp
    cases x with
    | none => cases hp
    | some x =>
      rw [eu] at hx
      have h4 := h3.suffix
      obtain ⟨ho, r, rfl, hh⟩ := host_ex h4 hx
      rw [host_of h4 hh] at hx
      obtain ⟨y, hy, hx⟩ := Res.bind_eq_ok.1 hx
      cases y with
      | none => cases hx
      | some y =>
        obtain ⟨sk, o, r, rfl, ho'⟩ := port_ex h4.suffix hy
        obtain ⟨pa, sk2, q, f, rfl, ht⟩ := tail_ex r
        exact ⟨⟨a ++ [58], true, u, ho, sk, o, pa, sk2, q, f⟩, by simp [Cut.input, Cut.slashes],
          ⟨a, rfl, ha⟩, by simp, fun _ => by simpa [Cut.rest] using hu, fun _ => by simpa [Cut.rest] using hh,
          fun _ => by simpa [Cut.rest] using ho', ht⟩
  · obtain ⟨pa, sk2, q, f, rfl, ht⟩ := tail_ex b
    refine ⟨⟨a ++ [58], false, [], [], [], [], pa, sk2, q, f⟩, by simp [Cut.input, Cut.slashes], ⟨a, rfl, ha⟩,
      fun _ => ⟨rfl, rfl, rfl, rfl, fun e => hb ?_⟩, by simp, by simp, by simp, ht⟩
    simp only [Cut.rest] at e
    generalize pa ++ sk2 ++ q ++ f = z at e
    match z, e with
    | [], e => cases e
    | [_], e => cases e
    | x :: y :: z, e => simp at e; exact ⟨z, by rw [e.1, e.2]⟩

theorem Exact.ok {c : Cut} (x : Exact c) : c.Ok where
  sc := x.scheme
  ui := by
    cases h : c.au with
    | false => exact .inl (x.bare h).1
    | true => exact (x.user h).elim (fun ⟨e, _⟩ => .inl e) (fun ⟨y, e, _⟩ => .inr ⟨y, e⟩)
  po := by
    cases h : c.au with
    | false => exact .inl (x.bare h).2.2.2.1
    | true => exact (x.port h).elim (fun ⟨e, _⟩ => .inl e) (fun ⟨y, e, _⟩ => .inr ⟨y, e⟩)
  qu := by exact (x.tail.query).elim (fun ⟨e, _⟩ => .inl e) (fun ⟨y, e, _⟩ => .inr ⟨y, e⟩)
  fr := by
    cases h : c.fr with
    | nil => exact .inl rfl
    | cons d t => exact .inr ⟨t, by rw [x.tail.fragment d (by rw [h]; rfl)]⟩
  auth h := let ⟨a, b, c, d, _⟩ := x.bare h; ⟨a, b, c, d⟩
  sk1 hne := by
    cases h : c.au with
    | false => exact absurd (x.bare h).2.2.1 hne
    | true => exact (x.port h).elim (fun ⟨_, e, _⟩ => absurd e hne) (fun ⟨_, e, h, _⟩ => ⟨by rw [e]; simp, h⟩)
  hostEnd hne := by
    cases h : c.au with
    | false => exact absurd (x.bare h).2.2.1 hne
    | true =>
      rcases x.host h with ⟨y, e, -⟩ | ⟨-, -, e⟩
      · exact .inl (by rw [e]; exact List.getLast?_concat)
      · refine .inr fun d hd => e d ?_
        obtain ⟨z, t, e⟩ := List.exists_cons_of_ne_nil hne
        rw [e] at hd ⊢
        simpa using hd
  sk2 hne := by
    rcases x.tail.query with ⟨-, e, -⟩ | ⟨y, e, -, h, hd⟩
    · exact absurd e hne
    · refine ⟨by rw [e]; simp, ?_, h⟩
      obtain ⟨z, t, e⟩ := List.exists_cons_of_ne_nil hne
      rw [e] at hd ⊢
      rw [hd z rfl]; rfl

/-! ## Without the skipped pieces -/

/-- Nothing is skipped. -/
def Cut.again (c : Cut) : Cut := { c with sk1 := [], sk2 := [] }

theorem Cut.again_input (c : Cut) : c.again.input = c.text := by
  simp [Cut.again, Cut.input, Cut.text, Cut.slashes]; rfl

theorem Cut.again_text (c : Cut) : c.again.text = c.text := rfl

theorem Cut.again_comp (c : Cut) : c.again.comp = c.comp := rfl

theorem rest_again {c : Cut} (t : TailCut c.pa c.sk2 c.qu c.fr) :
    c.again.rest = c.rest ∨ ∃ x y, c.rest = c.pa ++ 35 :: x ∧ c.again.rest = c.pa ++ 63 :: y := by
  obtain ⟨sc, au, ui, ho, sk1, po, pa, sk2, qu, fr⟩ := c
  cases sk2 with
  | nil => exact .inl rfl
  | cons d sk2 =>
    rcases t.query with ⟨-, e, -⟩ | ⟨x, e, -, -, hd⟩
    · cases e
    · simp only at e
      subst e
      cases hd d rfl
      exact .inr ⟨sk2 ++ 63 :: (x ++ fr), x ++ fr, by simp only [Cut.rest, List.append_assoc, List.cons_append],
        by simp only [Cut.again, Cut.rest, List.append_assoc, List.cons_append, List.nil_append]⟩

theorem strtoNum_cut {a x y : List UInt8} {d e : UInt8} (hd : isDigit d = false) (he : e = 63) (h : strtoNum (a ++ d :: x) = none) :
    strtoNum (a ++ e :: y) = none := by
  cases hs : strtoNum (a ++ e :: y) with
  | none => rfl
  | some r =>
    exfalso
    obtain ⟨neg, n, k⟩ := r
    obtain ⟨hk, hnum, hdig⟩ := strtoNum_some hs
    have hle : k ≤ a.length := by
      apply Classical.byContradiction
      intro hlt
      have hm : e ∈ (a ++ e :: y).take k := by
        rw [List.take_append, List.mem_append]
        right
        obtain ⟨j, hj⟩ : ∃ j, k - a.length = j + 1 := ⟨k - a.length - 1, by omega⟩
        rw [hj]; simp
      obtain ⟨ws, sg, ds, e1, hws, hsg, -, hds, -⟩ := hnum
      rw [e1] at hm
      subst he
      simp only [List.mem_append] at hm
      rcases hm with (hm | hm) | hm
      · exact absurd (hws _ hm) (by decide)
      · rcases hsg with ⟨rfl, -⟩ | ⟨rfl, -⟩ | ⟨rfl, -⟩ <;> simp at hm
      · exact absurd (hds _ hm) (by decide)
    rw [List.take_append_of_le_length hle] at hnum
    rw [List.drop_append_of_le_length hle] at hdig
    have : strtoNum (a.take k ++ (a.drop k ++ d :: x)) = some (neg, n, (a.take k).length) := by
      refine strtoNum_eq hnum fun c hc => ?_
      cases ha : a.drop k with
      | nil => rw [ha] at hc; simp at hc; rw [← hc]; exact hd
      | cons z t => rw [ha] at hc hdig; exact hdig c (by simpa using hc)
    rw [← List.append_assoc, List.take_append_drop, h] at this
    cases this

theorem Exact.again {c : Cut} (x : Exact c) : Exact c.again := by
  have hr := rest_again x.tail
  have sub : ∀ {b : UInt8}, b ∉ c.rest → b ∉ c.again.rest := by
    intro b h h'
    refine h ?_
    simp only [Cut.rest, Cut.again, List.mem_append] at h' ⊢
    rcases h' with ((h | h) | h) | h
    · exact .inl (.inl (.inl h))
    · cases h
    · exact .inl (.inr h)
    · exact .inr h
  have hpa : ∀ d, c.rest.head? = some d → d ∈ ([58, 47, 63, 35] : List UInt8) →
      ∀ d, c.again.rest.head? = some d → d ∈ ([58, 47, 63, 35] : List UInt8) := by
    intro d hd hm d' hd'
    rcases hr with e | ⟨y, z, e1, e2⟩
    · rw [e, hd] at hd'; cases hd'; exact hm
    · rw [e1] at hd; rw [e2] at hd'
      cases hc : c.pa with
      | nil => rw [hc] at hd'; simp at hd'; subst hd'; decide
      | cons w t => rw [hc] at hd hd'; simp at hd hd'; rw [← hd', hd]; exact hm
  refine ⟨x.scheme, fun h => ?_, fun h => ?_, fun h => ?_, fun h => ?_, ?_⟩
  · obtain ⟨e1, e2, e3, e4, e5⟩ := x.bare h
    refine ⟨e1, e2, rfl, e4, ?_⟩
    rcases hr with e | ⟨y, z, e1, e2⟩
    · rw [e]; exact e5
    · rw [e2]; rw [e1] at e5
      match hc : c.pa with
      | [] => simp
      | [w] => simp
      | w :: w' :: t => rw [hc] at e5; simpa using e5
  · rcases x.user h with ⟨e, hn⟩ | hu
    · refine .inl ⟨e, ?_⟩
      simp only [List.mem_append, not_or] at hn ⊢
      exact ⟨⟨⟨hn.1.1.1, by simp [Cut.again]⟩, hn.1.2⟩, sub hn.2⟩
    · exact .inr hu
  · rcases x.host h with hh | ⟨h1, h2, h3⟩
    · exact .inl hh
    · refine .inr ⟨h1, h2, ?_⟩
      rcases x.port h with ⟨e1, e2, -⟩ | ⟨y, e, -⟩
      · rw [e1, e2] at h3
        simp only [List.nil_append] at h3
        have e1' : c.again.po = [] := e1
        rw [show c.again.sk1 = [] from rfl, e1']
        simp only [List.nil_append]
        intro d hd
        cases hc : c.rest.head? with
        | some d' => exact hpa d' hc (h3 d' hc) d hd
        | none =>
          rcases hr with e | ⟨y, z, e1, e2⟩
          · rw [e, hc] at hd; cases hd
          · rw [e1] at hc; cases hp : c.pa <;> rw [hp] at hc <;> simp at hc
      · have e' : c.again.po = 58 :: y := e
        rw [e']
        intro d hd
        simp [Cut.again] at hd
        simp [← hd]
  · rcases x.port h with ⟨e1, e2, hn⟩ | ⟨y, e, -, hne, ht⟩
    · exact .inl ⟨e1, rfl, sub hn⟩
    · refine .inr ⟨y, e, by simp [Cut.again], ?_, ?_⟩
      · rcases hr with e | ⟨y, z, e1, e2⟩
        · rw [e]; exact hne
        · rw [e2]; simp
      · rcases ht with ⟨e1, e2⟩ | ⟨neg, n, h1, h2, h3⟩
        · refine .inl ⟨e1, ?_⟩
          rcases hr with e | ⟨y, z, e3, e4⟩
          · rw [e]; exact e2
          · rw [e4]; rw [e3] at e2
            exact strtoNum_cut (by decide) rfl e2
        · refine .inr ⟨neg, n, h1, ?_, h3⟩
          rcases hr with e | ⟨y, z, e3, e4⟩
          · rw [e]; exact h2
          · rw [e4]; rw [e3] at h2
            intro d hd
            cases hp : c.pa with
            | nil => rw [hp] at hd; simp at hd; subst hd; decide
            | cons w t => rw [hp] at hd h2; exact h2 d (by simpa using hd)
  · refine ⟨x.tail.path, ?_, x.tail.fragment⟩
    rcases x.tail.query with ⟨e1, -, e3⟩ | ⟨y, e, h1, -, -⟩
    · exact .inl ⟨e1, rfl, e3⟩
    · exact .inr ⟨y, e, h1, by simp [Cut.again], by simp [Cut.again]⟩

/-! ## Main theorems -/

/-- **C142.** When a string has been accepted, the text of the uri is accepted too, whatever follows
it in memory, and gives a uri with the same text and the same components. -/
theorem uri_reparse {mem s : List UInt8} {fill : Nat → UInt8} {u : Uri} (h : CStr mem 0 s) (hl : s.length < 2147483640)
    (hu : create (some fill) (some mem) = .ok (some u)) : ∃ (t : List UInt8) (c : Comp), CStr u.buf u.str t ∧ Holds u c ∧
      ∀ (mem' : List UInt8) (fill' : Nat → UInt8), CStr mem' 0 t →
        ∃ u', create (some fill') (some mem') = .ok (some u') ∧ CStr u'.buf u'.str t ∧ Holds u' c := by
  have hp : ∃ P, parse mem = .ok (some P) := by
    unfold create at hu
    obtain ⟨r, hr, hu⟩ := Res.bind_eq_ok.1 hu
    cases r with
    | none => cases hu
    | some P => exact ⟨P, hr⟩
  obtain ⟨P, hp⟩ := hp
  obtain ⟨c, rfl, x⟩ := exact_of_parse h hp
  obtain ⟨P', hp', hm⟩ := parse_of_exact h x
  rcases create_cut (some fill) h hl hp' rfl x.ok hm with ⟨e, -⟩ | ⟨u1, e1, -, h1, h2⟩
  · cases e
  rw [hu] at e1
  cases e1
  refine ⟨c.text, c.comp, h1, h2, fun mem' fill' h' => ?_⟩
  rw [← c.again_input] at h'
  obtain ⟨P2, hp2, hm2⟩ := parse_of_exact h' x.again
  have hlen : c.again.input.length < 2147483640 := by
    rw [c.again_input]; exact Nat.lt_of_le_of_lt (text_sublist c).length_le hl
  rcases create_cut (some fill') h' hlen hp2 rfl x.again.ok hm2 with ⟨e, -⟩ | ⟨u2, e2, -, h3, h4⟩
  · cases e
  · exact ⟨u2, e2, h3, h4⟩

/-- The strings that are accepted are those that have a cut, and the cut says what the uri holds. -/
theorem uri_accepts {mem s : List UInt8} {fill : Nat → UInt8} (h : CStr mem 0 s) (hl : s.length < 2147483640) :
    ((∃ u, create (some fill) (some mem) = .ok (some u)) ↔ ∃ c : Cut, s = c.input ∧ Exact c) ∧
    ∀ c : Cut, s = c.input → Exact c →
      ∃ u, create (some fill) (some mem) = .ok (some u) ∧ CStr u.buf u.str c.text ∧ Holds u c.comp := by
  have key : ∀ c : Cut, s = c.input → Exact c →
      ∃ u, create (some fill) (some mem) = .ok (some u) ∧ CStr u.buf u.str c.text ∧ Holds u c.comp := by
    rintro c rfl x
    obtain ⟨P, hp, hm⟩ := parse_of_exact h x
    rcases create_cut (some fill) h hl hp rfl x.ok hm with ⟨e, -⟩ | ⟨u, e, -, h1, h2⟩
    · cases e
    · exact ⟨u, e, h1, h2⟩
  refine ⟨⟨fun ⟨u, hu⟩ => ?_, fun ⟨c, hs, x⟩ => ?_⟩, key⟩
  · unfold create at hu
    obtain ⟨r, hr, hu⟩ := Res.bind_eq_ok.1 hu
    cases r with
    | none => cases hu
    | some P => exact exact_of_parse h hr
  · obtain ⟨u, hu, -⟩ := key c hs x
    exact ⟨u, hu⟩

theorem text_eq_input (c : Cut) : c.text = c.input ↔ c.sk1 = [] ∧ c.sk2 = [] := by
  constructor
  · intro h
    have := congrArg List.length h
    simp only [Cut.text, Cut.input, List.length_append] at this
    constructor <;> apply List.eq_nil_of_length_eq_zero <;> omega
  · rintro ⟨h1, h2⟩
    simp [Cut.text, Cut.input, h1, h2]

/-- **C59, exactly where it holds.** For every string that is accepted, cut into what is taken and what is skipped: the
`str` field is the string if and only if nothing is skipped, neither between the host and the next colon nor between
the path and the next question mark. -/
theorem uri_str_iff {mem s : List UInt8} {fill : Nat → UInt8} (h : CStr mem 0 s) (hl : s.length < 2147483640) {u : Uri}
    (hu : create (some fill) (some mem) = .ok (some u)) :
    ∃ c : Cut, s = c.input ∧ Exact c ∧ (CStr u.buf u.str s ↔ c.sk1 = [] ∧ c.sk2 = []) := by
  obtain ⟨c, hs, x⟩ := (uri_accepts (fill := fill) h hl).1.1 ⟨u, hu⟩
  obtain ⟨u', hu', h1, -⟩ := (uri_accepts (fill := fill) h hl).2 c hs x
  rw [hu] at hu'
  cases hu'
  refine ⟨c, hs, x, ?_⟩
  rw [← text_eq_input, ← hs]
  constructor
  · intro h2
    have e1 := cstr_eq h1
    rw [cstr_eq h2] at e1
    cases e1
    rfl
  · intro h2
    rw [← h2]
    exact h1

/-! ## Examples -/

/-- Two pieces are skipped; the text that is left is parsed to itself. -/
example : parsed (ascii "http://h/a:80b#c?d#e") = .ok (some [ascii "http://h:80b?d#e", ascii "http", [], ascii "h", ascii "80",
      ascii "b", ascii "d", ascii "e"]) ∧
    parsed (ascii "http://h:80b?d#e") = .ok (some [ascii "http://h:80b?d#e", ascii "http", [], ascii "h", ascii "80", ascii "b",
      ascii "d", ascii "e"]) := by decide +kernel

/-- The hypotheses of `uri_reparse` are met. -/
example : ∃ u, CStr (ascii "a://b:7c#d?e" ++ [0]) 0 (ascii "a://b:7c#d?e") ∧
    create (some fun _ => 0) (some (ascii "a://b:7c#d?e" ++ [0])) = .ok (some u) := by
  obtain ⟨u, h, -⟩ := parsed_some (s := ascii "a://b:7c#d?e")
    (l := [ascii "a://b:7c?e", ascii "a", [], ascii "b", ascii "7", ascii "c", ascii "e", []]) (by decide +kernel)
  exact ⟨u, CStr.self (by decide +kernel), h⟩

end Verif.Uri
