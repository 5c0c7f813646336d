import Verif.Uri.Reparse

/-! # Exactly which uris are parsed as they were composed -/

namespace Verif.Uri

open Spec

theorem cstr_unique {mem s t : List UInt8} {p : Nat} (h : CStr mem p s) (h' : CStr mem p t) : s = t := by
  have := (cstr_eq h).symm.trans (cstr_eq h')
  exact Res.ok.inj this

theorem pre_head {d e : UInt8} {o : Option (List UInt8)} (h : (pre d o).head? = some e) : e = d := by
  cases o <;> simp [pre] at h
  exact h.symm

/-- The pieces behind a path: with the same texts, they are the same. -/
theorem tail_same {cq cf : Option (List UInt8)} {sk qu fr : List UInt8} {pa : List UInt8} (t : TailCut pa sk qu fr)
    (hq : (if qu = [] then none else some qu.tail).getD [] = cq.getD []) (hf : (if fr = [] then none else some fr.tail).getD [] = cf.getD [])
    (h : pre 63 cq ++ pre 35 cf = sk ++ qu ++ fr) : sk = [] ∧ qu = pre 63 cq ∧ fr = pre 35 cf := by
  rcases t.query with ⟨rfl, rfl, hn⟩ | ⟨x, rfl, hx, hs, hd⟩
  · cases cq with
    | none => simp [pre] at h ⊢; exact h.symm
    | some q =>
      simp only [List.nil_append] at h
      rw [← h] at hn
      simp [pre] at hn
  · simp at hq
    subst hq
    cases cq with
    | some q =>
      cases sk with
      | nil => simp [pre] at h ⊢; exact h.symm
      | cons y sk =>
        have := hd y rfl
        simp [pre] at h
        rw [this] at h
        exact absurd h.1 (by decide)
    | none =>
      exfalso
      have hlen := congrArg List.length h
      cases cf with
      | none => simp [pre] at hlen
      | some f =>
        by_cases h0 : fr = []
        · subst h0
          simp at hf
          subst hf
          cases sk with
          | nil => simp [pre] at h
          | cons y sk => simp [pre] at hlen
        · rw [if_neg h0] at hf
          simp at hf
          subst hf
          have : fr.length = fr.tail.length + 1 := by
            cases fr with
            | nil => exact absurd rfl h0
            | cons => simp
          simp [pre] at hlen
          omega

theorem mem_append_pre {b : UInt8} {l : List UInt8} {o : Option (List UInt8)} (h : o ≠ none) : b ∈ l ++ pre b o := by
  cases o with
  | none => exact absurd rfl h
  | some x => simp [pre]

/-- A port that the composer did not write is not found with an empty text, if the text that was
composed has the right components behind it. -/
theorem port_same {cq cf : Option (List UInt8)} {sk1 sk2 qu fr pa : List UInt8} (t : TailCut pa sk2 qu fr)
    (hp : pa = [] ∨ pa.head? = some 47)
    (hq : (if qu = [] then none else some qu.tail).getD [] = cq.getD []) (hf : (if fr = [] then none else some fr.tail).getD [] = cf.getD [])
    (h : pa ++ (pre 63 cq ++ pre 35 cf) = sk1 ++ 58 :: (pa ++ sk2 ++ qu ++ fr)) : False := by
  have hlen := congrArg List.length h
  have l1 : ∀ {d : UInt8} {o : Option (List UInt8)}, (pre d o).length ≤ (o.getD []).length + 1 := by
    intro d o; cases o <;> simp [pre]
  have l2 : ∀ {x : List UInt8}, x.length ≤ ((if x = [] then none else some x.tail).getD []).length + 1 := by
    intro x; cases x <;> simp
  have l3 : ∀ {x : List UInt8}, ((if x = [] then none else some x.tail).getD []).length ≤ x.length := by
    intro x; cases x <;> simp
  have a1 := l1 (d := 63) (o := cq)
  have a2 := l1 (d := 35) (o := cf)
  have b1 := l3 (x := qu)
  have b2 := l3 (x := fr)
  rw [hq] at b1
  rw [hf] at b2
  simp only [List.length_append, List.length_cons] at hlen
  match sk1, h, hlen with
  | [], h, _ =>
    have := tail_head (query := cq) (fragment := cf) hp 58 (by rw [List.append_assoc, h]; rfl)
    exact absurd this (by decide)
  | [x], h, hlen =>
    simp only [List.length_cons, List.length_nil] at hlen
    have z1 : qu.length = (cq.getD []).length := by omega
    have z2 : fr.length = (cf.getD []).length := by omega
    have z3 : sk2 = [] := List.length_eq_zero_iff.1 (by omega)
    have c1 : qu = [] := by
      cases qu with
      | nil => rfl
      | cons y l => rw [← hq] at z1; simp at z1
    have c2 : fr = [] := by
      cases fr with
      | nil => rfl
      | cons y l => rw [← hf] at z2; simp at z2
    subst c1 c2 z3
    simp only [List.length_nil] at z1 z2 hlen
    have d1 : pre 63 cq = [63] := by
      cases cq with
      | none =>
        have e0 : (pre 63 none).length = 0 := rfl
        omega
      | some q =>
        have e0 : q = [] := List.length_eq_zero_iff.1 z1.symm
        rw [e0]; rfl
    have d2 : pre 35 cf = [35] := by
      cases cf with
      | none =>
        have e0 : (pre 35 none).length = 0 := rfl
        omega
      | some q =>
        have e0 : q = [] := List.length_eq_zero_iff.1 z2.symm
        rw [e0]; rfl
    rw [d1, d2] at h
    have hl := congrArg List.getLast? h
    rw [show pa ++ ([63] ++ [35]) = (pa ++ [63]) ++ [35] by simp, List.getLast?_concat] at hl
    simp only [List.append_nil] at hl
    rcases List.eq_nil_or_concat pa with rfl | ⟨l, y, rfl⟩
    · simp at hl
    · rw [show [x] ++ 58 :: (l.concat y) = (x :: 58 :: l) ++ [y] by simp, List.getLast?_concat] at hl
      have hy : y = 35 := (Option.some.inj hl).symm
      exact t.path y (by simp) (by simp [hy])
  | x :: y :: l, h, hlen =>
    simp only [List.length_cons] at hlen
    omega

/-- If a string that was composed of well-formed components is parsed to these components, then it
was cut where it was put together. -/
theorem cut_same {c : Comp} (wf : WellFormed c) {d : Cut} (x : Exact d) (hin : compose c = d.input)
    (hs : d.comp.scheme = c.scheme) (hu : d.comp.userinfo.getD [] = c.userinfo.getD []) (hh : d.comp.host = c.host)
    (hp : d.comp.port.getD [] = c.port.getD []) (hpa : d.comp.path = c.path)
    (hq : d.comp.query.getD [] = c.query.getD []) (hf : d.comp.fragment.getD [] = c.fragment.getD []) : d = cutOf c := by
  obtain ⟨sc, au, ui, ho, sk1, po, pa, sk2, qu, fr⟩ := d
  simp only [Cut.comp] at hs hu hh hp hpa hq hf
  subst hh hpa
  obtain ⟨x1, x2, x3, x4, x5, x6⟩ := x
  simp only [Cut.rest] at x1 x2 x3 x4 x5 x6
  obtain ⟨s, rfl, -⟩ := x1
  rw [List.dropLast_concat] at hs
  subst hs
  simp only [compose, Cut.input, Cut.slashes, List.append_assoc] at hin
  replace hin := List.append_cancel_left hin
  replace hin := List.append_cancel_left hin
  cases hau : c.authority with
  | false =>
    obtain ⟨w1, w2, w3⟩ := wf.consistent hau
    have h2 := wf.pathNoAuth hau
    rw [hau, w1, w2, w3] at hin
    simp only [Bool.false_eq_true, if_false, show post 64 none = [] from rfl, show pre 58 none = [] from rfl,
      List.nil_append] at hin
    cases au with
    | true =>
      exfalso
      simp only [if_true] at hin
      generalize ui ++ (c.host ++ (sk1 ++ (po ++ (c.path ++ (sk2 ++ (qu ++ fr)))))) = r at hin
      have hhd : ∀ {o o' : Option (List UInt8)} {l : List UInt8} {z : UInt8}, pre 63 o ++ pre 35 o' = z :: l → z ≠ 47 := by
        intro o o' l z h
        have := tail_head (path := []) (query := o) (fragment := o') (.inl rfl) z (by rw [List.nil_append, h]; rfl)
        cases o with
        | some q => simp [pre] at h; rw [← h.1]; decide
        | none =>
          cases o' with
          | some q => simp [pre] at h; rw [← h.1]; decide
          | none => simp [pre] at h
      match hm : c.path with
      | [] => rw [hm] at hin; exact hhd hin rfl
      | [y] =>
        rw [hm] at hin
        simp only [List.cons_append, List.nil_append, List.cons.injEq] at hin
        exact hhd hin.2 rfl
      | y :: z :: l =>
        rw [hm] at hin h2
        simp only [List.cons_append, List.nil_append, List.cons.injEq] at hin
        exact h2 (by rw [hin.1, hin.2.1]; rfl)
    | false =>
      obtain ⟨e1, e2, e3, e4, -⟩ := x2 rfl
      subst e1 e3 e4
      simp only [Bool.false_eq_true, if_false, List.nil_append] at hin
      replace hin := List.append_cancel_left hin
      obtain ⟨f1, f2, f3⟩ := tail_same x6 hq hf (by simpa [pre] using hin)
      subst f1 f2 f3
      simp [cutOf, hau, w1, w3, post, pre]
  | true =>
    have h2 := wf.pathAuth hau
    rw [hau] at hin
    cases au with
    | false =>
      exfalso
      obtain ⟨e1, e2, e3, e4, e5⟩ := x2 rfl
      subst e1 e3 e4
      rw [e2] at hin
      simp only [if_true, Bool.false_eq_true, if_false, List.nil_append] at hin
      apply e5
      rw [List.append_assoc, List.append_assoc, ← hin]
      rfl
    | true =>
      simp only [if_true] at hin
      replace hin := List.append_cancel_left hin
      have hui : ui = post 64 c.userinfo := by
        rcases x3 rfl with ⟨rfl, hn⟩ | ⟨u, rfl, hn⟩
        · cases hcu : c.userinfo with
          | none => rfl
          | some u =>
            exfalso
            apply hn
            have : (64 : UInt8) ∈ post 64 c.userinfo ++ (c.host ++ (pre 58 c.port ++ (c.path ++ (pre 63 c.query ++ pre 35 c.fragment)))) := by
              rw [hcu]; simp [post]
            rw [hin] at this
            simpa using this
        · simp at hu
          cases hcu : c.userinfo with
          | some w => rw [hcu] at hu; simp at hu; rw [hu]; rfl
          | none =>
            exfalso
            rw [hcu] at hu hin
            simp at hu
            subst hu
            simp only [post, List.nil_append] at hin
            -- the text begins with `@`
            cases hho : c.host with
            | cons y l =>
              rw [hho] at hin
              simp only [List.cons_append, List.cons.injEq, List.nil_append] at hin
              rcases wf.host with ⟨h', hh', -⟩ | ⟨ho', -⟩
              · rw [hho] at hh'
                simp at hh'
                rw [hh'.1] at hin
                exact absurd hin.1 (by decide)
              · exact ho' y (by rw [hho]; simp) (by rw [hin.1]; simp)
            | nil =>
              rw [hho] at hin
              cases hpo : c.port with
              | some p => rw [hpo] at hin; simp [pre] at hin
              | none =>
                rw [hpo] at hin
                have := tail_head (query := c.query) (fragment := c.fragment) h2 64 (by
                  simp only [pre, List.nil_append] at hin ⊢
                  rw [List.append_assoc, hin]; rfl)
                exact absurd this (by decide)
      subst hui
      replace hin := List.append_cancel_left hin
      replace hin := List.append_cancel_left hin
      rcases x5 rfl with ⟨rfl, rfl, hn⟩ | ⟨y, rfl, hn, -, -⟩
      · cases hcp : c.port with
        | some p =>
          exfalso
          apply hn
          rw [hcp] at hin
          have : (58 : UInt8) ∈ pre 58 (some p) ++ (c.path ++ (pre 63 c.query ++ pre 35 c.fragment)) := by simp [pre]
          rw [hin] at this
          simpa using this
        | none =>
          rw [hcp] at hin
          simp only [pre, List.nil_append] at hin
          replace hin := List.append_cancel_left hin
          obtain ⟨f1, f2, f3⟩ := tail_same x6 hq hf (by simpa [pre] using hin)
          subst f1 f2 f3
          simp [cutOf, hau, hcp, pre]
      · simp at hp
        subst hp
        cases hcp : c.port with
        | none =>
          exfalso
          rw [hcp] at hin
          simp only [pre, List.nil_append, Option.getD_none] at hin
          refine port_same (cq := c.query) (cf := c.fragment) (sk1 := sk1) x6 h2 hq hf ?_
          simpa [pre] using hin
        | some p =>
          rw [hcp] at hin
          simp only [pre, Option.getD_some] at hin
          cases sk1 with
          | cons z l =>
            exfalso
            simp only [List.cons_append, List.cons.injEq] at hin
            exact hn (by rw [← hin.1]; simp)
          | nil =>
            simp only [List.cons_append, List.nil_append, List.cons.injEq, true_and] at hin
            replace hin := List.append_cancel_left hin
            replace hin := List.append_cancel_left hin
            obtain ⟨f1, f2, f3⟩ := tail_same x6 hq hf (by simpa [pre] using hin)
            subst f1 f2 f3
            simp [cutOf, hau, hcp, pre]

/-- **C58**, exactly. A string composed of well-formed components is parsed, with these components
and this text as the result, if and only if the components are unambiguous: the delimiters `@`, `:`
and `?` that the parser looks for are only in the components behind if they are also where they
belong. -/
theorem uri_inverts_iff {mem : List UInt8} {c : Comp} (fill : Nat → UInt8) (wf : WellFormed c) (h : CStr mem 0 (compose c))
    (hl : (compose c).length < 2147483640) :
    (∃ u, create (some fill) (some mem) = .ok (some u) ∧ Holds u c) ↔ Unambiguous c := by
  constructor
  · rintro ⟨u, hu, hc⟩
    obtain ⟨d, hin, x⟩ := (uri_accepts (fill := fill) h hl).1.1 ⟨u, hu⟩
    obtain ⟨u', hu', -, hd⟩ := (uri_accepts (fill := fill) h hl).2 d hin x
    rw [hu] at hu'
    cases hu'
    have e := cut_same wf x hin (cstr_unique hd.scheme hc.scheme) (cstr_unique hd.userinfo hc.userinfo)
      (cstr_unique hd.host hc.host) (cstr_unique hd.port hc.port) (cstr_unique hd.path hc.path)
      (cstr_unique hd.query hc.query) (cstr_unique hd.fragment hc.fragment)
    subst e
    refine ⟨fun ha hui hm => ?_, fun ha hpo hm => ?_, fun hq hm => ?_⟩
    · rcases x.user ha with ⟨-, hn⟩ | ⟨y, hy, -⟩
      · apply hn
        simp only [cutOf, Cut.rest, List.append_nil]
        exact List.mem_append_right _ (by simpa using hm)
      · simp [cutOf, hui, post] at hy
    · rcases x.port ha with ⟨-, -, hn⟩ | ⟨y, hy, -⟩
      · exact hn (by simpa [cutOf, Cut.rest] using hm)
      · simp [cutOf, hpo, pre] at hy
    · rcases x.tail.query with ⟨-, -, hn⟩ | ⟨y, hy, -⟩
      · exact hn hm
      · simp [cutOf, hq, pre] at hy
  · intro un
    obtain ⟨u, h1, h2, -⟩ := uri_parse_compose_partial fill wf un h hl
    exact ⟨u, h1, h2⟩

end Verif.Uri
