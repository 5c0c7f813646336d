import Verif.Option.Model
import Verif.Option.Spec

/-!
# Properties of sc_option (C60)
-/

namespace Verif.Opt

open Spec

/-- The table in memory holds the given options. -/
inductive Holds : List Item → List Opt → Prop
  | nil : Holds [] []
  | unnamed {l is os} : Holds is os → Holds (⟨l, none⟩ :: is) (⟨l, none⟩ :: os)
  | named {l block name is os} : CStr block 0 name → Holds is os →
      Holds (⟨l, some block⟩ :: is) (⟨l, some name⟩ :: os)

/-- The result `r` of a search for the argument: the first option it is a form of. -/
def Finds (mem arg : List UInt8) (opts : List Opt) (r : Option (UInt8 × Nat)) : Prop :=
  match r with
  | none => ∀ o ∈ opts, ∀ w, ¬ Form o arg w
  | some (id, p) => ∃ o v, First opts arg o v ∧ id = o.letter ∧ CStr mem p v

theorem Finds.cons {mem arg : List UInt8} {o : Opt} {opts : List Opt} {r : Option (UInt8 × Nat)}
    (h : Finds mem arg opts r) (ho : ∀ w, ¬ Form o arg w) : Finds mem arg (o :: opts) r := by
  cases r with
  | none =>
    intro p hp w
    rcases List.mem_cons.1 hp with rfl | hp
    · exact ho w
    · exact h p hp w
  | some x =>
    obtain ⟨id, p⟩ := x
    obtain ⟨o', v, ⟨pre, post, e, hf, hn⟩, h2⟩ := h
    refine ⟨o', v, ⟨o :: pre, post, by rw [e]; rfl, hf, ?_⟩, h2⟩
    intro p hp w
    rcases List.mem_cons.1 hp with rfl | hp
    · exact ho w
    · exact hn p hp w

theorem Finds.head {mem arg : List UInt8} {o : Opt} {opts : List Opt} {p : Nat} {v : List UInt8}
    (h : Form o arg v) (hp : CStr mem p v) : Finds mem arg (o :: opts) (some (o.letter, p)) :=
  ⟨o, v, ⟨[], opts, rfl, h, by simp⟩, rfl, hp⟩

theorem shortLoop_eq {mem rest : List UInt8} {c : UInt8} (hc : CStr mem 0 (45 :: c :: rest))
    (hm : c ≠ 45) (hs : rest.head? ≠ some 32) {is : List Item} {os : List Opt} (h : Holds is os) :
    ∃ r, shortLoop mem 1 is = .ok r ∧ Finds mem (45 :: c :: rest) os r := by
  have r1 : rd mem 1 = .ok c := by simpa using hc.rd (i := 1) (by simp)
  have r2 : rd mem 2 = .ok (rest.head?.getD 0) := by
    have := hc.rd (i := 2) (by simp)
    cases rest <;> simpa using this
  have hnz : ∀ b ∈ rest, b ≠ 0 := fun b hb => hc.nonzero b (by simp [hb])
  have hnl : ∀ o w, ¬ Long o (45 :: c :: rest) w := by
    rintro o w ⟨name, rest', _, _, e, _⟩
    simp at e
    exact hm e.1
  have step : ∀ (l : UInt8) (nm : Option (List UInt8)) (nm' : Option (List UInt8)) (is : List Item)
      (os : List Opt), (∃ r, shortLoop mem 1 is = .ok r ∧ Finds mem (45 :: c :: rest) os r) →
      ∃ r, shortLoop mem 1 (⟨l, nm⟩ :: is) = .ok r ∧
        Finds mem (45 :: c :: rest) (⟨l, nm'⟩ :: os) r := by
    rintro l nm nm' is os ⟨r, h1, h2⟩
    unfold shortLoop
    rw [r1, Res.ok_bind]
    simp only
    by_cases hl : c = l
    · subst hl
      rw [if_pos rfl]
      have hfin : ∀ v, IsValue rest v → Form ⟨c, nm'⟩ (45 :: c :: rest) v :=
        fun v hv => Or.inl ⟨rest, rfl, hm, hv⟩
      cases rest with
      | nil =>
        have r2' : rd mem (1 + 1) = .ok 0 := r2
        rw [r2', Res.ok_bind, if_pos (by simp)]
        refine ⟨_, rfl, Finds.head (hfin [] (Or.inl ⟨rfl, rfl⟩)) ?_⟩
        simpa using CStr.suffix (a := [45, c]) (b := []) hc
      | cons d v =>
        have r2' : rd mem (1 + 1) = .ok d := r2
        rw [r2', Res.ok_bind]
        by_cases hd : d = 61
        · subst hd
          rw [if_pos (by simp)]
          refine ⟨_, rfl, Finds.head (hfin v (Or.inr rfl)) ?_⟩
          simpa using CStr.suffix (a := [45, c, 61]) (b := v) hc
        · have h0 : d ≠ 0 := hnz d (by simp)
          have h32 : d ≠ 32 := by simpa using hs
          rw [if_neg (by simp [hd, h0, h32])]
          refine ⟨r, h1, h2.cons ?_⟩
          rintro w (⟨rest', e, _, hv⟩ | hl)
          · simp at e
            subst e
            rcases hv with ⟨h, _⟩ | h
            · cases h
            · simp at h; exact hd h.1
          · exact hnl _ _ hl
    · rw [if_neg hl]
      refine ⟨r, h1, h2.cons ?_⟩
      rintro w (⟨rest', e, _, hv⟩ | h)
      · simp at e; exact hl e.1
      · exact hnl _ _ h
  induction h with
  | nil => exact ⟨none, rfl, by intro o ho; simp at ho⟩
  | unnamed _ ih => exact step _ _ _ _ _ ih
  | named _ _ ih => exact step _ _ _ _ _ ih

/-- The scan stops at the first `=` or at the end. -/
theorem scan_eq {mem : List UInt8} : ∀ (a b : List UInt8) (p fuel : Nat), CStr mem p (a ++ b) →
    61 ∉ a → (b = [] ∨ b.head? = some 61) → a.length < fuel →
    scan mem fuel p = .ok (p + a.length) := by
  intro a
  induction a with
  | nil =>
    intro b p fuel hc _ hb hf
    obtain ⟨f, rfl⟩ : ∃ f, fuel = f + 1 := ⟨fuel - 1, by simp at hf; omega⟩
    unfold scan
    have := hc.rd (i := 0) (by omega)
    rw [Nat.add_zero] at this
    rw [this, Res.ok_bind, if_neg]
    · simp
    · rcases hb with rfl | hb
      · simp
      · cases b with
        | nil => simp at hb
        | cons d v => simp at hb; simp [hb]
  | cons d a ih =>
    intro b p fuel hc hn hb hf
    obtain ⟨f, rfl⟩ : ∃ f, fuel = f + 1 := ⟨fuel - 1, by simp at hf; omega⟩
    unfold scan
    have := hc.rd (i := 0) (by omega)
    rw [Nat.add_zero] at this
    have h0 : d ≠ 0 := hc.nonzero d (by simp)
    have h61 : d ≠ 61 := fun e => hn (by simp [e])
    rw [this, Res.ok_bind]
    simp only [List.cons_append, List.getElem?_cons_zero, Option.getD_some]
    rw [if_pos ⟨h0, h61⟩]
    have hc' : CStr mem (p + 1) (a ++ b) := CStr.suffix (a := [d]) (b := a ++ b) hc
    rw [ih b (p + 1) f hc' (fun h => hn (by simp [h])) hb (by simp at hf; omega)]
    simp; omega

theorem longLoop_eq {mem a b : List UInt8} (hc : CStr mem 0 ([45, 45] ++ a ++ b)) (ha : 61 ∉ a)
    (hb : b = [] ∨ b.head? = some 61) {is : List Item} {os : List Opt} (h : Holds is os) :
    ∃ r, longLoop mem (2 + a.length) is = .ok r ∧ Finds mem ([45, 45] ++ a ++ b) os r := by
  have hns : ∀ o w, ¬ Short o ([45, 45] ++ a ++ b) w := by
    rintro o w ⟨rest, e, hl, _⟩
    simp at e
    exact hl e.1.symm
  have hmem : ∀ n, n = a.length → (mem.drop 2).take n = a := by
    rintro n rfl
    have h1 := hc.slice
    have hlt := hc.lt
    have h2 : mem.take ([45, 45] ++ a ++ b).length = [45, 45] ++ a ++ b := by
      simpa [slice] using h1
    have h3 : mem = ([45, 45] ++ a ++ b) ++ mem.drop ([45, 45] ++ a ++ b).length := by
      conv => lhs; rw [← List.take_append_drop ([45, 45] ++ a ++ b).length mem, h2]
    rw [h3]
    simp
  have hval : ∃ v, IsValue b v ∧ ∃ c, rd mem (2 + a.length) = .ok c ∧
      CStr mem (2 + a.length + (if c ≠ 61 then 0 else 1)) v := by
    have hr := hc.rd (i := 2 + a.length) (by simp; omega)
    rw [Nat.zero_add] at hr
    have e0 : ([45, 45] ++ a ++ b)[2 + a.length]? = b[0]? := by
      rw [List.getElem?_append_right (by simp; omega)]
      congr 1; simp; omega
    rw [e0] at hr
    cases b with
    | nil =>
      refine ⟨[], Or.inl ⟨rfl, rfl⟩, _, hr, ?_⟩
      have := CStr.suffix (a := [45, 45] ++ a) (b := []) hc
      have e : 0 + ([45, 45] ++ a).length = 2 + a.length := by simp; omega
      rw [e] at this
      simpa using this
    | cons d v =>
      have : d = 61 := by simpa using hb
      subst this
      refine ⟨v, Or.inr rfl, _, hr, ?_⟩
      have := CStr.suffix (a := [45, 45] ++ a ++ [61]) (b := v) (by simpa using hc)
      simpa [Nat.add_comm, Nat.add_left_comm] using this
  obtain ⟨v, hv, c, hrd, hcv⟩ := hval
  -- a long form of an option names it
  have hlong : ∀ o w, Long o ([45, 45] ++ a ++ b) w → o.name = some a := by
    rintro o w ⟨name, rest, hn, h61, e, hr⟩
    rw [hn]
    congr 1
    rw [List.append_assoc, List.append_assoc] at e
    have e := List.append_cancel_left e
    have key : ∀ (x y : List UInt8), 61 ∉ x → (y = [] ∨ y.head? = some 61) →
        (x ++ y).takeWhile (· ≠ 61) = x := by
      intro x
      induction x with
      | nil =>
        intro y _ hy
        rcases hy with rfl | hy
        · rfl
        · cases y with
          | nil => rfl
          | cons d y => simp at hy; simp [hy]
      | cons d x ih =>
        intro y hx hy
        have : d ≠ 61 := fun h => hx (by simp [h])
        rw [List.cons_append, List.takeWhile_cons, if_pos (by simpa using this),
          ih y (fun h => hx (by simp [h])) hy]
    have hrest : rest = [] ∨ rest.head? = some 61 := by
      rcases hr with ⟨h, _⟩ | h
      · exact Or.inl h
      · right; rw [h]; rfl
    rw [← key name rest h61 hrest, ← e, key a b ha hb]
  induction h with
  | nil => exact ⟨none, rfl, by intro o ho; simp at ho⟩
  | @unnamed l is os _ ih =>
    obtain ⟨r, h1, h2⟩ := ih
    refine ⟨r, ?_, h2.cons ?_⟩
    · unfold longLoop; exact h1
    · rintro w (h | h)
      · exact hns _ _ h
      · have := hlong _ _ h; cases this
  | @named l block name is os hn _ ih =>
    obtain ⟨r, h1, h2⟩ := ih
    unfold longLoop
    simp only
    rw [strlen_eq hn, Res.ok_bind, Nat.add_sub_cancel_left]
    by_cases hl : a.length = name.length
    · rw [if_pos hl]
      have hcmp : memcmpEq block (mem.drop 2) a.length = .ok (name == a) := by
        unfold memcmpEq
        have hb1 := hn.lt
        have hm := hc.lt
        simp only [List.length_append] at hm
        rw [if_pos ⟨by omega, by simp; simp at hm; omega⟩, hmem _ rfl]
        have : block.take a.length = name := by
          have := hn.slice
          rw [hl]
          simpa [slice] using this
        rw [this]
      rw [hcmp, Res.ok_bind]
      by_cases he : name = a
      · subst he
        simp only [beq_self_eq_true, if_true]
        rw [hrd, Res.ok_bind]
        exact ⟨_, rfl, Finds.head (Or.inr ⟨name, b, rfl, ha, rfl, hv⟩) hcv⟩
      · have : (name == a) = false := by simpa using he
        rw [this]
        simp only [Bool.false_eq_true, if_false]
        refine ⟨r, h1, h2.cons ?_⟩
        rintro w (h | h)
        · exact hns _ _ h
        · have := hlong _ _ h; simp at this; exact he this
    · rw [if_neg hl]
      refine ⟨r, h1, h2.cons ?_⟩
      rintro w (h | h)
      · exact hns _ _ h
      · have := hlong _ _ h; simp at this; exact hl (by rw [this])

theorem shortLoop_nul {mem : List UInt8} (hc : CStr mem 0 [45]) {is : List Item} {os : List Opt}
    (h : Holds is os) (hl : ∀ o ∈ os, o.letter ≠ 0) : shortLoop mem 1 is = .ok none := by
  have r1 : rd mem 1 = .ok 0 := by simpa using hc.rd (i := 1) (by simp)
  induction h with
  | nil => rfl
  | @unnamed l is os _ ih =>
    unfold shortLoop
    have := hl ⟨l, none⟩ (by simp)
    rw [r1, Res.ok_bind, if_neg (fun e => this e.symm)]
    exact ih (fun o ho => hl o (by simp [ho]))
  | @named l block name is os _ _ ih =>
    unfold shortLoop
    have := hl ⟨l, some name⟩ (by simp)
    rw [r1, Res.ok_bind, if_neg (fun e => this e.symm)]
    exact ih (fun o ho => hl o (by simp [ho]))

/-- C60, for arguments that do not have the form `-x text` with a space: the letter of the first
option the argument is a form of and a pointer to the value, and `?` and NULL when there is no such
option. Missing: arguments `-x text` (`option_space_violated`), which are taken for `-x`. -/
theorem option_at_partial {items : List Item} {opts : List Opt} (h : Holds items opts)
    (hl : ∀ o ∈ opts, o.letter ≠ 0) {argv : List (List UInt8)} {index : Nat} {mem arg : List UInt8}
    (ha : argv[index]? = some mem) (hc : CStr mem 0 arg)
    (hs : ∀ c rest, c ≠ 45 → arg ≠ 45 :: c :: 32 :: rest) :
    (∀ o v, First opts arg o v →
      ∃ p, optionAt items argv index = .ok (o.letter, some p) ∧ CStr mem p v) ∧
    ((∀ o v, ¬ First opts arg o v) → optionAt items argv index = .ok (63, none)) := by
  -- it is enough to know what the search finds
  suffices hmain : ∃ r, Finds mem arg opts r ∧ optionAt items argv index =
      .ok (match r with | none => (63, none) | some (id, v) => (id, some v)) by
    obtain ⟨r, hr, he⟩ := hmain
    have huniq : ∀ o v o' v', Form o arg v → Form o' arg v' → v = v' := by
      have hval : ∀ rest v v', IsValue rest v → IsValue rest v' → v = v' := by
        rintro rest v v' (⟨rfl, rfl⟩ | rfl) (⟨h1, h2⟩ | h1)
        · exact h2.symm
        · cases h1
        · cases h1
        · simpa using h1
      have hcut : ∀ (x y x' y' v v' : List UInt8), x ++ y = x' ++ y' → 61 ∉ x → 61 ∉ x' →
          IsValue y v → IsValue y' v' → v = v' := by
        intro x
        induction x with
        | nil =>
          intro y x' y' v v' e _ h2 h3 h4
          cases x' with
          | nil => simp at e; subst e; exact hval _ _ _ h3 h4
          | cons d x' =>
            simp at e
            rcases h3 with ⟨rfl, _⟩ | h3
            · cases e
            · rw [e] at h3; simp at h3; exact (h2 (by simp [h3.1])).elim
        | cons d x ih =>
          intro y x' y' v v' e h1 h2 h3 h4
          cases x' with
          | nil =>
            simp at e
            rcases h4 with ⟨rfl, _⟩ | h4
            · cases e
            · rw [← e] at h4; simp at h4; exact (h1 (by simp [h4.1])).elim
          | cons d' x' =>
            simp at e
            exact ih y x' y' v v' e.2 (fun h => h1 (by simp [h])) (fun h => h2 (by simp [h])) h3 h4
      rintro o v o' v' (⟨rest, e, hm, hv⟩ | ⟨n, rest, _, h6, e, hv⟩)
        (⟨rest', e', hm', hv'⟩ | ⟨n', rest', _, h6', e', hv'⟩)
      · rw [e] at e'; simp at e'; rw [e'.2] at hv; exact hval _ _ _ hv hv'
      · rw [e] at e'; simp at e'; exact (hm e'.1).elim
      · rw [e'] at e; simp at e; exact (hm' e.1).elim
      · rw [e, List.append_assoc, List.append_assoc] at e'
        exact hcut _ _ _ _ _ _ (List.append_cancel_left e') h6 h6' hv hv'
    rw [he]
    constructor
    · rintro o v ⟨pre, post, e, hf, hn⟩
      cases r with
      | none => exact (hr o (by rw [e]; simp) v hf).elim
      | some x =>
        obtain ⟨id, p⟩ := x
        obtain ⟨o', v', ⟨pre', post', e', hf', hn'⟩, rfl, hcv⟩ := hr
        have ho : o = o' := by
          rw [e] at e'
          have hlen : pre.length = pre'.length := by
            rcases Nat.lt_trichotomy pre.length pre'.length with hlt | heq | hgt
            · exfalso
              have h1 : (pre ++ o :: post)[pre.length]? = some o := by simp
              rw [e', List.getElem?_append_left hlt] at h1
              exact hn' o (List.mem_of_getElem? h1) v hf
            · exact heq
            · exfalso
              have h1 : (pre' ++ o' :: post')[pre'.length]? = some o' := by simp
              rw [← e', List.getElem?_append_left hgt] at h1
              exact hn o' (List.mem_of_getElem? h1) v' hf'
          have := (List.append_inj e' hlen).2
          simp at this
          exact this.1
        subst ho
        rw [huniq o v o v' hf hf']
        exact ⟨p, rfl, hcv⟩
    · intro hno
      cases r with
      | none => rfl
      | some x =>
        obtain ⟨id, p⟩ := x
        obtain ⟨o', v', hf, _⟩ := hr
        exact (hno o' v' hf).elim
  unfold optionAt
  rw [rd_eq_ok.2 ha, Res.ok_bind]
  have hnone : (∀ rest, arg ≠ 45 :: rest) ∨ arg = [45] → Finds mem arg opts none := by
    intro hh o _ w hf
    rcases hf with ⟨rest, e, _⟩ | ⟨n, rest, _, _, e, _⟩ <;> subst e <;>
      rcases hh with hh | hh
    · exact hh _ rfl
    · simp at hh
    · exact hh _ rfl
    · simp at hh
  match arg, hc, hs, hnone with
  | [], hc, _, hnone =>
    have r0 : rd mem 0 = .ok 0 := by simpa using hc.rd (i := 0) (by simp)
    rw [r0, Res.ok_bind, if_pos (by decide)]
    exact ⟨none, hnone (Or.inl (by simp)), rfl⟩
  | [c], hc, _, hnone =>
    have r0 : rd mem 0 = .ok c := by simpa using hc.rd (i := 0) (by simp)
    rw [r0, Res.ok_bind]
    by_cases h45 : c = 45
    · subst h45
      have r1 : rd mem 1 = .ok 0 := by simpa using hc.rd (i := 1) (by simp)
      rw [if_neg (by simp), r1, Res.ok_bind, if_pos (by decide), shortLoop_nul hc h hl,
        Res.ok_bind]
      exact ⟨none, hnone (Or.inr rfl), rfl⟩
    · rw [if_pos h45]
      exact ⟨none, hnone (Or.inl (by simp [h45])), rfl⟩
  | c :: d :: rest, hc, hs, hnone =>
    have r0 : rd mem 0 = .ok c := by simpa using hc.rd (i := 0) (by simp)
    have r1 : rd mem 1 = .ok d := by simpa using hc.rd (i := 1) (by simp)
    rw [r0, Res.ok_bind]
    by_cases h45 : c = 45
    · subst h45
      rw [if_neg (by simp), r1, Res.ok_bind]
      by_cases hd : d = 45
      · subst hd
        rw [if_neg (by simp)]
        have hsplit : ∃ a b, rest = a ++ b ∧ 61 ∉ a ∧ (b = [] ∨ b.head? = some 61) := by
          clear r0 r1 hc hs hnone
          induction rest with
          | nil => exact ⟨[], [], rfl, by simp, Or.inl rfl⟩
          | cons x rest ih =>
            by_cases hx : x = 61
            · exact ⟨[], x :: rest, rfl, by simp, Or.inr (by simp [hx])⟩
            · obtain ⟨a, b, e, h1, h2⟩ := ih
              refine ⟨x :: a, b, by rw [e]; rfl, ?_, h2⟩
              intro h
              rcases List.mem_cons.1 h with h | h
              · exact hx h.symm
              · exact h1 h
        obtain ⟨a, b, rfl, h61, hb⟩ := hsplit
        have hc1 : CStr mem 1 ([45] ++ a ++ b) := CStr.suffix (a := [45]) hc
        have hscan := scan_eq ([45] ++ a) b 1 (mem.length + 1) hc1
          (by intro h; simp at h; exact h61 h) hb (by
            have := hc.lt; simp only [List.length_cons, List.length_append, List.length_nil] at this ⊢
            omega)
        have e1 : 1 + ([45] ++ a).length = 2 + a.length := by simp; omega
        rw [e1] at hscan
        obtain ⟨r, h1, h2⟩ := longLoop_eq (a := a) (b := b) hc h61 hb h
        rw [hscan, Res.ok_bind, h1, Res.ok_bind]
        refine ⟨r, h2, ?_⟩
        cases r <;> rfl
      · rw [if_pos hd]
        obtain ⟨r, h1, h2⟩ := shortLoop_eq hc hd (by
          intro hh
          cases rest with
          | nil => simp at hh
          | cons x rest => simp at hh; subst hh; exact hs d rest hd rfl) h
        rw [h1, Res.ok_bind]
        refine ⟨r, h2, ?_⟩
        cases r <;> rfl
    · rw [if_pos h45]
      exact ⟨none, hnone (Or.inl (by simp [h45])), rfl⟩

/-- C60 is violated by `-x text`: this is neither `-x` nor `-x=value`, and is taken for `-x` with
the value " text", which does not follow a `=`. -/
theorem option_space_violated :
    optionAt [⟨120, none⟩] [[45, 120, 32, 116, 0]] 0 = .ok (120, some 2) ∧
    (∀ v, ¬ Form ⟨120, none⟩ [45, 120, 32, 116] v) := by
  refine ⟨by decide, ?_⟩
  rintro v (⟨rest, e, _, hv⟩ | ⟨n, rest, hn, _⟩)
  · simp at e
    subst e
    rcases hv with ⟨h, _⟩ | h
    · cases h
    · simp at h
  · cases hn

/-- An option without a letter (0) makes the argument `-` read past its end. -/
theorem option_letter_defect : optionAt [⟨0, some [97, 0]⟩] [[45, 0]] 0 = .ub := by decide

-- two options; `--key=v` is a form of the second one
example : Holds [⟨97, none⟩, ⟨107, some [107, 101, 121, 0]⟩]
    [⟨97, none⟩, ⟨107, some [107, 101, 121]⟩] :=
  .unnamed (.named (CStr.self (s := [107, 101, 121]) (by decide)) .nil)
example : First [⟨97, none⟩, ⟨107, some [107, 101, 121]⟩] [45, 45, 107, 101, 121, 61, 118]
    ⟨107, some [107, 101, 121]⟩ [118] := by
  refine ⟨[⟨97, none⟩], [], rfl, Or.inr ⟨_, [61, 118], rfl, by decide, rfl, Or.inr rfl⟩, ?_⟩
  simp only [List.mem_singleton]
  rintro p rfl w (⟨rest, e, _⟩ | ⟨n, rest, hn, _⟩)
  · simp at e
  · cases hn
example : optionAt [⟨97, none⟩, ⟨107, some [107, 101, 121, 0]⟩]
    [[45, 45, 107, 101, 121, 61, 118, 0]] 0 = .ok (107, some 6) := by decide +kernel
-- a longer name does not match
example : optionAt [⟨107, some [107, 101, 121, 0]⟩] [[45, 45, 107, 101, 121, 115, 0]] 0 =
    .ok (63, none) := by decide +kernel

end Verif.Opt
