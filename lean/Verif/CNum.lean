import Verif.CLib

/-!
# Numbers and text

`strtoll`, `strtoul` and decimal formatting of the C library (C11 7.22.1.4, 7.21.6.1), in the
C locale.
-/

namespace Verif

/-- `isspace` -/
def isSpace (c : UInt8) : Bool := c = 32 || (9 ≤ c && c ≤ 13)

/-- `isdigit` -/
def isDigit (c : UInt8) : Bool := 48 ≤ c && c ≤ 57

/-- `tolower` -/
def toLower (c : UInt8) : UInt8 := if 65 ≤ c && c ≤ 90 then c + 32 else c

/-- The number written with decimal digits. -/
def decVal (ds : List UInt8) : Nat := ds.foldl (fun a d => a * 10 + (d.toNat - 48)) 0

/-- The sign in front of a number: whether it is a minus, and its number of characters. -/
def signOf (s : List UInt8) : Bool × Nat :=
  if s.head? = some 45 then (true, 1) else if s.head? = some 43 then (false, 1) else (false, 0)

/-- How the `strtol` family reads a decimal number at the start of a string: whether there is a
minus sign, the digits' value, and the number of characters read. `none`: there is no
number. -/
def strtoNum (s : List UInt8) : Option (Bool × Nat × Nat) :=
  let ws := s.takeWhile isSpace
  let s := s.drop ws.length
  let ds := (s.drop (signOf s).2).takeWhile isDigit
  if ds = [] then none
  else some ((signOf s).1, decVal ds, ws.length + (signOf s).2 + ds.length)

/-- What a string of a number looks like: white space, a sign, digits. -/
def IsNum (t : List UInt8) (neg : Bool) (n : Nat) : Prop :=
  ∃ ws sg ds, t = ws ++ sg ++ ds ∧ (∀ c ∈ ws, isSpace c) ∧
    ((sg = [] ∧ neg = false) ∨ (sg = [43] ∧ neg = false) ∨ (sg = [45] ∧ neg = true)) ∧
    ds ≠ [] ∧ (∀ c ∈ ds, isDigit c) ∧ n = decVal ds

theorem takeWhile_append {p : UInt8 → Bool} {a b : List UInt8} (ha : ∀ c ∈ a, p c)
    (hb : ∀ c, b.head? = some c → p c = false) : (a ++ b).takeWhile p = a := by
  induction a with
  | nil =>
    cases b with
    | nil => rfl
    | cons c b => simp [hb c rfl]
  | cons c a ih =>
    rw [List.cons_append, List.takeWhile_cons, if_pos (ha c (by simp)), ih fun d hd => ha d (by simp [hd])]

theorem digit_not_space {c : UInt8} (h : isDigit c = true) : isSpace c = false := by
  simp only [isDigit, isSpace, Bool.and_eq_true, decide_eq_true_eq, UInt8.le_iff_toNat_le,
    Bool.or_eq_false_iff, decide_eq_false_iff_not, Bool.and_eq_false_iff, ← UInt8.toNat_inj] at h ⊢
  simp only [UInt8.toNat_ofNat] at h ⊢
  omega

/-- The number is read up to the first character that is not a digit. -/
theorem strtoNum_eq {t rest : List UInt8} {neg : Bool} {n : Nat} (h : IsNum t neg n)
    (hr : ∀ c, rest.head? = some c → isDigit c = false) :
    strtoNum (t ++ rest) = some (neg, n, t.length) := by
  obtain ⟨ws, sg, ds, rfl, hws, hsg, hne, hds, rfl⟩ := h
  obtain ⟨d, ds', rfl⟩ := List.exists_cons_of_ne_nil hne
  have hd := hds d (by simp)
  unfold strtoNum
  have e1 : (ws ++ sg ++ (d :: ds') ++ rest).takeWhile isSpace = ws := by
    rw [List.append_assoc, List.append_assoc]
    apply takeWhile_append hws
    intro c hc
    rcases hsg with ⟨rfl, _⟩ | ⟨rfl, _⟩ | ⟨rfl, _⟩
    · simp at hc; subst hc; exact digit_not_space hd
    · simp at hc; subst hc; decide
    · simp at hc; subst hc; decide
  have e2 : ((d :: ds') ++ rest).takeWhile isDigit = d :: ds' := takeWhile_append hds hr
  rw [e1]
  simp only
  have e3 : (ws ++ sg ++ (d :: ds') ++ rest).drop ws.length = sg ++ ((d :: ds') ++ rest) := by
    rw [List.append_assoc, List.append_assoc, List.drop_left]
  rw [e3]
  have hm : ∀ c : UInt8, c = d → c ≠ 45 ∧ c ≠ 43 := by
    rintro c rfl
    constructor <;> (rintro rfl; exact absurd hd (by decide))
  rcases hsg with ⟨rfl, rfl⟩ | ⟨rfl, rfl⟩ | ⟨rfl, rfl⟩
  · have hs : signOf ([] ++ ((d :: ds') ++ rest)) = (false, 0) := by
      simp [signOf, hm d rfl]
    rw [hs]
    simp only [List.drop_zero, List.nil_append]
    rw [e2]
    simp
  · have hs : signOf ([43] ++ ((d :: ds') ++ rest)) = (false, 1) := by simp [signOf]
    rw [hs]
    simp only [List.singleton_append, List.drop_succ_cons, List.drop_zero]
    rw [e2]
    simp
    omega
  · have hs : signOf ([45] ++ ((d :: ds') ++ rest)) = (true, 1) := by simp [signOf]
    rw [hs]
    simp only [List.singleton_append, List.drop_succ_cons, List.drop_zero]
    rw [e2]
    simp
    omega

theorem takeWhile_drop (p : UInt8 → Bool) (l : List UInt8) :
    l.takeWhile p ++ l.drop (l.takeWhile p).length = l := by
  induction l with
  | nil => rfl
  | cons a l ih =>
    rw [List.takeWhile_cons]
    split
    · simpa using ih
    · rfl

theorem mem_takeWhile' {p : UInt8 → Bool} {l : List UInt8} {c : UInt8} (h : c ∈ l.takeWhile p) :
    p c = true := by
  induction l with
  | nil => simp at h
  | cons a l ih =>
    rw [List.takeWhile_cons] at h
    split at h
    · next ha =>
      rcases List.mem_cons.1 h with rfl | h
      · exact ha
      · exact ih h
    · simp at h

theorem head_dropWhile {p : UInt8 → Bool} {l : List UInt8} {c : UInt8}
    (h : (l.drop (l.takeWhile p).length).head? = some c) : p c = false := by
  induction l with
  | nil => simp at h
  | cons a l ih =>
    rw [List.takeWhile_cons] at h
    split at h
    · exact ih (by simpa using h)
    · next ha =>
      simp at h
      subst h
      simpa using ha

/-- What has been read is a number, and it is followed by no digit. -/
theorem strtoNum_some {s : List UInt8} {neg : Bool} {n k : Nat}
    (h : strtoNum s = some (neg, n, k)) :
    k ≤ s.length ∧ IsNum (s.take k) neg n ∧ ∀ c, (s.drop k).head? = some c → isDigit c = false := by
  unfold strtoNum at h
  simp only at h
  generalize hws : s.takeWhile isSpace = ws at h
  have hpre : ws ++ s.drop ws.length = s := by
    rw [← hws]; exact takeWhile_drop _ _
  generalize hs1 : s.drop ws.length = s1 at h hpre
  obtain ⟨sg, hsgl, hcase, hneg⟩ : ∃ sg : List UInt8, s1 = sg ++ s1.drop sg.length ∧
      signOf s1 = (decide (sg = [45]), sg.length) ∧
      (sg = [] ∨ sg = [43] ∨ sg = [45]) := by
    unfold signOf
    split
    · next h =>
      obtain ⟨t, rfl⟩ : ∃ t, s1 = 45 :: t := by cases s1 <;> simp_all
      exact ⟨[45], by simp, by simp, by simp⟩
    · split
      · next h =>
        obtain ⟨t, rfl⟩ : ∃ t, s1 = 43 :: t := by cases s1 <;> simp_all
        exact ⟨[43], by simp, by simp, by simp⟩
      · exact ⟨[], by simp, by simp, by simp⟩
  rw [hcase] at h
  simp only at h
  generalize hds : (s1.drop sg.length).takeWhile isDigit = ds at h
  split at h
  · cases h
  · next hne =>
    simp only [Option.some.injEq, Prod.mk.injEq] at h
    obtain ⟨h1, h2, h3⟩ := h
    have hdt : ds ++ (s1.drop sg.length).drop ds.length = s1.drop sg.length := by
      rw [← hds]; exact takeWhile_drop _ _
    generalize hrest : (s1.drop sg.length).drop ds.length = rest at hdt
    have hfull : s = (ws ++ sg ++ ds) ++ rest := by
      rw [← hpre, hsgl, ← hdt]
      simp
    have hlen : k = (ws ++ sg ++ ds).length := by simp only [List.length_append]; omega
    have htake : s.take k = ws ++ sg ++ ds := by rw [hlen]; conv => lhs; rw [hfull, List.take_left]
    have hdrop : s.drop k = rest := by rw [hlen]; conv => lhs; rw [hfull, List.drop_left]
    refine ⟨?_, ?_, ?_⟩
    · have := congrArg List.length hfull
      simp only [List.length_append] at this hlen
      omega
    · rw [htake]
      refine ⟨ws, sg, ds, rfl, ?_, ?_, hne, ?_, h2.symm⟩
      · intro c hc; rw [← hws] at hc; exact mem_takeWhile' hc
      · rcases hneg with rfl | rfl | rfl
        · exact Or.inl ⟨rfl, by rw [← h1]; rfl⟩
        · exact Or.inr (Or.inl ⟨rfl, by rw [← h1]; rfl⟩)
        · exact Or.inr (Or.inr ⟨rfl, by rw [← h1]; rfl⟩)
      · intro c hc; rw [← hds] at hc; exact mem_takeWhile' hc
    · rw [hdrop, ← hrest]
      intro c hc
      rw [← hds] at hc
      exact head_dropWhile hc

/-- `n` in decimal (`%d` of a number that is not negative, `%u`). -/
def dec (n : Nat) : List UInt8 :=
  if h : n < 10 then [UInt8.ofNat (48 + n)] else dec (n / 10) ++ [UInt8.ofNat (48 + n % 10)]
termination_by n
decreasing_by omega

theorem digit_ofNat {d : Nat} (h : d < 10) :
    isDigit (UInt8.ofNat (48 + d)) = true ∧ (UInt8.ofNat (48 + d)).toNat - 48 = d := by
  have : ∀ d < 10, isDigit (UInt8.ofNat (48 + d)) = true ∧ (UInt8.ofNat (48 + d)).toNat - 48 = d := by
    decide +kernel
  exact this d h

theorem decVal_append (a : List UInt8) (d : UInt8) :
    decVal (a ++ [d]) = decVal a * 10 + (d.toNat - 48) := by
  simp [decVal]

/-- The decimal text of `n` is not empty, has digits only and the value `n`. -/
theorem dec_spec (n : Nat) : dec n ≠ [] ∧ (∀ c ∈ dec n, isDigit c) ∧ decVal (dec n) = n := by
  induction n using Nat.strongRecOn with
  | ind n ih =>
    rw [dec]
    split
    · next h =>
      have := digit_ofNat h
      refine ⟨by simp, ?_, ?_⟩
      · intro c hc; rw [List.mem_singleton] at hc; rw [hc]; exact this.1
      · show 0 * 10 + _ = n
        rw [this.2]; omega
    · next h =>
      obtain ⟨_, h2, h3⟩ := ih (n / 10) (by omega)
      have := digit_ofNat (d := n % 10) (by omega)
      refine ⟨by simp, ?_, ?_⟩
      · intro c hc
        rcases List.mem_append.1 hc with hc | hc
        · exact h2 c hc
        · rw [List.mem_singleton] at hc; rw [hc]; exact this.1
      · rw [decVal_append, h3, this.2]; omega

/-- Conversion to `int`, as on all supported compilers. -/
def toInt32 (n : Nat) : Int :=
  let m := n % W32
  if m < 2147483648 then m else (m : Int) - W32

theorem toInt32_small {n : Nat} (h : n < 2147483648) : toInt32 n = n := by
  unfold toInt32
  simp only
  rw [Nat.mod_eq_of_lt (by omega), if_pos h]

end Verif
