import Verif.Signal.Model

namespace Verif.Signal

open Spec

/-! ## Numerals -/

/-- The numeral of `n` in base `b`. -/
def num (b n : Nat) : List UInt8 :=
  if _h : n < b ∨ b < 2 then [digitChar n] else num b (n / b) ++ [digitChar (n % b)]
termination_by n
decreasing_by
  exact Nat.div_lt_self (by omega) (by omega)
where
  /-- The character of a digit. -/
  digitChar (d : Nat) : UInt8 := if d < 10 then UInt8.ofNat (48 + d) else UInt8.ofNat (87 + d)

theorem digitChar_val {d : Nat} (h : d < 16) : digitVal (num.digitChar d) = some d ∧
    (num.digitChar d = 48 → d = 0) := by
  have : ∀ d < 16, digitVal (num.digitChar d) = some d ∧ (num.digitChar d = 48 → d = 0) := by
    decide +kernel
  exact this d h

theorem num_ne_nil (b n : Nat) : num b n ≠ [] := by
  unfold num; split <;> simp

theorem num_head {b n : Nat} (hb : 2 ≤ b) (hb' : b ≤ 16) : (num b n).head? = some 48 → n = 0 := by
  induction n using Nat.strongRecOn with
  | ind n ih =>
    rw [num]
    split
    · next h =>
      intro h2
      have h2 : num.digitChar n = 48 := by simpa using h2
      exact (digitChar_val (by omega)).2 h2
    · next h =>
      intro h2
      have hlt : n / b < n := Nat.div_lt_self (by omega) (by omega)
      rw [List.head?_append] at h2
      cases hh : (num b (n / b)).head? with
      | none => rw [List.head?_eq_none_iff] at hh; exact absurd hh (num_ne_nil _ _)
      | some c =>
        rw [hh] at h2
        have h0 := ih _ hlt (by rw [hh]; exact h2)
        have := Nat.div_pos (a := n) (b := b) (by omega) (by omega)
        omega

theorem num_spec {b n : Nat} (hb : 2 ≤ b) (hb' : b ≤ 16) : Numeral b (num b n) n := by
  refine ⟨?_, ?_, num_ne_nil b n, ?_⟩
  · induction n using Nat.strongRecOn with
    | ind n ih =>
      rw [num]
      split
      · next h =>
        intro c hc
        rw [List.mem_singleton.1 hc]
        exact ⟨n, by omega, (digitChar_val (by omega)).1⟩
      · next h =>
        intro c hc
        rcases List.mem_append.1 hc with hc | hc
        · exact ih _ (Nat.div_lt_self (by omega) (by omega)) c hc
        · have hm : n % b < b := Nat.mod_lt _ (by omega)
          rw [List.mem_singleton.1 hc]
          exact ⟨n % b, hm, (digitChar_val (by omega)).1⟩
  · induction n using Nat.strongRecOn with
    | ind n ih =>
      rw [num]
      split
      · next h => simp [(digitChar_val (d := n) (by omega)).1]
      · next h =>
        have hm : n % b < b := Nat.mod_lt _ (by omega)
        rw [List.foldl_append, ih _ (Nat.div_lt_self (by omega) (by omega))]
        simp [(digitChar_val (d := n % b) (by omega)).1]
        rw [Nat.mul_comm]
        exact Nat.div_add_mod n b
  · intro h
    have := num_head hb hb' h
    subst this
    rw [num, dif_pos (Or.inl (by omega))]
    rfl

theorem num_length {b : Nat} : ∀ {k n : Nat}, n < b ^ (k + 1) → (num b n).length ≤ k + 1 := by
  intro k
  induction k with
  | zero =>
    intro n h
    rw [num, dif_pos (Or.inl (by simpa using h))]
    simp
  | succ k ih =>
    intro n h
    rw [num]
    split
    · simp
    · rw [List.length_append]
      have := ih (n := n / b) (by
        apply Nat.div_lt_of_lt_mul
        rwa [Nat.pow_succ, Nat.mul_comm] at h)
      simp
      omega

/-- A numeral has only one value. -/
theorem numeral_unique {b n m : Nat} {s : List UInt8} (h : Numeral b s n) (h' : Numeral b s m) : n = m := by
  rw [← h.value, h'.value]

/-- The digits of a number are determined. -/
theorem numeral_num {b n : Nat} {s : List UInt8} (hb : 2 ≤ b) (hb' : b ≤ 16) (h : Numeral b s n) :
    s = num b n := by
  have inj : ∀ c c' d, digitVal c = some d → digitVal c' = some d → c = c' := by
    intro c c' d h1 h2
    unfold digitVal at h1 h2
    apply UInt8.toNat.inj
    simp only [UInt8.le_iff_toNat_le] at h1 h2
    have e1 : (48 : UInt8).toNat = 48 := rfl
    have e2 : (57 : UInt8).toNat = 57 := rfl
    have e3 : (97 : UInt8).toNat = 97 := rfl
    have e4 : (102 : UInt8).toNat = 102 := rfl
    rw [e1, e2, e3, e4] at h1 h2
    split at h1 <;> split at h2 <;> (try split at h1) <;> (try split at h2) <;>
      simp at h1 h2 <;> omega
  suffices key : ∀ (r : List UInt8) (n : Nat), r ≠ [] → Numeral b r.reverse n → r.reverse = num b n by
    have := key s.reverse n (by simpa using h.nonempty) (by rwa [List.reverse_reverse])
    rwa [List.reverse_reverse] at this
  intro r
  induction r with
  | nil => intro n h0 _; exact absurd rfl h0
  | cons c r ih =>
    intro n _ h
    have hv := h.value
    rw [List.reverse_cons, List.foldl_append] at hv
    obtain ⟨d, hd, hcd⟩ := h.digits c (by simp)
    have e : c = num.digitChar d := inj _ _ d hcd (digitChar_val (by omega)).1
    simp only [List.foldl_cons, List.foldl_nil, hcd, Option.getD_some] at hv
    rw [num]
    cases hr : r with
    | nil =>
      subst hr
      simp at hv
      subst hv
      rw [dif_pos (Or.inl hd), e]
      rfl
    | cons c2 r2 =>
      rw [← hr]
      have hr0 : r ≠ [] := by rw [hr]; simp
      have hN : Numeral b r.reverse (r.reverse.foldl (fun a c => a * b + (digitVal c).getD 0) 0) := by
        refine ⟨fun x hx => h.digits x (by simp at hx ⊢; exact Or.inl hx), rfl, by simpa using hr0, ?_⟩
        intro hh
        have h1 : (c :: r).reverse.head? = some 48 := by
          rw [List.reverse_cons, List.head?_append, hh]
          rfl
        have h2 := h.noZero h1
        rw [hr] at h2
        simp at h2
      have ih := ih _ hr0 hN
      generalize r.reverse.foldl (fun a c => a * b + (digitVal c).getD 0) 0 = q at *
      have hq : q ≠ 0 := by
        intro h0
        subst h0
        have : num b 0 = [48] := by rw [num, dif_pos (Or.inl (by omega))]; rfl
        rw [this] at ih
        have h1 : (c :: r).reverse.head? = some 48 := by
          rw [List.reverse_cons, List.head?_append, ih]
          rfl
        have h2 := h.noZero h1
        rw [hr] at h2
        simp at h2
      have hge : b ≤ n := by
        rw [← hv]
        have := Nat.mul_le_mul_right b (Nat.pos_of_ne_zero hq)
        omega
      have hdiv : n / b = q := by
        rw [← hv, Nat.mul_comm q b, Nat.mul_add_div (by omega), Nat.div_eq_of_lt hd]
        omega
      have hmod : n % b = d := by
        rw [← hv, Nat.mul_comm q b, Nat.mul_add_mod, Nat.mod_eq_of_lt hd]
      rw [dif_neg (by omega), hdiv, hmod, ← ih, ← e]
      simp

/-! ## Writing numbers -/

theorem drop_set_self {l : List UInt8} {i : Nat} {c : UInt8} (h : i < l.length) :
    (l.set i c).drop i = c :: l.drop (i + 1) := by
  apply List.ext_getElem?
  intro j
  cases j with
  | zero => simp [h]
  | succ j =>
    rw [List.getElem?_drop, List.getElem?_set, if_neg (by omega), List.getElem?_cons_succ, List.getElem?_drop]
    congr 1
    omega

theorem putBack_eq {dst : List UInt8} {len : Nat} {c : UInt8} (hd : dst.length = 32) (h : len < 32) :
    ∃ dst', putBack dst len c = .ok (dst', len + 1) ∧ dst'.length = 32 ∧
      dst'.drop (32 - (len + 1)) = c :: dst.drop (32 - len) := by
  refine ⟨dst.set (31 - len) c, ?_, by simp [hd], ?_⟩
  · unfold putBack
    rw [if_pos (by omega), wr_lt (by omega)]
    rfl
  · rw [show 32 - (len + 1) = 31 - len by omega, drop_set_self (by omega)]
    rw [show 31 - len + 1 = 32 - len by omega]

theorem numLoop_eq {b : Nat} {digit : Nat → Res UInt8} (hb : 2 ≤ b)
    (hdig : ∀ d < b, digit d = .ok (num.digitChar d)) :
    ∀ {fuel : Nat} {dst : List UInt8} {len u : Nat}, dst.length = 32 →
      len + (num b u).length ≤ 32 → (num b u).length ≤ fuel →
      ∃ dst', numLoop b digit fuel dst len u = .ok (dst', len + (num b u).length) ∧ dst'.length = 32 ∧
        dst'.drop (32 - (len + (num b u).length)) = num b u ++ dst.drop (32 - len) := by
  intro fuel
  induction fuel with
  | zero =>
    intro dst len u _ _ h
    have := List.length_pos_iff.2 (num_ne_nil b u)
    omega
  | succ fuel ih =>
    intro dst len u hd hl hf
    unfold numLoop
    have hm : u % b < b := Nat.mod_lt _ (by omega)
    have hpos := List.length_pos_iff.2 (num_ne_nil b u)
    rw [hdig _ hm, Res.ok_bind]
    obtain ⟨d1, e1, l1, s1⟩ := putBack_eq (c := num.digitChar (u % b)) hd (len := len) (by omega)
    rw [e1, Res.ok_bind]
    simp only
    by_cases hu : u < b
    · have en : num b u = [num.digitChar u] := by rw [num, dif_pos (Or.inl hu)]
      rw [Nat.div_eq_of_lt hu, if_neg (by simp), en]
      rw [Nat.mod_eq_of_lt hu] at s1
      exact ⟨d1, rfl, l1, s1⟩
    · have en : num b u = num b (u / b) ++ [num.digitChar (u % b)] := by
        conv => lhs; rw [num]
        rw [dif_neg (by omega)]
      have hq : u / b ≠ 0 := by
        have := Nat.div_pos (a := u) (b := b) (by omega) (by omega)
        omega
      rw [if_pos hq]
      have el : (num b u).length = (num b (u / b)).length + 1 := by rw [en]; simp
      obtain ⟨d2, e2, l2, s2⟩ := ih (dst := d1) (len := len + 1) (u := u / b) l1 (by omega) (by omega)
      refine ⟨d2, ?_, l2, ?_⟩
      · rw [e2, el]
        congr 2
        omega
      · rw [show len + (num b u).length = len + 1 + (num b (u / b)).length by omega, s2, s1, en]
        simp

/-- A number in the scratch array. -/
theorem dec_eq {dst : List UInt8} {u : Nat} (hd : dst.length = 32) (hu : u < W64) :
    (num 10 u).length ≤ 20 ∧
    ∃ dst', numLoop 10 decDigit 64 dst 0 u = .ok (dst', (num 10 u).length) ∧ dst'.length = 32 ∧
      dst'.drop (32 - (num 10 u).length) = num 10 u := by
  have hl : (num 10 u).length ≤ 19 + 1 := num_length (by
    have : (10 : Nat) ^ (19 + 1) = 100000000000000000000 := by decide
    omega)
  refine ⟨hl, ?_⟩
  obtain ⟨d, e, l, s⟩ := numLoop_eq (b := 10) (digit := decDigit) (dst := dst) (fuel := 64) (len := 0) (u := u)
    (by omega) (by intro d hd; rw [num.digitChar, if_pos hd]; rfl) hd (by omega) (by omega)
  rw [Nat.zero_add] at e s
  refine ⟨d, e, l, ?_⟩
  rw [s, List.drop_of_length_le (by omega), List.append_nil]

theorem hex_eq {dst : List UInt8} {u : Nat} (hd : dst.length = 32) (hu : u < W64) :
    (num 16 u).length ≤ 16 ∧
    ∃ dst', numLoop 16 hexDigit 64 dst 0 u = .ok (dst', (num 16 u).length) ∧ dst'.length = 32 ∧
      dst'.drop (32 - (num 16 u).length) = num 16 u := by
  have hl : (num 16 u).length ≤ 15 + 1 := num_length (by
    have : (16 : Nat) ^ (15 + 1) = W64 := by decide
    omega)
  refine ⟨hl, ?_⟩
  have hdig : ∀ d < 16, hexDigit d = .ok (num.digitChar d) := by decide +kernel
  obtain ⟨d, e, l, s⟩ := numLoop_eq (b := 16) (digit := hexDigit) (dst := dst) (fuel := 64) (len := 0) (u := u)
    (by omega) hdig hd (by omega) (by omega)
  rw [Nat.zero_add] at e s
  refine ⟨d, e, l, ?_⟩
  rw [s, List.drop_of_length_le (by omega), List.append_nil]

/-! ## Conversions -/

/-- What a conversion has to yield. -/
structure Good (o : Out) (x : List UInt8) (pos : Nat) (args : List Arg) : Prop where
  len : o.len = x.length
  text : slice o.src o.p o.len = x
  fits : o.p + o.len ≤ o.src.length
  pos : o.pos = pos
  args : o.args = args
  dst : o.dst.length = 32

theorem good_dst {dst x : List UInt8} {pos : Nat} {args : List Arg} (hl : dst.length = 32)
    (hx : x.length ≤ 32) (h : dst.drop (32 - x.length) = x) :
    Good ⟨dst, 32 - x.length, x.length, pos, args, dst⟩ x pos args := by
  refine ⟨rfl, ?_, ?_, rfl, rfl, hl⟩
  · show slice dst (32 - x.length) x.length = x
    unfold slice
    rw [h]
    exact List.take_of_length_le (Nat.le_refl _)
  · show 32 - x.length + x.length ≤ dst.length
    omega

theorem int32_range (v : Int32) : -2147483648 ≤ v.toInt ∧ v.toInt < 2147483648 :=
  ⟨v.le_toInt, v.toInt_lt⟩

theorem int64_range (v : Int64) : -9223372036854775808 ≤ v.toInt ∧ v.toInt < 9223372036854775808 :=
  ⟨v.le_toInt, v.toInt_lt⟩

theorem number_u {fmt x dst : List UInt8} {orig pos u : Nat} {args args' : List Arg}
    (hr : rd fmt pos = .ok 117) (hg : getUint (pos - orig) args = .ok (u, args')) (hu : u < W64)
    (hx : Numeral 10 x u) (hd : dst.length = 32) :
    ∃ o, number fmt orig pos args dst = .ok (some o) ∧ Good o x (pos + 1) args' := by
  obtain rfl := numeral_num (by omega) (by omega) hx
  obtain ⟨hl, d, e, l, s⟩ := dec_eq hd hu
  unfold number
  rw [hr, Res.ok_bind, if_pos rfl, hg, Res.ok_bind]
  simp only
  rw [e, Res.ok_bind]
  exact ⟨_, rfl, good_dst l (by omega) s⟩

theorem number_d {fmt x dst : List UInt8} {orig pos : Nat} {i : Int} {args args' : List Arg}
    (hr : rd fmt pos = .ok 100) (hg : getInt (pos - orig) args = .ok (i, args'))
    (h1 : -9223372036854775808 < i) (h2 : i < 9223372036854775808) (hx : Signed x i)
    (hd : dst.length = 32) :
    ∃ o, number fmt orig pos args dst = .ok (some o) ∧ Good o x (pos + 1) args' := by
  unfold number
  rw [hr, Res.ok_bind, if_neg (by decide), if_pos rfl, hg, Res.ok_bind]
  simp only
  rcases hx with ⟨h0, hx⟩ | ⟨h0, t, rfl, hx⟩
  · obtain rfl := numeral_num (by omega) (by omega) hx
    obtain ⟨hl, d, e, l, s⟩ := dec_eq (u := i.toNat) hd (by omega)
    rw [if_neg (by omega), Res.ok_bind, e, Res.ok_bind]
    simp only
    rw [if_neg (by omega), Res.ok_bind]
    exact ⟨_, rfl, good_dst l (by omega) s⟩
  · obtain rfl := numeral_num (by omega) (by omega) hx
    obtain ⟨hl, d, e, l, s⟩ := dec_eq (u := (-i).toNat) hd (by omega)
    rw [if_pos h0, if_neg (by omega), Res.ok_bind, e, Res.ok_bind]
    simp only
    rw [if_pos h0]
    obtain ⟨d2, e2, l2, s2⟩ := putBack_eq (dst := d) (len := (num 10 (-i).toNat).length) (c := 45) l (by omega)
    rw [e2, Res.ok_bind]
    rw [s] at s2
    exact ⟨_, rfl, good_dst (x := 45 :: num 10 (-i).toNat) l2 (by simp; omega) (by simpa using s2)⟩

theorem number_none {fmt dst : List UInt8} {orig pos : Nat} {args : List Arg} {c : UInt8}
    (hr : rd fmt pos = .ok c) (h1 : c ≠ 117) (h2 : c ≠ 100) :
    number fmt orig pos args dst = .ok none := by
  unfold number
  rw [hr, Res.ok_bind, if_neg h1, if_neg h2]

theorem conversion_eq {fmt m f x dst : List UInt8} {orig : Nat} {a : Arg} {args : List Arg}
    (h : CStr fmt orig (37 :: m ++ f)) (hc : Conv m a x) (hm : NoMin (a :: args))
    (hd : dst.length = 32) :
    ∃ o, conversion fmt orig (a :: args) dst = .ok (some o) ∧ Good o x (orig + 1 + m.length) args := by
  unfold conversion
  cases hc with
  | @s mem t hs =>
    have r1 : rd fmt (orig + 1) = .ok 115 := h.rd (i := 1) (by simp)
    rw [r1, Res.ok_bind, if_pos rfl]
    simp only [Option.getD_some]
    rw [strlen_eq hs, Res.ok_bind]
    refine ⟨_, rfl, rfl, ?_, ?_, rfl, rfl, hd⟩
    · exact hs.slice
    · have := hs.lt; simp at this ⊢; omega
  | null =>
    have r1 : rd fmt (orig + 1) = .ok 115 := h.rd (i := 1) (by simp)
    have e : strlen [40, 110, 117, 108, 108, 41, 0] 0 = .ok 6 := by decide +kernel
    rw [r1, Res.ok_bind, if_pos rfl]
    simp only [Option.getD_none]
    rw [e, Res.ok_bind]
    exact ⟨_, rfl, rfl, rfl, by simp, rfl, rfl, hd⟩
  | @d v t hx =>
    have r1 : rd fmt (orig + 1) = .ok 100 := h.rd (i := 1) (by simp)
    rw [r1, Res.ok_bind, if_neg (by decide), if_neg (by decide), if_pos (by decide)]
    have hr := int32_range v
    have e : orig + 1 - orig = 1 := by omega
    exact number_d r1 (by rw [e]; rfl) (by omega) (by omega) hx hd
  | @u v t hx =>
    have r1 : rd fmt (orig + 1) = .ok 117 := h.rd (i := 1) (by simp)
    rw [r1, Res.ok_bind, if_neg (by decide), if_neg (by decide), if_pos (by decide)]
    have e : orig + 1 - orig = 1 := by omega
    have := v.toNat_lt
    exact number_u r1 (by rw [e]; rfl) (by omega) hx hd
  | @du v t hv hx =>
    have r1 : rd fmt (orig + 1) = .ok 100 := h.rd (i := 1) (by simp)
    rw [r1, Res.ok_bind, if_neg (by decide), if_neg (by decide), if_pos (by decide)]
    have e : orig + 1 - orig = 1 := by omega
    have hg : getInt 1 (.uint v :: args) = .ok ((v.toNat : Int), args) := by simp only [getInt]; exact if_pos hv
    exact number_d r1 (by rw [e]; exact hg) (by omega) (by omega) (show Spec.Signed _ (v.toNat : Int) from Or.inl ⟨Int.natCast_nonneg _, hx⟩) hd
  | @ldu v t hv hx =>
    have r1 : rd fmt (orig + 1) = .ok 108 := h.rd (i := 1) (by simp)
    have r2 : rd fmt (orig + 2) = .ok 100 := h.rd (i := 2) (by simp)
    rw [r1, Res.ok_bind, if_neg (by decide), if_pos rfl, r2, Res.ok_bind, if_neg (by decide)]
    have e : orig + 2 - orig = 2 := by omega
    have hg : getInt 2 (.ulong v :: args) = .ok ((v.toNat : Int), args) := by simp only [getInt]; exact if_pos hv
    exact number_d r2 (by rw [e]; exact hg) (by omega) (by omega) (show Spec.Signed _ (v.toNat : Int) from Or.inl ⟨Int.natCast_nonneg _, hx⟩) hd
  | @lldu v t hv hx =>
    have r1 : rd fmt (orig + 1) = .ok 108 := h.rd (i := 1) (by simp)
    have r2 : rd fmt (orig + 2) = .ok 108 := h.rd (i := 2) (by simp)
    have r3 : rd fmt (orig + 3) = .ok 100 := h.rd (i := 3) (by simp)
    rw [r1, Res.ok_bind, if_neg (by decide), if_pos rfl, r2, Res.ok_bind, if_pos rfl]
    have e : orig + 3 - orig = 3 := by omega
    have hg : getInt 3 (.ullong v :: args) = .ok ((v.toNat : Int), args) := by simp only [getInt]; exact if_pos hv
    exact number_d r3 (by rw [e]; exact hg) (by omega) (by omega) (show Spec.Signed _ (v.toNat : Int) from Or.inl ⟨Int.natCast_nonneg _, hx⟩) hd
  | @ud v t hv hx =>
    have r1 : rd fmt (orig + 1) = .ok 117 := h.rd (i := 1) (by simp)
    rw [r1, Res.ok_bind, if_neg (by decide), if_neg (by decide), if_pos (by decide)]
    have e : orig + 1 - orig = 1 := by omega
    have hr := int32_range v
    have hg : getUint 1 (.int v :: args) = .ok (v.toInt.toNat, args) := by simp only [getUint]; exact if_pos hv
    exact number_u r1 (by rw [e]; exact hg) (by omega) hx hd
  | @lud v t hv hx =>
    have r1 : rd fmt (orig + 1) = .ok 108 := h.rd (i := 1) (by simp)
    have r2 : rd fmt (orig + 2) = .ok 117 := h.rd (i := 2) (by simp)
    rw [r1, Res.ok_bind, if_neg (by decide), if_pos rfl, r2, Res.ok_bind, if_neg (by decide)]
    have e : orig + 2 - orig = 2 := by omega
    have hr := int64_range v
    have hg : getUint 2 (.long v :: args) = .ok (v.toInt.toNat, args) := by simp only [getUint]; exact if_pos hv
    exact number_u r2 (by rw [e]; exact hg) (by omega) hx hd
  | @llud v t hv hx =>
    have r1 : rd fmt (orig + 1) = .ok 108 := h.rd (i := 1) (by simp)
    have r2 : rd fmt (orig + 2) = .ok 108 := h.rd (i := 2) (by simp)
    have r3 : rd fmt (orig + 3) = .ok 117 := h.rd (i := 3) (by simp)
    rw [r1, Res.ok_bind, if_neg (by decide), if_pos rfl, r2, Res.ok_bind, if_pos rfl]
    have e : orig + 3 - orig = 3 := by omega
    have hr := int64_range v
    have hg : getUint 3 (.llong v :: args) = .ok (v.toInt.toNat, args) := by simp only [getUint]; exact if_pos hv
    exact number_u r3 (by rw [e]; exact hg) (by omega) hx hd
  | @ld v t hx =>
    have r1 : rd fmt (orig + 1) = .ok 108 := h.rd (i := 1) (by simp)
    have r2 : rd fmt (orig + 2) = .ok 100 := h.rd (i := 2) (by simp)
    rw [r1, Res.ok_bind, if_neg (by decide), if_pos rfl, r2, Res.ok_bind, if_neg (by decide)]
    have hr := int64_range v
    have hne : v.toInt ≠ -9223372036854775808 := fun h => (hm v h).1 (by simp)
    have e : orig + 2 - orig = 2 := by omega
    exact number_d r2 (by rw [e]; rfl) (by omega) (by omega) hx hd
  | @lu v t hx =>
    have r1 : rd fmt (orig + 1) = .ok 108 := h.rd (i := 1) (by simp)
    have r2 : rd fmt (orig + 2) = .ok 117 := h.rd (i := 2) (by simp)
    rw [r1, Res.ok_bind, if_neg (by decide), if_pos rfl, r2, Res.ok_bind, if_neg (by decide)]
    have := v.toNat_lt
    have e : orig + 2 - orig = 2 := by omega
    exact number_u r2 (by rw [e]; rfl) (by omega) hx hd
  | @lld v t hx =>
    have r1 : rd fmt (orig + 1) = .ok 108 := h.rd (i := 1) (by simp)
    have r2 : rd fmt (orig + 2) = .ok 108 := h.rd (i := 2) (by simp)
    have r3 : rd fmt (orig + 3) = .ok 100 := h.rd (i := 3) (by simp)
    rw [r1, Res.ok_bind, if_neg (by decide), if_pos rfl, r2, Res.ok_bind, if_pos rfl]
    have hr := int64_range v
    have hne : v.toInt ≠ -9223372036854775808 := fun h => (hm v h).2 (by simp)
    have e : orig + 3 - orig = 3 := by omega
    exact number_d r3 (by rw [e]; rfl) (by omega) (by omega) hx hd
  | @llu v t hx =>
    have r1 : rd fmt (orig + 1) = .ok 108 := h.rd (i := 1) (by simp)
    have r2 : rd fmt (orig + 2) = .ok 108 := h.rd (i := 2) (by simp)
    have r3 : rd fmt (orig + 3) = .ok 117 := h.rd (i := 3) (by simp)
    rw [r1, Res.ok_bind, if_neg (by decide), if_pos rfl, r2, Res.ok_bind, if_pos rfl]
    have := v.toNat_lt
    have e : orig + 3 - orig = 3 := by omega
    exact number_u r3 (by rw [e]; rfl) (by omega) hx hd
  | @p v t hx =>
    have r1 : rd fmt (orig + 1) = .ok 112 := h.rd (i := 1) (by simp)
    rw [r1, Res.ok_bind, if_neg (by decide), if_neg (by decide), if_neg (by decide), if_pos rfl]
    obtain rfl := numeral_num (by omega) (by omega) hx
    have := v.toNat_lt
    obtain ⟨hl, d, e, l, s⟩ := hex_eq (u := v.toNat) hd (by omega)
    obtain ⟨d2, e2, l2, s2⟩ := putBack_eq (dst := d) (len := (num 16 v.toNat).length) (c := 120) l (by omega)
    obtain ⟨d3, e3, l3, s3⟩ := putBack_eq (dst := d2) (len := (num 16 v.toNat).length + 1) (c := 48) l2 (by omega)
    simp only [getUint, e, e2, e3, Res.ok_bind]
    rw [s2, s] at s3
    exact ⟨_, rfl, good_dst (x := 48 :: 120 :: num 16 v.toNat) l3 (by simp; omega) (by simpa using s3)⟩

theorem conversion_percent {fmt f dst : List UInt8} {orig : Nat} {args : List Arg}
    (h : CStr fmt orig (37 :: 37 :: f)) (hd : dst.length = 32) :
    ∃ o, conversion fmt orig args dst = .ok (some o) ∧ Good o [37] (orig + 2) args := by
  have r1 : rd fmt (orig + 1) = .ok 37 := h.rd (i := 1) (by simp)
  unfold conversion
  rw [r1, Res.ok_bind, if_neg (by decide), if_neg (by decide), if_neg (by decide), if_neg (by decide),
    if_pos rfl]
  exact ⟨_, rfl, rfl, rfl, by simp, rfl, rfl, hd⟩

theorem conversion_bad {fmt f dst : List UInt8} {orig : Nat} {args : List Arg}
    (h : CStr fmt orig (37 :: f)) (hf : ∀ m ∈ letters, ¬ m <+: f) :
    conversion fmt orig args dst = .ok none := by
  have n1 := hf [37] (by decide)
  have n2 := hf [115] (by decide)
  have n3 := hf [100] (by decide)
  have n4 := hf [108, 100] (by decide)
  have n5 := hf [108, 108, 100] (by decide)
  have n6 := hf [117] (by decide)
  have n7 := hf [108, 117] (by decide)
  have n8 := hf [108, 108, 117] (by decide)
  have n9 := hf [112] (by decide)
  unfold conversion
  cases f with
  | nil =>
    have r1 : rd fmt (orig + 1) = .ok 0 := h.rd (i := 1) (by simp)
    rw [r1, Res.ok_bind]
    rfl
  | cons c f =>
    have r1 : rd fmt (orig + 1) = .ok c := h.rd (i := 1) (by simp)
    rw [r1, Res.ok_bind]
    have c1 : c ≠ 37 := by rintro rfl; exact n1 ⟨f, rfl⟩
    have c2 : c ≠ 115 := by rintro rfl; exact n2 ⟨f, rfl⟩
    have c3 : c ≠ 100 := by rintro rfl; exact n3 ⟨f, rfl⟩
    have c6 : c ≠ 117 := by rintro rfl; exact n6 ⟨f, rfl⟩
    have c9 : c ≠ 112 := by rintro rfl; exact n9 ⟨f, rfl⟩
    by_cases hl : c = 108
    · subst hl
      rw [if_neg (by decide), if_pos rfl]
      cases f with
      | nil =>
        have r2 : rd fmt (orig + 2) = .ok 0 := h.rd (i := 2) (by simp)
        rw [r2, Res.ok_bind, if_neg (by decide)]
        exact number_none r2 (by decide) (by decide)
      | cons c f =>
        have r2 : rd fmt (orig + 2) = .ok c := h.rd (i := 2) (by simp)
        have d1 : c ≠ 100 := by rintro rfl; exact n4 ⟨f, rfl⟩
        have d2 : c ≠ 117 := by rintro rfl; exact n7 ⟨f, rfl⟩
        rw [r2, Res.ok_bind]
        by_cases hl2 : c = 108
        · subst hl2
          rw [if_pos rfl]
          cases f with
          | nil =>
            have r3 : rd fmt (orig + 3) = .ok 0 := h.rd (i := 3) (by simp)
            exact number_none r3 (by decide) (by decide)
          | cons c f =>
            have r3 : rd fmt (orig + 3) = .ok c := h.rd (i := 3) (by simp)
            exact number_none r3 (by rintro rfl; exact n8 ⟨f, rfl⟩) (by rintro rfl; exact n5 ⟨f, rfl⟩)
        · rw [if_neg hl2]
          exact number_none r2 d2 d1
    · rw [if_neg c2, if_neg hl, if_neg (by rintro (h | h) <;> contradiction), if_neg c9, if_neg c1]

/-! ## The loop -/

theorem textEnd_eq {fmt : List UInt8} {a b : List UInt8} (hb : ∀ c, b.head? = some c → c = 37) :
    ∀ {fuel pos : Nat}, CStr fmt pos (a ++ b) → 37 ∉ a → a.length < fuel →
      textEnd fmt fuel pos = .ok (pos + a.length) := by
  induction a with
  | nil =>
    intro fuel pos h _ hf
    obtain ⟨fuel, rfl⟩ : ∃ k, fuel = k + 1 := ⟨fuel - 1, by simp at hf; omega⟩
    have r := h.rd (i := 0) (by simp)
    unfold textEnd
    rw [Nat.add_zero] at r
    rw [r, Res.ok_bind]
    cases b with
    | nil => simp
    | cons c b => simp [hb c rfl]
  | cons c a ih =>
    intro fuel pos h ha hf
    obtain ⟨fuel, rfl⟩ : ∃ k, fuel = k + 1 := ⟨fuel - 1, by simp at hf; omega⟩
    have r := h.rd (i := 0) (by simp)
    unfold textEnd
    rw [Nat.add_zero] at r
    rw [r, Res.ok_bind]
    have h0 : c ≠ 0 := h.nonzero c (by simp)
    simp only [List.cons_append, List.getElem?_cons_zero, Option.getD_some]
    rw [if_pos ⟨h0, fun e => ha (by simp [e])⟩, ih (pos := pos + 1) (h.suffix (a := [c])) (by simp at ha; exact ha.2) (by simpa using hf)]
    congr 1
    simp
    omega

theorem fmtLoop_step {fmt buf dst x : List UInt8} {fuel out cap pos pos' : Nat} {args args' : List Arg}
    {c : UInt8} {o : Out} (hr : rd fmt pos = .ok c) (hc : c ≠ 0)
    (ho : (if c = 37 then conversion fmt pos args dst
        else do
          let e ← textEnd fmt (fmt.length + 1) pos
          .ok (some ⟨fmt, pos, e - pos, e, args, dst⟩)) = .ok (some o))
    (hg : Good o x pos' args') (hcap : out + cap ≤ buf.length) :
    fmtLoop fmt (fuel + 1) buf out cap pos args dst =
      fmtLoop fmt fuel (splice buf out (x.take cap)) (out + (x.take cap).length)
        (cap - (x.take cap).length) pos' args' o.dst := by
  have hlen : (if o.len < cap then o.len else cap) = (x.take cap).length := by
    rw [hg.len, List.length_take]
    split <;> omega
  have hle : (x.take cap).length ≤ o.len := by rw [hg.len, List.length_take]; omega
  have hle2 : (x.take cap).length ≤ cap := by rw [List.length_take]; omega
  have hfit := hg.fits
  conv => lhs; unfold fmtLoop
  rw [hr, Res.ok_bind, if_neg hc, ho, Res.ok_bind]
  simp only
  rw [hlen, memcpy_ok (by omega) (by omega), Res.ok_bind, hg.pos, hg.args]
  congr 2
  rw [List.length_take]
  have e : slice o.src o.p (min cap x.length) = (slice o.src o.p o.len).take (min cap x.length) := by
    unfold slice
    rw [List.take_take, hg.len]
    congr 1
    omega
  rw [e, hg.text, List.take_eq_take_iff]
  omega

theorem splice_append {buf a b : List UInt8} {d : Nat} (h : d + a.length + b.length ≤ buf.length) :
    splice (splice buf d a) (d + a.length) b = splice buf d (a ++ b) := by
  apply List.ext_getElem?
  intro i
  rw [splice_getElem? (by rw [length_splice (by omega)]; omega), splice_getElem? (by omega),
    splice_getElem? (by simp; omega)]
  rw [List.getElem?_append, List.length_append]
  grind

/-- A format that begins with text renders to that text first. -/
theorem Renders.text {a b : List UInt8} {args : List Arg} {t : List UInt8} (ha : 37 ∉ a)
    (h : Renders (a ++ b) args t) : ∃ t', t = a ++ t' ∧ Renders b args t' := by
  induction a generalizing t with
  | nil => exact ⟨t, rfl, h⟩
  | cons c a ih =>
    have hc : c ≠ 37 := fun e => ha (by simp [e])
    generalize hff : c :: a ++ b = ff at h
    cases h with
    | nil => simp at hff
    | char _ h =>
      simp at hff
      obtain ⟨rfl, rfl⟩ := hff
      obtain ⟨t', rfl, h'⟩ := ih (by simp at ha; exact ha.2) h
      exact ⟨t', rfl, h'⟩
    | percent => simp at hff; exact absurd hff.1 hc
    | conv => simp at hff; exact absurd hff.1 hc

theorem Unsupported.text {a b : List UInt8} {args : List Arg} (ha : 37 ∉ a)
    (h : Unsupported (a ++ b) args) : Unsupported b args := by
  induction a with
  | nil => exact h
  | cons c a ih =>
    have hc : c ≠ 37 := fun e => ha (by simp [e])
    generalize hff : c :: a ++ b = ff at h
    cases h with
    | here => simp at hff; exact absurd hff.1 hc
    | char _ h =>
      simp at hff
      obtain ⟨rfl, rfl⟩ := hff
      exact ih (by simp at ha; exact ha.2) h
    | percent => simp at hff; exact absurd hff.1 hc
    | conv => simp at hff; exact absurd hff.1 hc

theorem noMin_tail {a : Arg} {args : List Arg} (h : NoMin (a :: args)) : NoMin args := by
  intro v hv
  have := h v hv
  simp at this
  exact ⟨this.1.2, this.2.2⟩

/-- The first piece of text of a format. -/
theorem text_step {fmt f buf dst : List UInt8} {fuel out cap pos : Nat} {args : List Arg} {c : UInt8}
    (h : CStr fmt pos (c :: f)) (hc : c ≠ 37) (hd : dst.length = 32) (hcap : out + cap ≤ buf.length) :
    ∃ a b, c :: f = a ++ b ∧ 37 ∉ a ∧ a ≠ [] ∧ CStr fmt (pos + a.length) b ∧
      fmtLoop fmt (fuel + 1) buf out cap pos args dst =
        fmtLoop fmt fuel (splice buf out (a.take cap)) (out + (a.take cap).length)
          (cap - (a.take cap).length) (pos + a.length) args dst := by
  obtain ⟨a, b, e, ha, hb⟩ := split_set [37] (c :: f)
  have ha' : 37 ∉ a := fun hm => ha 37 hm (by simp)
  have hb' : ∀ c, b.head? = some c → c = 37 := fun c hc => by simpa using hb c hc
  have hne : a ≠ [] := by
    rintro rfl
    rw [List.nil_append] at e
    exact hc (hb' c (by rw [← e]; rfl))
  have hs : CStr fmt pos (a ++ b) := e ▸ h
  have hlt := hs.lt
  rw [List.length_append] at hlt
  have ht := textEnd_eq hb' (fuel := fmt.length + 1) hs ha' (by omega)
  have r := h.rd (i := 0) (by simp)
  rw [Nat.add_zero] at r
  refine ⟨a, b, e, ha', hne, hs.suffix, ?_⟩
  have := fmtLoop_step (x := a) (pos' := pos + a.length) (args' := args) (fuel := fuel) (dst := dst)
    (args := args) (o := ⟨fmt, pos, pos + a.length - pos, pos + a.length, args, dst⟩) r
    (h.nonzero c (by simp)) (by
      simp only [List.getElem?_cons_zero, Option.getD_some]
      rw [if_neg hc, ht]; rfl)
    ⟨by simp, by
        show slice fmt pos (pos + a.length - pos) = a
        have := hs.slice
        rw [Nat.add_sub_cancel_left]
        have e2 : slice fmt pos a.length = (slice fmt pos (a ++ b).length).take a.length := by
          unfold slice
          rw [List.take_take, List.length_append, Nat.min_eq_left (by omega)]
        rw [e2, this]
        simp, by
        show pos + (pos + a.length - pos) ≤ fmt.length
        omega, rfl, rfl, hd⟩ hcap
  exact this

theorem fmtLoop_eq {fmt : List UInt8} : ∀ {fuel : Nat} {f buf dst t : List UInt8} {out cap pos : Nat}
    {args : List Arg}, CStr fmt pos f → Renders f args t → NoMin args → dst.length = 32 →
    out + cap < buf.length → out + cap < 2147483648 → f.length < fuel →
    fmtLoop fmt fuel buf out cap pos args dst =
      .ok (splice buf out (t.take cap ++ [0]), (out + (t.take cap).length : Nat)) := by
  intro fuel
  induction fuel with
  | zero => intro f buf dst t out cap pos args _ _ _ _ _ _ h; omega
  | succ fuel ih =>
    intro f buf dst t out cap pos args h hr hm hd hcap h31 hf
    -- after a piece `x` the rest follows
    have next : ∀ {x t' f' dst' : List UInt8} {args' : List Arg} {pos' : Nat}, t = x ++ t' →
        CStr fmt pos' f' → Renders f' args' t' → NoMin args' → dst'.length = 32 → f'.length < fuel →
        fmtLoop fmt fuel (splice buf out (x.take cap)) (out + (x.take cap).length)
          (cap - (x.take cap).length) pos' args' dst' =
        .ok (splice buf out (t.take cap ++ [0]), (out + (t.take cap).length : Nat)) := by
      intro x t' f' dst' args' pos' e hs hr hm hd hf
      have hl : (x.take cap).length ≤ cap := by rw [List.length_take]; omega
      rw [ih hs hr hm hd (by rw [length_splice (by omega)]; omega) (by omega) hf]
      have ht : t.take cap = x.take cap ++ t'.take (cap - (x.take cap).length) := by
        rw [e, List.take_append, List.length_take]
        congr 2
        omega
      rw [ht, splice_append (by simp; omega), List.append_assoc, List.length_append, Nat.add_assoc]
    cases f with
    | nil =>
      cases hr
      have r : rd fmt pos = .ok 0 := h.rd (i := 0) (by simp)
      unfold fmtLoop
      rw [r, Res.ok_bind, if_pos rfl, wr_lt (by omega), Res.ok_bind, toInt32_small (by omega)]
      congr 2
      · apply List.ext_getElem?
        intro i
        rw [splice_getElem? (by simp; omega), List.getElem?_set]
        simp
        grind
      · simp
    | cons c f =>
      by_cases hc : c = 37
      · subst hc
        have r := h.rd (i := 0) (by simp)
        rw [Nat.add_zero] at r
        simp only [List.getElem?_cons_zero, Option.getD_some] at r
        generalize hff : (37 :: f) = ff at hr
        cases hr with
        | nil => simp at hff
        | char h2 => simp at hff; exact absurd hff.1.symm h2
        | percent hr =>
          simp at hff
          subst hff
          obtain ⟨o, e, hg⟩ := conversion_percent (args := args) h hd
          rw [fmtLoop_step r (by decide) (by rw [if_pos rfl]; exact e) hg (by omega)]
          exact next rfl (h.suffix (a := [37, 37])) hr hm hg.dst (by simp at hf; omega)
        | @conv m f' a args x t' hcv hr =>
          simp at hff
          subst hff
          obtain ⟨o, e, hg⟩ := conversion_eq (args := args) (m := m) (f := f') h hcv hm hd
          rw [fmtLoop_step r (by decide) (by rw [if_pos rfl]; exact e) hg (by omega)]
          have hs := CStr.suffix (a := 37 :: m) (b := f') (by simpa using h)
          refine next rfl (by simpa [Nat.add_assoc, Nat.add_comm 1] using hs) hr (noMin_tail hm) hg.dst ?_
          simp at hf
          omega
      · obtain ⟨a, b, e, ha, hne, hs, hstep⟩ := text_step (args := args) (fuel := fuel) h hc hd (by omega : out + cap ≤ buf.length)
        rw [hstep]
        rw [e] at hr
        obtain ⟨t', rfl, hr'⟩ := Renders.text ha hr
        have := congrArg List.length e
        have := List.length_pos_iff.2 hne
        exact next rfl hs hr' hm hd (by simp at *; omega)

theorem fmtLoop_bad {fmt : List UInt8} : ∀ {fuel : Nat} {f buf dst : List UInt8} {out cap pos : Nat}
    {args : List Arg}, CStr fmt pos f → Unsupported f args → NoMin args → dst.length = 32 →
    out + cap < buf.length → f.length < fuel →
    ∃ buf', fmtLoop fmt fuel buf out cap pos args dst = .ok (buf', -1) ∧ buf'.length = buf.length ∧
      ∀ i, out + cap ≤ i → buf'[i]? = buf[i]? := by
  intro fuel
  induction fuel with
  | zero => intro f buf dst out cap pos args _ _ _ _ _ h; omega
  | succ fuel ih =>
    intro f buf dst out cap pos args h hr hm hd hcap hf
    have next : ∀ {x f' dst' : List UInt8} {args' : List Arg} {pos' : Nat},
        CStr fmt pos' f' → Unsupported f' args' → NoMin args' → dst'.length = 32 → f'.length < fuel →
        ∃ buf', fmtLoop fmt fuel (splice buf out (x.take cap)) (out + (x.take cap).length)
          (cap - (x.take cap).length) pos' args' dst' = .ok (buf', -1) ∧ buf'.length = buf.length ∧
          ∀ i, out + cap ≤ i → buf'[i]? = buf[i]? := by
      intro x f' dst' args' pos' hs hr hm hd hf
      have hl : (x.take cap).length ≤ cap := by rw [List.length_take]; omega
      have hsl : (splice buf out (x.take cap)).length = buf.length := length_splice (by omega)
      obtain ⟨buf', e, hl', hfr⟩ := ih (buf := splice buf out (x.take cap))
        (out := out + (x.take cap).length) (cap := cap - (x.take cap).length) hs hr hm hd (by omega) hf
      refine ⟨buf', e, by omega, ?_⟩
      intro i hi
      rw [hfr i (by omega), splice_getElem? (by omega), if_neg (by omega), if_neg (by omega)]
    cases f with
    | nil => cases hr
    | cons c f =>
      by_cases hc : c = 37
      · subst hc
        have r := h.rd (i := 0) (by simp)
        rw [Nat.add_zero] at r
        simp only [List.getElem?_cons_zero, Option.getD_some] at r
        generalize hff : (37 :: f) = ff at hr
        cases hr with
        | here hn =>
          simp at hff
          subst hff
          refine ⟨buf, ?_, rfl, fun _ _ => rfl⟩
          unfold fmtLoop
          rw [r, Res.ok_bind, if_neg (by decide), if_pos rfl, conversion_bad h hn]
          rfl
        | char h2 => simp at hff; exact absurd hff.1.symm h2
        | percent hr =>
          simp at hff
          subst hff
          obtain ⟨o, e, hg⟩ := conversion_percent (args := args) h hd
          rw [fmtLoop_step r (by decide) (by rw [if_pos rfl]; exact e) hg (by omega)]
          exact next (h.suffix (a := [37, 37])) hr hm hg.dst (by simp at hf; omega)
        | @conv m f' a args x hcv hr =>
          simp at hff
          subst hff
          obtain ⟨o, e, hg⟩ := conversion_eq (args := args) (m := m) (f := f') h hcv hm hd
          rw [fmtLoop_step r (by decide) (by rw [if_pos rfl]; exact e) hg (by omega)]
          have hs := CStr.suffix (a := 37 :: m) (b := f') (by simpa using h)
          refine next (by simpa [Nat.add_assoc, Nat.add_comm 1] using hs) hr (noMin_tail hm) hg.dst ?_
          simp at hf
          omega
      · obtain ⟨a, b, e, ha, hne, hs, hstep⟩ := text_step (args := args) (fuel := fuel) h hc hd (by omega : out + cap ≤ buf.length)
        rw [hstep]
        rw [e] at hr
        have := congrArg List.length e
        have := List.length_pos_iff.2 hne
        exact next hs (Unsupported.text ha hr) hm hd (by simp at *; omega)

end Verif.Signal
