import Verif.Sc.Model
import Verif.Sc.Spec
import Verif.Bits

namespace Verif.Sc

open Spec

/-! ## Random numbers -/

/-- The model's state is the generator `g`. -/
structure Rel (r : Rand) (S : Table) (i j : UInt8) : Prop where
  i : r.i = i
  j : r.j = j
  len : r.tab.length = 256
  tab : ∀ x : UInt8, r.tab[x.toNat]? = some (S x)

theorem Rel.rd {r : Rand} {S : Table} {i j : UInt8} (h : Rel r S i j) (x : UInt8) :
    rd r.tab x.toNat = .ok (S x) := rd_eq_ok.2 (h.tab x)

theorem toNat_lt (x : UInt8) : x.toNat < 256 := x.toNat_lt

theorem swap_tab {l : List UInt8} {S : Table} (hl : l.length = 256)
    (h : ∀ x : UInt8, l[x.toNat]? = some (S x)) (a b : UInt8) :
    ((l.set b.toNat (S a)).set a.toNat (S b)).length = 256 ∧
    ∀ x : UInt8, ((l.set b.toNat (S a)).set a.toNat (S b))[x.toNat]? = some (swap S a b x) := by
  refine ⟨by simp [hl], ?_⟩
  intro x
  have hx := toNat_lt x
  rw [List.getElem?_set]
  unfold swap
  by_cases h1 : x = a
  · subst h1
    simp [hl, hx]
  · have h1' : a.toNat ≠ x.toNat := fun e => h1 (UInt8.toNat_inj.1 e).symm
    rw [if_neg h1', List.getElem?_set, if_neg h1]
    by_cases h2 : x = b
    · subst h2
      simp [hl, hx]
    · have h2' : b.toNat ≠ x.toNat := fun e => h2 (UInt8.toNat_inj.1 e).symm
      rw [if_neg h2', if_neg h2]
      exact h x

theorem swap_perm {l : List UInt8} {S : Table} (hl : l.length = 256)
    (h : ∀ x : UInt8, l[x.toNat]? = some (S x)) (a b : UInt8) :
    ((l.set b.toNat (S a)).set a.toNat (S b)).Perm l := by
  have ha : a.toNat < l.length := by rw [hl]; exact toNat_lt a
  have hb : b.toNat < l.length := by rw [hl]; exact toNat_lt b
  have e1 : l[a.toNat] = S a := by have := h a; rw [List.getElem?_eq_getElem ha] at this; simpa using this
  have e2 : l[b.toNat] = S b := by have := h b; rw [List.getElem?_eq_getElem hb] at this; simpa using this
  rw [← e1, ← e2]
  exact List.set_set_perm hb ha

theorem initLoop_eq {seed : List UInt8} {key : Table} (hk : ∀ x : UInt8, seed[x.toNat]? = some (key x)) :
    ∀ (n i : Nat) (r : Rand) (S : Table) (i0 j : UInt8), i + n = 256 → Rel r S i0 j →
    ∃ r', initLoop seed n i r = .ok r' ∧ r'.tab.Perm r.tab ∧
      Rel r' (schedule key ((List.range' i n).map UInt8.ofNat) (S, j)).1 i0
        (schedule key ((List.range' i n).map UInt8.ofNat) (S, j)).2 := by
  intro n
  induction n with
  | zero => intro i r S i0 j _ h; exact ⟨r, rfl, List.Perm.refl _, h⟩
  | succ n ih =>
    intro i r S i0 j hi h
    have hi' : i < 256 := by omega
    have e : (UInt8.ofNat i).toNat = i := by simp; omega
    unfold initLoop
    have r1 : rd r.tab i = .ok (S (UInt8.ofNat i)) := by have := h.rd (UInt8.ofNat i); rwa [e] at this
    have r2 : rd seed i = .ok (key (UInt8.ofNat i)) := by
      have := hk (UInt8.ofNat i); rw [e] at this; exact rd_eq_ok.2 this
    have hj := h.j
    subst hj
    rw [r1, Res.ok_bind, r2, Res.ok_bind]
    simp only
    rw [h.rd, Res.ok_bind, Res.ok_bind, wr_lt (by rw [h.len]; exact toNat_lt _), Res.ok_bind,
      wr_lt (by rw [List.length_set, h.len]; exact hi'), Res.ok_bind]
    have hs := swap_tab h.len h.tab (UInt8.ofNat i) (r.j + (S (UInt8.ofNat i) + key (UInt8.ofNat i)))
    have hp := swap_perm h.len h.tab (UInt8.ofNat i) (r.j + (S (UInt8.ofNat i) + key (UInt8.ofNat i)))
    rw [e] at hs hp
    obtain ⟨r', h1, h2, h3⟩ := ih (i + 1) _ _ i0 _ (by omega) (Rel.mk (r := { r with
      j := r.j + (S (UInt8.ofNat i) + key (UInt8.ofNat i))
      tab := (r.tab.set (r.j + (S (UInt8.ofNat i) + key (UInt8.ofNat i))).toNat (S (UInt8.ofNat i))).set i
        (S (r.j + (S (UInt8.ofNat i) + key (UInt8.ofNat i)))) }) h.i rfl hs.1 hs.2)
    refine ⟨r', h1, h2.trans hp, ?_⟩
    rw [List.range'_succ, List.map_cons]
    exact h3

theorem memcpy_full {n : Nat} {seed : List UInt8} (h : n ≤ seed.length) :
    memcpy (List.replicate n (0 : UInt8)) 0 seed 0 n = .ok (seed.take n) := by
  rw [memcpy_ok (by simp) (by omega)]
  congr 1
  simp [splice, slice]
  omega

theorem randInit_eq {seed : List UInt8} (h : 256 ≤ seed.length) :
    ∃ r, randInit seed = .ok r ∧ r.tab.Perm (seed.take 256) ∧
      Rel r (generator (table seed)).S 0 (generator (table seed)).j := by
  have hk : ∀ x : UInt8, seed[x.toNat]? = some (table seed x) := by
    intro x
    have := toNat_lt x
    unfold table
    rw [List.getElem?_eq_getElem (by omega)]; rfl
  have hm : memcpy (List.replicate 256 (0 : UInt8)) 0 seed 0 256 = .ok (seed.take 256) := by
    exact memcpy_full h
  have h0 : Rel ⟨0, 0, seed.take 256⟩ (table seed) 0 0 := by
    refine ⟨rfl, rfl, by rw [List.length_take]; omega, ?_⟩
    intro x
    rw [List.getElem?_take_of_lt (toNat_lt x)]
    exact hk x
  obtain ⟨r, h1, h2, h3⟩ := initLoop_eq hk 256 0 _ _ _ _ rfl h0
  refine ⟨r, ?_, h2, ?_⟩
  · unfold randInit
    rw [hm, Res.ok_bind]
    exact h1
  · rw [← List.range_eq_range'] at h3
    exact h3

theorem randByte_eq {r : Rand} {g : Gen} (h : Rel r g.S g.i g.j) :
    ∃ r', randByte r = .ok (r', g.next.out) ∧ r'.tab.Perm r.tab ∧
      Rel r' g.next.S g.next.i g.next.j := by
  have hi := h.i
  have hj := h.j
  unfold randByte
  simp only
  rw [hi, hj, h.rd, Res.ok_bind, h.rd, Res.ok_bind,
    wr_lt (by rw [h.len]; exact toNat_lt _), Res.ok_bind,
    wr_lt (by rw [List.length_set, h.len]; exact toNat_lt _), Res.ok_bind]
  have hs := swap_tab h.len h.tab (g.j + g.S (g.i + 1)) (g.i + 1)
  have hp := swap_perm h.len h.tab (g.j + g.S (g.i + 1)) (g.i + 1)
  have hsw : swap g.S (g.j + g.S (g.i + 1)) (g.i + 1) = g.next.S := by
    funext x
    show _ = swap g.S (g.i + 1) (g.j + g.S (g.i + 1)) x
    unfold swap
    by_cases h1 : x = g.j + g.S (g.i + 1)
    · rw [if_pos h1]
      by_cases h2 : x = g.i + 1
      · rw [if_pos h2, ← h1, ← h2]
      · rw [if_neg h2, if_pos h1]
    · rw [if_neg h1, if_neg h1]
  rw [hsw] at hs
  generalize hT : (r.tab.set (g.i + 1).toNat (g.S (g.j + g.S (g.i + 1)))).set
    (g.j + g.S (g.i + 1)).toNat (g.S (g.i + 1)) = T at hs hp
  have r1 : ∀ x : UInt8, rd T x.toNat = .ok (g.next.S x) := fun x => rd_eq_ok.2 (hs.2 x)
  rw [r1, Res.ok_bind, r1, Res.ok_bind]
  have hout : g.S (g.i + 1) + g.next.S (g.i + 1) = g.next.S g.next.i + g.next.S g.next.j := by
    have e1 : g.next.S g.next.j = g.S (g.i + 1) := by
      show swap g.S (g.i + 1) (g.j + g.S (g.i + 1)) (g.j + g.S (g.i + 1)) = _
      unfold swap
      split
      · next h => rw [h]
      · simp
    rw [e1]
    exact UInt8.add_comm _ _
  rw [hout]
  exact ⟨_, rfl, hp, rfl, rfl, hs.1, hs.2⟩

theorem after_succ' (g : Gen) (n : Nat) : g.after (n + 1) = g.next.after n := by
  induction n with
  | zero => rfl
  | succ n ih => rw [Gen.after, ih]; rfl

theorem after_add (g : Gen) (m n : Nat) : g.after (m + n) = (g.after m).after n := by
  induction n with
  | zero => rfl
  | succ n ih => rw [← Nat.add_assoc, Gen.after, ih]; rfl

theorem stream_after (g : Gen) (m n : Nat) : (g.after m).stream n = g.stream (m + n) := by
  unfold Gen.stream
  rw [← after_add, Nat.add_assoc]

/-- `n` bytes, one after another -/
def readLoop : (n p : Nat) → Rand → List UInt8 → Res (Rand × List UInt8)
  | 0, _, r, buf => .ok (r, buf)
  | n + 1, p, r, buf => do
    let (r, b) ← randByte r
    let buf ← wr buf p b
    readLoop n (p + 1) r buf

theorem readDo_eq : ∀ (n p : Nat) (r : Rand) (buf : List UInt8),
    readDo (n + 1) ((n + 1 : Nat) : Int) p r buf = readLoop (n + 1) p r buf := by
  intro n
  induction n with
  | zero =>
    intro p r buf
    unfold readDo readLoop
    rfl
  | succ n ih =>
    intro p r buf
    unfold readDo readLoop
    cases randByte r with
    | ub => rfl
    | ok x =>
      rw [Res.ok_bind, Res.ok_bind]
      cases hw : wr buf p x.2 with
      | ub => simp only [hw, Res.ub_bind]
      | ok b =>
        simp only [hw, Res.ok_bind]
        rw [if_neg (by omega), show ((n + 1 + 1 : Nat) : Int) - 1 = ((n + 1 : Nat) : Int) by omega]
        exact ih (p + 1) x.1 b

theorem readLoop_eq : ∀ (n p : Nat) (r : Rand) (g : Gen) (buf : List UInt8), p + n ≤ buf.length →
    Rel r g.S g.i g.j → ∃ r', readLoop n p r buf =
        .ok (r', splice buf p ((List.range n).map g.stream)) ∧ r'.tab.Perm r.tab ∧
      Rel r' (g.after n).S (g.after n).i (g.after n).j := by
  intro n
  induction n with
  | zero =>
    intro p r g buf _ h
    refine ⟨r, ?_, List.Perm.refl _, h⟩
    unfold readLoop splice
    simp
  | succ n ih =>
    intro p r g buf hp h
    unfold readLoop
    obtain ⟨r1, h1, h2, h3⟩ := randByte_eq h
    rw [h1, Res.ok_bind]
    simp only
    rw [wr_lt (by omega), Res.ok_bind]
    obtain ⟨r2, h4, h5, h6⟩ := ih (p + 1) r1 g.next (buf.set p g.next.out)
      (by rw [List.length_set]; omega) h3
    refine ⟨r2, ?_, h5.trans h2, ?_⟩
    · rw [h4]
      congr 2
      have e : (List.range (n + 1)).map g.stream = g.next.out :: (List.range n).map g.next.stream := by
        rw [List.range_succ_eq_map, List.map_cons, List.map_map]
        congr 1
        apply List.map_congr_left
        intro k _
        show g.stream (k + 1) = _
        have := stream_after g 1 k
        rw [Nat.add_comm] at this
        exact this.symm
      rw [e]
      apply List.ext_getElem?
      intro j
      rw [splice_getElem? (by simp; omega), splice_getElem? (by simp; omega)]
      simp only [List.length_map, List.length_range, List.length_cons]
      grind
    · rw [after_succ']
      exact h6

/-! ## Powers of two -/

theorem toPow2_eq {v : Nat} (h1 : 1 ≤ v) (h2 : v < W64) :
    ∃ e, toPow2 v = add64 (2 ^ e - 1) 1 ∧ v ≤ 2 ^ e ∧ e ≤ 64 ∧ ∀ e', v ≤ 2 ^ e' → e ≤ e' := by
  have hs : sub64 v 1 = v - 1 := by unfold sub64; omega
  have s1 := (smeared_one (v - 1)).step
  have s2 := s1.step
  have s4 := s2.step
  have s8 := s4.step
  have s16 := s8.step
  have s32 := s16.step
  obtain ⟨e, he, hv, hen, hmin⟩ := s32.pow (by omega)
  refine ⟨e, ?_, by omega, hen, ?_⟩
  · unfold toPow2
    rw [if_neg (by omega), hs]
    simp only [smear, Nat.reduceLT, if_true, Nat.reduceMul, if_false]
    rw [← he]; rfl
  · intro e' he'
    apply hmin
    omega

/-! ## Sizes -/

theorem dec_head (n : Nat) : (dec n).head? = some 48 → n = 0 := by
  induction n using Nat.strongRecOn with
  | ind n ih =>
    rw [dec]
    split
    · next h =>
      have : ∀ d < 10, [UInt8.ofNat (48 + d)].head? = some 48 → d = 0 := by decide +kernel
      exact this n h
    · next h =>
      intro hh
      have hne := (dec_spec (n / 10)).1
      obtain ⟨a, l, e⟩ := List.exists_cons_of_ne_nil hne
      rw [e] at hh
      have := ih (n / 10) (by omega) (by rw [e]; exact hh)
      omega

theorem isDec_dec (n : Nat) : IsDec (dec n) n := by
  obtain ⟨h1, h2, h3⟩ := dec_spec n
  refine ⟨h2, h3, h1, ?_⟩
  intro h
  have := dec_head n h
  subst this
  rw [dec]; rfl

theorem isDec2_fixed2 (h : Nat) : IsDec2 (fixed2 h) h := by
  have d1 := digit_ofNat (d := h % 100 / 10) (by omega)
  have d2 := digit_ofNat (d := h % 10) (by omega)
  refine ⟨dec (h / 100), [UInt8.ofNat (48 + h % 100 / 10), UInt8.ofNat (48 + h % 10)], ?_,
    isDec_dec _, rfl, ?_, ?_⟩
  · simp [fixed2]
  · intro c hc
    rw [List.mem_cons, List.mem_singleton] at hc
    rcases hc with rfl | rfl
    · exact d1.1
    · exact d2.1
  · show (0 * 10 + _) * 10 + _ = _
    rw [d1.2, d2.2]
    omega

/-- The quotient the last `snprintf` of `sc_bytes_to_size` prints is exact in a `double`. -/
theorem count_exact {val : Nat} (h : val < W64) : val >>> (10 * unitLoop val 4) < 2 ^ 53 := by
  simp only [unitLoop, Nat.reduceShiftRight, Nat.reduceAdd, Nat.reduceMul]
  (repeat' split) <;> simp only [Nat.reduceAdd, Nat.reduceMul, Nat.shiftRight_eq_div_pow] <;> omega

theorem roundEven_near (c : Nat) : 2 * roundEven (c * 100) 1024 * 1024 ≤ 200 * c + 1024 ∧
    200 * c ≤ 2 * roundEven (c * 100) 1024 * 1024 + 1024 := by
  unfold roundEven
  (repeat' split) <;> omega

theorem withinDigit_of {val U q m R : Nat} (h1 : 2 * R * 1024 ≤ 200 * q + 1024)
    (h2 : 200 * q ≤ 2 * R * 1024 + 1024) (hdm : U * q + m = val) (hml : m < U) :
    WithinDigit val (U * 1024) R := by
  have a1 := Nat.mul_le_mul_right U h1
  have a2 := Nat.mul_le_mul_right U h2
  have c1 : (200 * q + 1024) * U = 200 * (U * q) + 1024 * U := by
    rw [Nat.add_mul, Nat.mul_assoc, Nat.mul_comm q U]
  have c2 : (2 * R * 1024 + 1024) * U = 2 * R * 1024 * U + 1024 * U := Nat.add_mul _ _ _
  have c3 : 2 * R * (U * 1024) = 2 * R * 1024 * U := by
    rw [Nat.mul_comm U, Nat.mul_assoc (2 * R)]
  have c4 : 200 * q * U = 200 * (U * q) := by rw [Nat.mul_assoc, Nat.mul_comm q U]
  rw [c1] at a1
  rw [c4, c2] at a2
  unfold WithinDigit
  rw [c3]
  clear c1 c2 c3 c4 h1 h2
  obtain ⟨X, hX⟩ : ∃ X, 2 * R * 1024 * U = X := ⟨_, rfl⟩
  obtain ⟨Y, hY⟩ : ∃ Y, U * q = Y := ⟨_, rfl⟩
  rw [hX] at a1 a2 ⊢
  rw [hY] at a1 a2 hdm
  omega

theorem sizeText_eq {val : Nat} (h : val < W64) :
    ∃ t, sizeText val = .ok t ∧ SizeText WithinDigit val t ∧ 0 < t.length := by
  unfold sizeText
  split
  · next hv =>
    exact ⟨_, rfl, Or.inl ⟨hv, _, isDec_dec val, rfl⟩, by simp⟩
  · next hv =>
    simp only
    have key : ∃ n, unitLoop val 4 = n ∧ n < 6 ∧ 1023 ≤ val >>> (10 * n) ∧
        val >>> (10 * n) ≤ 1048524 := by
      simp only [unitLoop, Nat.reduceShiftRight, Nat.reduceAdd, Nat.reduceMul]
      (repeat' split) <;>
        refine ⟨_, rfl, by omega, ?_, ?_⟩ <;>
        simp only [Nat.reduceAdd, Nat.reduceMul, Nat.shiftRight_eq_div_pow] <;> omega
    obtain ⟨n, en, hn, hc1, hc2⟩ := key
    rw [en]
    have hr := roundEven_near (val >>> (10 * n))
    have h1 : 100 ≤ roundEven ((val >>> (10 * n)) * 100) 1024 := by omega
    have h2 : roundEven ((val >>> (10 * n)) * 100) 1024 < 102400 := by omega
    have hs : rd suffixes n = .ok (unitName n) := by
      have : ∀ n < 6, rd suffixes n = .ok (unitName n) := by decide +kernel
      exact this n hn
    rw [hs, Res.ok_bind]
    refine ⟨_, rfl, Or.inr ⟨by omega, n, _, _, hn, isDec2_fixed2 _, rfl, h1, h2, ?_⟩, by simp; omega⟩
    clear h1 h2 hc1 hc2
    generalize roundEven ((val >>> (10 * n)) * 100) 1024 = R at hr
    rw [Nat.shiftRight_eq_div_pow, Nat.pow_mul] at hr
    have hu : (2 ^ 10) ^ n = 1024 ^ n := rfl
    rw [hu] at hr
    have hpos : 0 < 1024 ^ n := Nat.pow_pos (by omega)
    have hdm := Nat.div_add_mod val (1024 ^ n)
    have hml := Nat.mod_lt val hpos
    rw [Nat.pow_succ]
    exact withinDigit_of hr.1 hr.2 hdm hml

/-- The bytes for which `tolower` of a `char` is defined. -/
def Plain (c : UInt8) : Prop := c < 128 ∨ c = 255

theorem tolowerChar_ub {c : UInt8} (h : ¬ Plain c) : tolowerChar c = .ub := by
  unfold tolowerChar
  rw [if_neg (fun hc => h (.inl hc)), if_neg (fun hc => h (.inr hc))]

theorem toLower_cases (c : UInt8) : (letterUnit c = none ∧
      (Plain c → ∀ v, scaleBy v c = .ok (-1))) ∨
    (letterUnit c = some 1 ∧ ∀ v, scaleBy v c = .ok v) ∨
    ∃ k, 1 ≤ k ∧ k ≤ 6 ∧ letterUnit c = some (1024 ^ k) ∧
      ∀ v, scaleBy v c = scale v (1024 ^ k) := by
  have key : ∀ n < 256, (letterUnit (UInt8.ofNat n) = none ∧
        (tolowerChar (UInt8.ofNat n) ∉ [.ok 98, .ok 107, .ok 109, .ok 103, .ok 116, .ok 112, .ok 101])) ∨
      (letterUnit (UInt8.ofNat n) = some 1 ∧ tolowerChar (UInt8.ofNat n) = .ok 98) ∨
      (letterUnit (UInt8.ofNat n) = some (1024 ^ 1) ∧ tolowerChar (UInt8.ofNat n) = .ok 107) ∨
      (letterUnit (UInt8.ofNat n) = some (1024 ^ 2) ∧ tolowerChar (UInt8.ofNat n) = .ok 109) ∨
      (letterUnit (UInt8.ofNat n) = some (1024 ^ 3) ∧ tolowerChar (UInt8.ofNat n) = .ok 103) ∨
      (letterUnit (UInt8.ofNat n) = some (1024 ^ 4) ∧ tolowerChar (UInt8.ofNat n) = .ok 116) ∨
      (letterUnit (UInt8.ofNat n) = some (1024 ^ 5) ∧ tolowerChar (UInt8.ofNat n) = .ok 112) ∨
      (letterUnit (UInt8.ofNat n) = some (1024 ^ 6) ∧ tolowerChar (UInt8.ofNat n) = .ok 101) := by
    decide +kernel
  have hc := key c.toNat (toNat_lt c)
  rw [UInt8.ofNat_toNat] at hc
  rcases hc with ⟨h1, h2⟩ | ⟨h1, h2⟩ | ⟨h1, h2⟩ | ⟨h1, h2⟩ | ⟨h1, h2⟩ | ⟨h1, h2⟩ | ⟨h1, h2⟩ | ⟨h1, h2⟩
  · refine Or.inl ⟨h1, fun hp v => ?_⟩
    obtain ⟨x, hx⟩ : ∃ x, tolowerChar c = .ok x := by
      unfold tolowerChar
      rcases hp with hp | rfl
      · exact ⟨_, by rw [if_pos hp]⟩
      · exact ⟨_, rfl⟩
    unfold scaleBy
    rw [hx] at h2 ⊢
    simp only [List.mem_cons, not_or, Res.ok.injEq] at h2
    simp only [Res.ok_bind]
    split <;> first | rfl | (exfalso; omega)
  · refine Or.inr (Or.inl ⟨h1, fun v => ?_⟩)
    unfold scaleBy; rw [h2]; rfl
  · exact Or.inr (Or.inr ⟨1, by omega, by omega, h1, fun v => by unfold scaleBy; rw [h2]; rfl⟩)
  · exact Or.inr (Or.inr ⟨2, by omega, by omega, h1, fun v => by unfold scaleBy; rw [h2]; rfl⟩)
  · exact Or.inr (Or.inr ⟨3, by omega, by omega, h1, fun v => by unfold scaleBy; rw [h2]; rfl⟩)
  · exact Or.inr (Or.inr ⟨4, by omega, by omega, h1, fun v => by unfold scaleBy; rw [h2]; rfl⟩)
  · exact Or.inr (Or.inr ⟨5, by omega, by omega, h1, fun v => by unfold scaleBy; rw [h2]; rfl⟩)
  · exact Or.inr (Or.inr ⟨6, by omega, by omega, h1, fun v => by unfold scaleBy; rw [h2]; rfl⟩)

theorem tolowerChar_b (d : UInt8) : tolowerChar d = .ok 98 ↔ d = 98 ∨ d = 66 := by
  have key : ∀ n < 256, tolowerChar (UInt8.ofNat n) = .ok 98 ↔
      UInt8.ofNat n = 98 ∨ UInt8.ofNat n = 66 := by
    decide +kernel
  have := key d.toNat (toNat_lt d)
  rwa [UInt8.ofNat_toNat] at this

theorem tolowerChar_ok {c : UInt8} (h : Plain c) : ∃ x, tolowerChar c = .ok x := by
  unfold tolowerChar
  rcases h with h | rfl
  · exact ⟨_, by rw [if_pos h]⟩
  · exact ⟨_, rfl⟩

end Verif.Sc
