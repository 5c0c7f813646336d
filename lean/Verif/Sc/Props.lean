import Verif.Sc.Lemmas

/-!
# Properties of sc/sc.c (C47-C50)
-/

namespace Verif.Sc

open Spec

/-! ## C47: powers of two -/

/-- `sc_is_pow2` is true exactly for the powers of two. -/
theorem is_pow2_iff {n : Nat} (hn : n < W64) : isPow2 n = true ↔ ∃ k, n = 2 ^ k := by
  unfold isPow2
  by_cases h0 : n = 0
  · subst h0
    constructor
    · intro h; simp at h
    · rintro ⟨k, hk⟩
      have := Nat.two_pow_pos k
      omega
  · have hs : sub64 n 1 = n - 1 := by unfold sub64; omega
    rw [hs]
    have := Nat.and_sub_one_eq_zero_iff_isPowerOfTwo h0
    rw [Bool.and_eq_true]
    simp only [bne_iff_ne, ne_eq, h0, not_false_eq_true, true_and, beq_iff_eq]
    rw [this]
    rfl

/-- `sc_to_pow2` is the least power of two that is at least `n`, if it fits. -/
theorem to_pow2_least {n : Nat} (hn : n ≤ 2 ^ 63) :
    ∃ k, toPow2 n = 2 ^ k ∧ n ≤ 2 ^ k ∧ ∀ e, n ≤ 2 ^ e → 2 ^ k ≤ 2 ^ e := by
  by_cases h0 : n = 0
  · subst h0
    exact ⟨0, rfl, by omega, fun e _ => Nat.two_pow_pos e⟩
  · obtain ⟨e, he, hv, hen, hmin⟩ := toPow2_eq (v := n) (by omega) (by omega)
    have h63 : e ≤ 63 := hmin 63 hn
    refine ⟨e, ?_, hv, fun e' h' => Nat.pow_le_pow_right (by omega) (hmin e' h')⟩
    have h3 : 2 ^ e ≤ 9223372036854775808 :=
      Nat.le_trans (Nat.pow_le_pow_right (by omega) h63) (by decide)
    have := Nat.two_pow_pos e
    rw [he]; unfold add64; omega

/-- Above 2^63 no power of two fits, and the result is 0. -/
theorem to_pow2_none {n : Nat} (h1 : 2 ^ 63 < n) (hn : n < W64) : toPow2 n = 0 := by
  obtain ⟨e, he, hv, hen, hmin⟩ := toPow2_eq (v := n) (by omega) hn
  have : e = 64 := by
    rcases Nat.lt_or_ge e 64 with h | h
    · have : 2 ^ e ≤ 9223372036854775808 :=
        Nat.le_trans (Nat.pow_le_pow_right (by omega) (show e ≤ 63 by omega)) (by decide)
      omega
    · omega
  subst this
  rw [he]; decide

example : toPow2 5 = 8 ∧ toPow2 8 = 8 ∧ isPow2 8 = true ∧ isPow2 12 = false := by decide +kernel

/-! ## C48: size strings -/

/-- The conditions under which the code's arithmetic is exact are stated with 2^63. -/
theorem fits_iff {v : Int} : Fits v ↔ -I64_MAX - 1 ≤ v ∧ v ≤ I64_MAX := by
  unfold Fits; omega

theorem strtoll_spec {s t u : List UInt8} {neg : Bool} {n : Nat} (e : s = t ++ u)
    (ht : IsNum t neg n) (hu : ∀ c, u.head? = some c → isDigit c = false) :
    (Fits (if neg then -(n : Int) else n) →
      strtoll s = some (if neg then -(n : Int) else n, t.length)) ∧
    (¬ Fits (if neg then -(n : Int) else n) → strtoll s = none) := by
  subst e
  unfold strtoll
  rw [strtoNum_eq ht hu]
  simp only
  rw [fits_iff]
  generalize (if neg = true then -(n : Int) else (n : Int)) = v
  constructor
  · intro h; rw [if_neg (by omega)]
  · intro h; rw [if_pos (by omega)]

theorem unit_head {u : List UInt8} {m : Nat} (h : IsUnit u m) :
    ∀ c, u.head? = some c → isDigit c = false := by
  intro c hc
  have key : ∀ n < 256, (letterUnit (UInt8.ofNat n)).isSome → isDigit (UInt8.ofNat n) = false := by
    decide +kernel
  have k2 : (letterUnit c).isSome → isDigit c = false := by
    have := key c.toNat (toNat_lt c)
    rwa [UInt8.ofNat_toNat] at this
  rcases h with ⟨rfl, _⟩ | ⟨d, rfl, hd⟩ | ⟨d, e, rfl, hd, _⟩
  · simp at hc
  · simp at hc; subst hc; exact k2 (by rw [hd]; rfl)
  · simp at hc; subst hc; exact k2 (by rw [hd]; rfl)

theorem unit_short {u : List UInt8} {m : Nat} (h : IsUnit u m) : u.length ≤ 2 := by
  rcases h with ⟨rfl, _⟩ | ⟨d, rfl, hd⟩ | ⟨d, e, rfl, hd, _⟩ <;> simp

/-- What the code does with a number and the text behind it. -/
def suffixResult (v : Int) : List UInt8 → Res Int
  | [] => .ok v
  | [a] => scaleBy v a
  | [a, b] => do
    let x ← tolowerChar b
    if x = 98 then scaleBy v a else .ok (-1)
  | _ => .ok (-1)

/-- Once the number is read, the suffix decides. -/
theorem sizeToBytes_suffix {mem s t u : List UInt8} (c : CStr mem 0 s) (e : s = t ++ u) {v : Int}
    (hv : strtoll s = some (v, t.length)) (hl : u.length < 2147483648) :
    sizeToBytes mem = suffixResult v u := by
  unfold sizeToBytes
  rw [cstr_eq c, Res.ok_bind]
  simp only [hv]
  have hlen : s.length - t.length = u.length := by rw [e]; simp
  have hrd : ∀ i a, u[i]? = some a → rd mem (t.length + i) = .ok a := by
    intro i a ha
    have hi := (List.getElem?_eq_some_iff.1 ha).1
    have hsl : s.length = t.length + u.length := by rw [e]; simp
    have := c.rd (i := t.length + i) (by omega)
    rw [Nat.zero_add] at this
    rw [this, e, List.getElem?_append_right (by omega), Nat.add_sub_cancel_left, ha]
    rfl
  rw [hlen, toInt32_small hl]
  match u, hrd with
  | [], _ => rfl
  | [a], hrd =>
    have := hrd 0 a rfl
    rw [Nat.add_zero] at this
    simp [this, suffixResult]
  | [a, b], hrd =>
    have h0 := hrd 0 a rfl
    have h1 := hrd 1 b rfl
    rw [Nat.add_zero] at h0
    rw [if_neg (by simp), if_neg (by simp), if_pos (by simp), h1, h0]
    simp only [Res.ok_bind, suffixResult]
    cases tolowerChar b with
    | ub => rfl
    | ok x =>
      simp only [Res.ok_bind]
      by_cases hb : x = 98
      · rw [if_neg (by simpa using hb), if_pos hb]
      · rw [if_pos hb, if_neg hb]
  | a :: b :: d :: u', _ =>
    rw [if_neg (by simp; omega), if_neg (by simp; omega), if_neg (by simp; omega)]
    rfl

theorem scaleBy_unit {c : UInt8} {m : Nat} (h : letterUnit c = some m) {v : Int} (hv : Fits v) :
    (Fits (v * m) → scaleBy v c = .ok (v * m)) ∧ (2 ^ 63 ≤ v * m → scaleBy v c = .ok (-1)) ∧
    (v * m < -(2 ^ 63) → scaleBy v c = .ub) := by
  rcases toLower_cases c with ⟨h1, _⟩ | ⟨h1, h2⟩ | ⟨k, hk1, hk6, h1, h2⟩
  · rw [h1] at h; cases h
  · rw [h1] at h
    cases h
    rw [h2]
    unfold Fits at *
    refine ⟨fun _ => by simp, ?_, ?_⟩ <;> intro h <;> exfalso <;> omega
  · rw [h1] at h
    cases h
    rw [h2]
    have hcast : ((1024 ^ k : Nat) : Int) = (1024 : Int) ^ k := by simp
    rw [hcast]
    have hpos : (0 : Int) < 1024 ^ k := Int.pow_pos (by decide)
    have hdiv : v > I64_MAX / (1024 : Int) ^ k ↔ v * 1024 ^ k > I64_MAX := by
      have := Int.le_ediv_iff_mul_le (a := v) (b := I64_MAX) hpos
      constructor
      · intro h; apply Int.not_le.1; intro hle; have := this.2 hle; omega
      · intro h; apply Int.not_le.1; intro hle; have := this.1 hle; omega
    unfold scale
    rw [fits_iff]
    generalize hw : v * (1024 : Int) ^ k = w at *
    refine ⟨?_, ?_, ?_⟩
    · intro h; rw [if_neg (by rw [hdiv]; omega), if_neg (by omega)]
    · intro h; rw [if_pos (by rw [hdiv]; omega)]
    · intro h; rw [if_neg (by rw [hdiv]; omega), if_pos (by omega)]

theorem sizeToBytes_unit {mem s t u : List UInt8} (c : CStr mem 0 s) (e : s = t ++ u) {v : Int}
    {m : Nat} (hv : strtoll s = some (v, t.length)) (hu : IsUnit u m) (hf : Fits v) :
    (Fits (v * m) → sizeToBytes mem = .ok (v * m)) ∧ (2 ^ 63 ≤ v * m → sizeToBytes mem = .ok (-1)) ∧
    (v * m < -(2 ^ 63) → sizeToBytes mem = .ub) := by
  have hs := sizeToBytes_suffix c e hv (by have := unit_short hu; omega)
  rcases hu with ⟨rfl, rfl⟩ | ⟨d, rfl, hd⟩ | ⟨d, b, rfl, hd, hb⟩
  · rw [hs]
    unfold Fits at *
    refine ⟨fun _ => by simp [suffixResult], ?_, ?_⟩ <;> intro h <;> exfalso <;> omega
  · rw [hs]; exact scaleBy_unit hd hf
  · rw [hs]
    simp only [suffixResult]
    rw [(tolowerChar_b b).2 hb, Res.ok_bind, if_pos rfl]
    exact scaleBy_unit hd hf

/-- C48, accepted strings: number times unit. -/
theorem size_to_bytes_ok {mem s : List UInt8} (c : CStr mem 0 s) {v : Int} {m : Nat}
    (h : IsSize s v m) (hf : Fits v) (hfm : Fits (v * m)) : sizeToBytes mem = .ok (v * m) := by
  obtain ⟨t, u, neg, n, e, ht, rfl, hu⟩ := h
  have hv := (strtoll_spec e ht (unit_head hu)).1 hf
  exact (sizeToBytes_unit c e hv hu hf).1 hfm

/-- C48, overflow: −1 if the number is no `int64_t` or the product exceeds the maximum. -/
theorem size_to_bytes_overflow {mem s : List UInt8} (c : CStr mem 0 s) {v : Int} {m : Nat}
    (h : IsSize s v m) (ho : ¬ Fits v ∨ 2 ^ 63 ≤ v * m) : sizeToBytes mem = .ok (-1) := by
  obtain ⟨t, u, neg, n, e, ht, hveq, hu⟩ := h
  have hsp := strtoll_spec e ht (unit_head hu)
  rw [← hveq] at hsp
  by_cases hf : Fits v
  · exact (sizeToBytes_unit c e (hsp.1 hf) hu hf).2.1 (ho.resolve_left (fun h => h hf))
  · unfold sizeToBytes
    rw [cstr_eq c, Res.ok_bind]
    simp only [hsp.2 hf]

/-- C48, rejected strings: −1 for every string that is not a size. What is missing: strings of
2 GiB and more (`size_to_bytes_long_defect`), and strings with a byte from 128 to 254
(`size_to_bytes_char_defect`). -/
theorem size_to_bytes_rejects_partial {mem s : List UInt8} (c : CStr mem 0 s)
    (hlen : s.length < 2 ^ 31) (hp : ∀ b ∈ s, b < 128 ∨ b = 255) (h : ∀ v m, ¬ IsSize s v m) : sizeToBytes mem = .ok (-1) := by
  rcases hn : strtoNum s with _ | ⟨neg, n, k⟩
  · unfold sizeToBytes
    rw [cstr_eq c, Res.ok_bind]
    simp only [strtoll, hn]
  · obtain ⟨hk, ht, hd⟩ := strtoNum_some hn
    have e : s = s.take k ++ s.drop k := (List.take_append_drop k s).symm
    have hsp := strtoll_spec e ht hd
    by_cases hf : Fits (if neg then -(n : Int) else n)
    · have hs := sizeToBytes_suffix c e (hsp.1 hf) (by rw [List.length_drop]; omega)
      rw [hs]
      have hno : ∀ m, ¬ IsUnit (s.drop k) m := fun m hm =>
        h _ m ⟨_, _, neg, n, e, ht, rfl, hm⟩
      have hpu : ∀ b ∈ s.drop k, Plain b := fun b hb => hp b (List.mem_of_mem_drop hb)
      generalize s.drop k = u at hno hpu
      match u, hno, hpu with
      | [], hno, _ => exact (hno 1 (Or.inl ⟨rfl, rfl⟩)).elim
      | [a], hno, hpu =>
        rcases toLower_cases a with ⟨_, h2⟩ | ⟨h1, _⟩ | ⟨k, _, _, h1, _⟩
        · exact h2 (hpu a (by simp)) _
        · exact (hno _ (Or.inr (Or.inl ⟨a, rfl, h1⟩))).elim
        · exact (hno _ (Or.inr (Or.inl ⟨a, rfl, h1⟩))).elim
      | [a, b], hno, hpu =>
        simp only [suffixResult]
        obtain ⟨x, hx⟩ := tolowerChar_ok (hpu b (by simp))
        rw [hx, Res.ok_bind]
        by_cases hb : x = 98
        · rw [if_pos hb]
          have hb' := (tolowerChar_b b).1 (by rw [hx, hb])
          rcases toLower_cases a with ⟨_, h2⟩ | ⟨h1, _⟩ | ⟨k, _, _, h1, _⟩
          · exact h2 (hpu a (by simp)) _
          · exact (hno _ (Or.inr (Or.inr ⟨a, b, rfl, h1, hb'⟩))).elim
          · exact (hno _ (Or.inr (Or.inr ⟨a, b, rfl, h1, hb'⟩))).elim
        · rw [if_neg hb]
      | a :: b :: d :: u', _, _ => rfl
    · unfold sizeToBytes
      rw [cstr_eq c, Res.ok_bind]
      simp only [hsp.2 hf]

/-- A negative number times its unit that is less than the least `int64_t` is a signed
overflow, not −1: C48 fails there. -/
theorem size_to_bytes_negative_defect {mem s : List UInt8} (c : CStr mem 0 s) {v : Int} {m : Nat}
    (h : IsSize s v m) (hf : Fits v) (ho : v * m < -(2 ^ 63)) : sizeToBytes mem = .ub := by
  obtain ⟨t, u, neg, n, e, ht, rfl, hu⟩ := h
  have hv := (strtoll_spec e ht (unit_head hu)).1 hf
  exact (sizeToBytes_unit c e hv hu hf).2.2 ho

/-- C48 is violated by "-9e": undefined behaviour. -/
theorem size_to_bytes_violated : sizeToBytes [45, 57, 101, 0] = .ub := by decide +kernel

/-- `tolower` is given a negative number: a number with one byte from 128 to 254 behind it, or
with two of which the second is such a byte, is undefined behaviour, not −1. -/
theorem size_to_bytes_char_defect {mem s t u : List UInt8} (c : CStr mem 0 s) (e : s = t ++ u)
    {neg : Bool} {n : Nat} (ht : IsNum t neg n) (hf : Fits (if neg then -(n : Int) else n))
    {b : UInt8} (hb : 128 ≤ b ∧ b < 255) (hu : u = [b] ∨ ∃ a, isDigit a = false ∧ u = [a, b]) :
    sizeToBytes mem = .ub := by
  have hnb : ¬ Plain b := by
    rintro (h | h)
    · exact absurd h (by have := hb.1; grind)
    · subst h; exact absurd hb.2 (by decide)
  have hub := tolowerChar_ub hnb
  have hd : isDigit b = false := by
    have key : ∀ n < 256, ¬ (UInt8.ofNat n < 128) → isDigit (UInt8.ofNat n) = false := by
      decide +kernel
    have := key b.toNat (toNat_lt b)
    rw [UInt8.ofNat_toNat] at this
    exact this fun h => hnb (.inl h)
  have hh : ∀ c, u.head? = some c → isDigit c = false := by
    rcases hu with rfl | ⟨a, ha, rfl⟩ <;> intro c hc <;> cases hc <;> assumption
  rw [sizeToBytes_suffix c e ((strtoll_spec e ht hh).1 hf)
    (by rcases hu with rfl | ⟨a, ha, rfl⟩ <;> simp)]
  rcases hu with rfl | ⟨a, ha, rfl⟩
  · simp only [suffixResult, scaleBy, hub]; rfl
  · simp only [suffixResult, hub]; rfl

/-- **C48 is violated** by "1" and the byte 233 ("é" in Latin-1): undefined behaviour. -/
theorem size_to_bytes_char_violated : sizeToBytes [49, 233, 0] = .ub := by decide +kernel

/-- The length of the suffix is cut to 32 bits: a string with 2^32 characters after its number
is accepted as if there were none. -/
theorem size_to_bytes_long_defect {mem s t u : List UInt8} (c : CStr mem 0 s) (e : s = t ++ u)
    {n : Nat} (ht : IsNum t false n) (hu : ∀ c, u.head? = some c → isDigit c = false)
    (hn : n < 2 ^ 63) (hl : u.length = 2 ^ 32) : sizeToBytes mem = .ok n := by
  have hv := (strtoll_spec e ht hu).1 (by unfold Fits; simp; omega)
  unfold sizeToBytes
  rw [cstr_eq c, Res.ok_bind]
  simp only [hv]
  have hlen : s.length - t.length = u.length := by rw [e]; simp
  have hz : toInt32 (s.length - t.length) = 0 := by rw [hlen, hl]; decide
  rw [if_pos hz]
  rfl

/-- The example of sc/sc.h, "1 KB", is not accepted: no space may precede the unit. -/
theorem size_to_bytes_doc_defect : sizeToBytes [49, 32, 75, 66, 0] = .ok (-1) := by decide +kernel

-- "12kB" is a size, and is accepted
example : IsSize [49, 50, 107, 66] 12 1024 :=
  ⟨[49, 50], [107, 66], false, 12, rfl, ⟨[], [], [49, 50], rfl, by simp, by simp, by simp,
    by decide, rfl⟩, rfl, Or.inr (Or.inr ⟨107, 66, rfl, rfl, Or.inr rfl⟩)⟩

example : sizeToBytes [49, 50, 107, 66, 0] = .ok 12288 := by decide +kernel
-- "9e" does not fit
example : sizeToBytes [57, 101, 0] = .ok (-1) := by decide +kernel
-- "7E" does
example : sizeToBytes [55, 69, 0] = .ok (7 * 1024 ^ 6) := by decide +kernel

/-! ## C49: printing sizes -/

/-- The result of `sc_bytes_to_size`: the text for the value if the buffer has room for it,
`NULL` otherwise; nothing behind the buffer is written. -/
theorem bytes_to_size_call {buf : List UInt8} {len val : Nat} (hl : len ≤ buf.length)
    (hv : val < W64) : ∃ t, sizeText val = .ok t ∧ SizeText WithinDigit val t ∧
      ∃ buf', bytesToSize buf len val = .ok (buf', decide (t.length < len)) ∧
        buf'.length = buf.length ∧ buf'.drop len = buf.drop len ∧
        (t.length < len → buf'.take (t.length + 1) = t ++ [0]) := by
  obtain ⟨t, h1, h2, h3⟩ := sizeText_eq hv
  refine ⟨t, h1, h2, ?_⟩
  unfold bytesToSize
  rw [h1, Res.ok_bind]
  unfold vsnprintf
  simp only
  by_cases h0 : len = 0
  · subst h0
    rw [if_pos rfl]
    exact ⟨buf, by simp, rfl, rfl, by omega⟩
  · have hol : (t.take (len - 1) ++ [0]).length ≤ len := by simp; omega
    have htl : (t.take (len - 1) ++ [0]).length = min (len - 1) t.length + 1 := by simp
    rw [if_neg h0, if_pos (by omega)]
    refine ⟨splice buf 0 (t.take (len - 1) ++ [0]), ?_, ?_, ?_, ?_⟩
    · show Res.ok _ = _
      congr 2
      rw [Bool.eq_iff_iff]
      simp only [Bool.not_eq_true', Bool.or_eq_false_iff, decide_eq_false_iff_not, decide_eq_true_eq]
      omega
    · exact length_splice (by omega)
    · apply List.ext_getElem?
      intro i
      rw [List.getElem?_drop, List.getElem?_drop, splice_getElem? (by omega), if_neg (by omega),
        if_neg (by omega)]
    · intro ht
      have e : t.take (len - 1) = t := List.take_of_length_le (by omega)
      have := take_splice (dst := buf) (d := 0) (bs := t ++ [0]) (by simp; omega)
      rw [e]
      simpa using this

/-- C49 with a weaker error bound: the right unit for every value, and a printed value that is
off by at most half of the last digit plus 1/1024. Missing: half of the last digit alone, which
does not hold (`bytes_to_size_violated`). -/
theorem bytes_to_size_partial {buf : List UInt8} {len val : Nat} (hl : len ≤ buf.length)
    (hv : val < W64) : ∃ t, SizeText WithinDigit val t ∧
      ∃ buf', bytesToSize buf len val = .ok (buf', decide (t.length < len)) ∧
        buf'.length = buf.length ∧ buf'.drop len = buf.drop len ∧
        (t.length < len → CStr buf' 0 t) := by
  obtain ⟨t, _, h2, buf', h3, h4, h5, h6⟩ := bytes_to_size_call hl hv
  refine ⟨t, h2, buf', h3, h4, h5, ?_⟩
  intro ht
  have h7 := h6 ht
  have hget : ∀ i, i ≤ t.length → buf'[i]? = (t ++ [0])[i]? := by
    intro i hi
    rw [← h7, List.getElem?_take_of_lt (by omega)]
  have hnz : ∀ b ∈ t, b ≠ 0 := by
    have hdig : ∀ c : UInt8, isDigit c = true → c ≠ 0 := by
      rintro c hc rfl
      exact absurd hc (by decide)
    intro b hb
    rcases h2 with ⟨_, d, hd, rfl⟩ | ⟨_, n, h, d, hn, ⟨w, f, rfl, hw, _, hf, _⟩, rfl, _⟩
    · rcases List.mem_append.1 hb with hb | hb
      · exact hdig b (hd.digits b hb)
      · simp at hb; rcases hb with rfl | rfl <;> decide
    · have hun : ∀ n < 6, ∀ b ∈ unitName n, b ≠ 0 := by decide +kernel
      simp only [List.mem_append, List.mem_singleton] at hb
      rcases hb with (((hb | rfl) | hb) | rfl) | hb
      · exact hdig b (hw.digits b hb)
      · decide
      · exact hdig b (hf b hb)
      · decide
      · exact hun n hn b hb
  refine ⟨?_, hnz, ?_⟩
  · intro i hi
    rw [Nat.zero_add, hget i (by omega), List.getElem?_append_left hi, List.getElem?_eq_getElem hi]
  · rw [Nat.zero_add, hget _ (by omega)]
    simp

/-- Two numerals of the same text have the same value. -/
theorem isDec2_unique {s : List UInt8} {h h' : Nat} (a : IsDec2 s h) (b : IsDec2 s h') : h = h' := by
  obtain ⟨w, f, e, hw, hf, _, hv⟩ := a
  obtain ⟨w', f', e', hw', hf', _, hv'⟩ := b
  have hlen : w.length = w'.length := by
    have := congrArg List.length (e.symm.trans e')
    simp only [List.length_append, hf, hf'] at this
    omega
  rw [e] at e'
  have h1 := List.append_inj e' (by simp [hlen])
  have h2 := List.append_inj h1.1 hlen
  have := hw.value
  rw [h2.1, hw'.value] at this
  rw [h1.2] at hv
  omega

/-- For 1138687 bytes, which are 1.0859… MB, the text is "1.08 MB": not within half of the last
digit. -/
theorem bytes_to_size_violated :
    bytesToSize (List.replicate 16 0) 16 1138687 =
      .ok ([49, 46, 48, 56, 32, 77, 66, 0] ++ List.replicate 8 0, true) ∧
    ¬ SizeText WithinHalfDigit 1138687 [49, 46, 48, 56, 32, 77, 66] := by
  refine ⟨by decide +kernel, ?_⟩
  rintro (⟨h, _⟩ | ⟨_, n, h, d, hn, hd, e, _, _, hw⟩)
  · omega
  · have hul : ∀ n < 6, (unitName n).length = 2 := by decide
    have hle := congrArg List.length e
    simp only [List.length_append, List.length_cons, List.length_nil, hul n hn] at hle
    have e' : [49, 46, 48, 56] ++ [32] ++ [77, 66] = d ++ [32] ++ unitName n := e
    have h1 := List.append_inj e' (by simp; omega)
    have hn1 : n = 1 := by
      have : ∀ n < 6, [77, 66] = unitName n → n = 1 := by decide
      exact this n hn h1.2
    have hd' := (List.append_inj h1.1 (by simp; omega)).1
    subst hd' hn1
    have hh : h = 108 := by
      refine isDec2_unique hd ?_
      have := isDec2_fixed2 108
      rwa [show fixed2 108 = [49, 46, 48, 56] by decide +kernel] at this
    subst hh
    exact absurd hw.2 (by decide)

example : bytesToSize (List.replicate 8 1) 8 1048525 =
    .ok ([49, 46, 48, 48, 32, 77, 66, 0], true) := by decide +kernel
example : bytesToSize (List.replicate 8 1) 7 1048525 =
    .ok ([49, 46, 48, 48, 32, 77, 0, 1], false) := by decide +kernel
example : bytesToSize (List.replicate 10 1) 10 SIZE_MAX =
    .ok ([49, 54, 46, 48, 48, 32, 69, 66, 0, 1], true) := by decide +kernel

/-! ## C50: random numbers -/

/-- A sequence of `sc_rand_read` calls, each with a buffer and a size. -/
def readAll (r : Rand) : List (List UInt8 × Int) → Res (Rand × List (List UInt8))
  | [] => .ok (r, [])
  | (buf, n) :: l => do
    let (r, b) ← randRead r (some buf) n
    let (r, bs) ← readAll r l
    .ok (r, b.getD [] :: bs)

/-- What the buffers hold afterwards if the bytes come from the stream `s`, from `off` on. -/
def Spec.pieces (s : Nat → UInt8) (off : Nat) : List (List UInt8 × Int) → List (List UInt8)
  | [] => []
  | (buf, n) :: l =>
    ((List.range n.toNat).map (fun k => s (off + k)) ++ buf.drop n.toNat) ::
      Spec.pieces s (off + n.toNat) l

/-- The number of bytes read. -/
def Spec.total : List (List UInt8 × Int) → Nat
  | [] => 0
  | (_, n) :: l => n.toNat + Spec.total l

theorem randRead_eq {r : Rand} {g : Gen} {buf : List UInt8} {n : Int} (hn : n ≤ buf.length)
    (h : Rel r g.S g.i g.j) : ∃ r', randRead r (some buf) n =
        .ok (r', some ((List.range n.toNat).map g.stream ++ buf.drop n.toNat)) ∧
      r'.tab.Perm r.tab ∧ Rel r' (g.after n.toNat).S (g.after n.toNat).i (g.after n.toNat).j := by
  unfold randRead
  simp only
  split
  · next h0 =>
    have : n.toNat = 0 := by omega
    rw [this]
    exact ⟨r, by simp, List.Perm.refl _, h⟩
  · obtain ⟨r', h1, h2, h3⟩ := readLoop_eq n.toNat 0 r g buf (by omega) h
    have hd : readDo n.toNat n 0 r buf = readLoop n.toNat 0 r buf := by
      have := readDo_eq (n.toNat - 1) 0 r buf
      rwa [show n.toNat - 1 + 1 = n.toNat by omega, show ((n.toNat : Nat) : Int) = n by omega] at this
    rw [hd, h1, Res.ok_bind]
    exact ⟨r', by simp [splice], h2, h3⟩

theorem readAll_eq : ∀ (l : List (List UInt8 × Int)) (r : Rand) (g : Gen),
    (∀ x ∈ l, x.2 ≤ x.1.length) → Rel r g.S g.i g.j →
    ∃ r', readAll r l = .ok (r', Spec.pieces g.stream 0 l) ∧ r'.tab.Perm r.tab ∧
      Rel r' (g.after (Spec.total l)).S (g.after (Spec.total l)).i (g.after (Spec.total l)).j := by
  intro l
  induction l with
  | nil => intro r g _ h; exact ⟨r, rfl, List.Perm.refl _, h⟩
  | cons x l ih =>
    obtain ⟨buf, n⟩ := x
    intro r g hl h
    obtain ⟨r1, h1, h2, h3⟩ := randRead_eq (hl (buf, n) (by simp)) h
    obtain ⟨r2, h4, h5, h6⟩ := ih r1 _ (fun x hx => hl x (by simp [hx])) h3
    unfold readAll
    rw [h1, Res.ok_bind]
    simp only
    rw [h4, Res.ok_bind]
    have hp : ∀ (l : List (List UInt8 × Int)) (o m : Nat),
        Spec.pieces (g.after m).stream o l = Spec.pieces g.stream (m + o) l := by
      intro l
      induction l with
      | nil => intros; rfl
      | cons y l ih =>
        intro o m
        unfold Spec.pieces
        rw [ih]
        simp only [stream_after, Nat.add_assoc]
    refine ⟨r2, ?_, h5.trans h2, ?_⟩
    · rw [hp]
      simp only [Option.getD_some, Spec.pieces, Nat.zero_add, Nat.add_zero]
    · rw [Spec.total, after_add]
      exact h6

/-- C50, stream: for every seed there is one stream of bytes, given by the RC4 generator started
on the table the seed's key schedule yields, and every pattern of reads returns its bytes in
order. The bytes behind each read are left alone. -/
theorem rand_stream_partial {seed : List UInt8} (h : 256 ≤ seed.length) :
    ∃ r, randInit seed = .ok r ∧ ∀ l : List (List UInt8 × Int), (∀ x ∈ l, x.2 ≤ x.1.length) →
      ∃ r', readAll r l = .ok (r', Spec.pieces (generator (table seed)).stream 0 l) := by
  obtain ⟨r, h1, _, h3⟩ := randInit_eq h
  refine ⟨r, h1, fun l hl => ?_⟩
  obtain ⟨r', h4, _⟩ := readAll_eq l r (generator (table seed)) hl h3
  exact ⟨r', h4⟩

theorem stream_split (g : Gen) (n m : Nat) : (List.range (n + m)).map g.stream =
    (List.range n).map g.stream ++ (List.range m).map (g.after n).stream := by
  rw [List.range_add, List.map_append, List.map_map]
  have : g.stream ∘ (n + ·) = (g.after n).stream := by
    funext k
    exact (stream_after g n k).symm
  rw [this]

/-- C50, read sizes: `n` bytes and then `m` bytes are the same as `n + m` bytes at once. -/
theorem rand_read_split {seed b1 b2 b3 : List UInt8} (h : 256 ≤ seed.length) {n m : Nat}
    (h1 : b1.length = n) (h2 : b2.length = m) (h3 : b3.length = n + m) :
    ∃ r r1 r2 r3 o1 o2, randInit seed = .ok r ∧ randRead r (some b1) n = .ok (r1, some o1) ∧
      randRead r1 (some b2) m = .ok (r2, some o2) ∧
      randRead r (some b3) (n + m : Nat) = .ok (r3, some (o1 ++ o2)) := by
  obtain ⟨r, hr, _, h0⟩ := randInit_eq h
  obtain ⟨r1, e1, _, g1⟩ := randRead_eq (buf := b1) (n := (n : Int)) (by omega) h0
  obtain ⟨r2, e2, _, _⟩ := randRead_eq (buf := b2) (n := (m : Int)) (by omega) g1
  obtain ⟨r3, e3, _, _⟩ := randRead_eq (buf := b3) (n := ((n + m : Nat) : Int)) (by omega) h0
  refine ⟨r, r1, r2, r3, _, _, hr, e1, e2, ?_⟩
  rw [e3]
  generalize generator (table seed) = g
  have e := stream_split g n m
  rw [Int.toNat_natCast, Int.toNat_natCast, Int.toNat_natCast, List.drop_of_length_le (by omega),
    List.drop_of_length_le (by omega), List.drop_of_length_le (by omega), List.append_nil,
    List.append_nil, List.append_nil, e]

/-- The table is at all times a rearrangement of the seed. -/
theorem rand_table_perm {seed : List UInt8} (h : 256 ≤ seed.length) :
    ∃ r, randInit seed = .ok r ∧ r.tab.Perm (seed.take 256) ∧
      ∀ l : List (List UInt8 × Int), (∀ x ∈ l, x.2 ≤ x.1.length) →
        ∃ r' bs, readAll r l = .ok (r', bs) ∧ r'.tab.Perm (seed.take 256) := by
  obtain ⟨r, h1, h2, h3⟩ := randInit_eq h
  refine ⟨r, h1, h2, fun l hl => ?_⟩
  obtain ⟨r', h4, h5, _⟩ := readAll_eq l r (generator (table seed)) hl h3
  exact ⟨r', _, h4, h5.trans h2⟩

theorem after_mem {seed : List UInt8} {g : Gen} (h : ∀ x, g.S x ∈ seed) (n : Nat) :
    ∀ x, (g.after n).S x ∈ seed := by
  induction n with
  | zero => exact h
  | succ n ih =>
    intro x
    show swap _ _ _ x ∈ seed
    unfold swap
    split
    · exact ih _
    · split
      · exact ih _
      · exact ih _

theorem generator_mem {seed : List UInt8} (h : 256 ≤ seed.length) :
    ∀ x, (generator (table seed)).S x ∈ seed := by
  obtain ⟨r, _, h2, h3⟩ := randInit_eq h
  intro x
  have := List.mem_of_getElem? (h3.tab x)
  exact List.mem_of_mem_take (h2.mem_iff.1 this)

/-- Only bytes that occur in the seed are ever produced. -/
theorem rand_bytes_of_seed {seed : List UInt8} (h : 256 ≤ seed.length) (n : Nat) :
    (generator (table seed)).stream n ∈ seed := after_mem (generator_mem h) _ _

/-- RC4's first byte for the key of 256 zeros is 0xDE. -/
theorem rc4_zero : rc4 (fun _ => 0) 0 = 0xDE := by
  have hk : ∀ x : UInt8, (List.replicate 256 (0 : UInt8))[x.toNat]? = some ((fun _ => 0) x) := by
    intro x
    rw [List.getElem?_replicate, if_pos (toNat_lt x)]
  have h0 : Rel ⟨0, 0, (List.range 256).map UInt8.ofNat⟩ (fun x => x) 0 0 := by
    refine ⟨rfl, rfl, by rw [List.length_map, List.length_range], ?_⟩
    intro x
    rw [List.getElem?_map, List.getElem?_range (toNat_lt x)]
    simp
  obtain ⟨r, h1, _, h3⟩ := initLoop_eq hk 256 0 _ _ _ _ rfl h0
  rw [← List.range_eq_range'] at h3
  have h4 : Rel { r with j := 0 } (schedule (fun _ => 0) indices (fun x => x, 0)).1 0 0 :=
    ⟨h3.i, rfl, h3.len, h3.tab⟩
  obtain ⟨r', h5, _⟩ := randByte_eq (g := ⟨_, 0, 0⟩) h4
  have key : (do
      let r ← initLoop (List.replicate 256 0) 256 0 ⟨0, 0, (List.range 256).map UInt8.ofNat⟩
      let x ← randByte { r with j := 0 }
      .ok x.2) = Res.ok 0xDE := by decide +kernel
  rw [h1, Res.ok_bind, h5, Res.ok_bind] at key
  have key := Res.ok.inj key
  rw [rc4]
  generalize schedule (fun _ => 0) indices (fun x => x, 0) = st at key ⊢
  exact key

/-- C50 is violated: the stream is not RC4 with the seed as the key, and the table is not a
permutation of the byte values. With 256 zeros as the seed every byte ever read is zero. -/
theorem rand_rc4_violated : ∃ seed : List UInt8, seed.length = 256 ∧
    (∀ n, (generator (table seed)).stream n = 0) ∧ rc4 (table seed) 0 ≠ 0 := by
  refine ⟨List.replicate 256 0, by rw [List.length_replicate], ?_, ?_⟩
  · intro n
    have := rand_bytes_of_seed (seed := List.replicate 256 0) (by rw [List.length_replicate]; omega) n
    exact (List.mem_replicate.1 this).2
  · have : table (List.replicate 256 0) = fun _ => 0 := by
      funext x
      unfold table
      rw [List.getElem?_replicate, if_pos (toNat_lt x)]
      rfl
    rw [this, rc4_zero]
    decide

-- a seed that is not constant, read in two pieces
example : (do
    let r ← randInit ((List.range 256).map fun n => UInt8.ofNat (7 * n + 3))
    let (_, bs) ← readAll r [([1, 1, 1], 2), ([], -1), ([5], 1)]
    .ok bs) = Res.ok [[101, 6, 1], [], [54]] := by decide +kernel

end Verif.Sc
