import Verif.Map.Murmur

/-! # MurmurHash64A, and that `murmurhash` computes it

The hash as its author published it (MurmurHash2, 64-bit version for 64-bit machines, seed 0), on machine words of 64 bits.
Words are read in little-endian order. -/

namespace Verif.Map.Ref

/-- The multiplier. -/
def M : BitVec 64 := 0xc6a4a7935bd1e995#64

/-- The number that bytes stand for, the lowest first. -/
def value : List Nat → Nat
  | [] => 0
  | b :: l => b + 256 * value l

/-- What a word is changed to before it is mixed in. -/
def scramble (k : BitVec 64) : BitVec 64 := ((k * M) ^^^ ((k * M) >>> 47)) * M

/-- Mixing in the bytes, eight at a time, and then the rest, if there is one. -/
def mixed (h : BitVec 64) : List Nat → BitVec 64
  | a :: b :: c :: d :: e :: f :: g :: i :: rest =>
    mixed ((h ^^^ scramble (BitVec.ofNat 64 (value [a, b, c, d, e, f, g, i]))) * M) rest
  | [] => h
  | rest => (h ^^^ BitVec.ofNat 64 (value rest)) * M

/-- The end. -/
def finish (h : BitVec 64) : BitVec 64 := ((h ^^^ (h >>> 47)) * M) ^^^ (((h ^^^ (h >>> 47)) * M) >>> 47)

/-- MurmurHash64A of a string, with seed 0. -/
def murmur64a (s : List Nat) : BitVec 64 := finish (mixed (BitVec.ofNat 64 s.length * M) s)

end Verif.Map.Ref

namespace Verif.Map

open Ref

theorem value_append (a b : List Nat) : value (a ++ b) = value a + 256 ^ a.length * value b := by
  induction a with
  | nil => simp [value]
  | cons x a ih =>
    simp only [List.cons_append, value, ih, List.length_cons, Nat.pow_succ, Nat.mul_add]
    rw [Nat.mul_comm (256 ^ a.length) 256, Nat.mul_assoc]
    omega

theorem value_lt {s : List Nat} (h : ∀ b ∈ s, b < 256) : value s < 256 ^ s.length := by
  induction s with
  | nil => simp [value]
  | cons x s ih =>
    have h1 := ih fun b hb => h b (List.mem_cons_of_mem _ hb)
    have h2 := h x List.mem_cons_self
    simp only [value, List.length_cons, Nat.pow_succ]
    omega

/-- Loading reads the value of the bytes. -/
theorem loadLE_value {mem : List Nat} {p : Nat} {s : List Nat} (c : CStr mem p s) : ∀ (n i : Nat), i + n ≤ s.length →
    loadLE mem (p + i) n = .ok (value ((s.drop i).take n)) := by
  intro n
  induction n with
  | zero => intro i _; simp [loadLE, value]
  | succ n ih =>
    intro i hi
    have hil : i < s.length := by omega
    rw [List.drop_eq_getElem_cons hil, List.take_succ_cons]
    simp only [loadLE, c.rd (show i ≤ s.length by omega), Res.ok_bind, Nat.add_assoc, ih (i + 1) (by omega),
      List.getElem?_eq_getElem hil, Option.getD_some, value]

theorem mul64_toNat (a : BitVec 64) : mul64 a.toNat murM = (a * M).toNat := by
  rw [BitVec.toNat_mul]; rfl

theorem mixed_eight (h : BitVec 64) {s : List Nat} (hs : 8 ≤ s.length) :
    mixed h s = mixed ((h ^^^ scramble (BitVec.ofNat 64 (value (s.take 8)))) * M) (s.drop 8) := by
  match s, hs with
  | a :: b :: c :: d :: e :: f :: g :: i :: rest, _ => rfl

theorem mixed_rest (h : BitVec 64) {s : List Nat} (hs : s.length < 8) :
    mixed h s = if s.length = 0 then h else (h ^^^ BitVec.ofNat 64 (value s)) * M := by
  unfold mixed
  split
  · simp at hs; omega
  · rfl
  · rename_i h1 h2
    rw [if_neg]
    intro h0
    exact h2 (List.length_eq_zero_iff.1 h0)

theorem xor_high {a b n : Nat} (h : b < 2 ^ n) : b + 2 ^ n * a = (2 ^ n * a) ^^^ b := by
  apply Nat.eq_of_testBit_eq
  intro i
  rw [Nat.add_comm, Nat.testBit_xor, Nat.testBit_two_pow_mul_add _ h, Nat.testBit_two_pow_mul]
  by_cases hi : i < n
  · simp [hi, show ¬ n ≤ i by omega]
  · have : b.testBit i = false := Nat.testBit_lt_two_pow (Nat.lt_of_lt_of_le h (Nat.pow_le_pow_right (by omega) (by omega)))
    simp [hi, this, show n ≤ i by omega]

/-- The switch mixes in the value of the bytes that are left. -/
theorem murTail_value {mem : List Nat} {p : Nat} {s : List Nat} (c : CStr mem p s) (hb : ∀ b ∈ s, b < 256) (i : Nat) :
    ∀ (r h : Nat), i + r ≤ s.length → murTail mem (p + i) r h = .ok (h ^^^ value ((s.drop i).take r)) := by
  intro r
  induction r with
  | zero => intro h _; simp [murTail, value]
  | succ r ih =>
    intro h hi
    have hil : i + r < s.length := by omega
    simp only [murTail, Nat.add_assoc, c.rd (show i + r ≤ s.length by omega), Res.ok_bind]
    rw [ih _ (by omega), List.getElem?_eq_getElem hil, Option.getD_some]
    congr 1
    have hd : r < (s.drop i).length := by rw [List.length_drop]; omega
    have hlen : ((s.drop i).take r).length = r := by rw [List.length_take]; omega
    have hv := value_lt (s := (s.drop i).take r) fun b h => hb b (List.mem_of_mem_drop (List.mem_of_mem_take h))
    rw [hlen] at hv
    rw [show (256 : Nat) = 2 ^ 8 from rfl, ← Nat.pow_mul] at hv
    rw [List.take_succ_eq_append_getElem hd, value_append, hlen]
    rw [show (256 : Nat) = 2 ^ 8 from rfl, ← Nat.pow_mul, xor_high hv]
    simp only [value, Nat.mul_zero, Nat.add_zero, List.getElem_drop]
    rw [Nat.shiftLeft_eq, Nat.mul_comm (s[i + r]), Nat.xor_assoc]

theorem murBlocks_value {mem : List Nat} {p : Nat} {s : List Nat} (c : CStr mem p s) (hb : ∀ b ∈ s, b < 256) :
    ∀ (n i : Nat) (h : BitVec 64), i + 8 * n ≤ s.length →
    ∃ h', murBlocks mem n (p + i) h.toNat = .ok (p + (i + 8 * n), h'.toNat) ∧
      mixed h (s.drop i) = mixed h' (s.drop (i + 8 * n)) := by
  intro n
  induction n with
  | zero => intro i h _; exact ⟨h, by simp [murBlocks], by simp⟩
  | succ n ih =>
    intro i h hi
    have hl := loadLE_value c 8 i (by omega)
    have hlen : ((s.drop i).take 8).length = 8 := by rw [List.length_take, List.length_drop]; omega
    have hv := value_lt (s := (s.drop i).take 8) fun b h => hb b (List.mem_of_mem_drop (List.mem_of_mem_take h))
    rw [hlen] at hv
    have hk : value ((s.drop i).take 8) = (BitVec.ofNat 64 (value ((s.drop i).take 8))).toNat := by
      rw [BitVec.toNat_ofNat, Nat.mod_eq_of_lt hv]
    rw [mixed_eight _ (by rw [List.length_drop]; omega), List.drop_drop]
    obtain ⟨h', h1, h2⟩ := ih (i + 8) ((h ^^^ scramble (BitVec.ofNat 64 (value ((s.drop i).take 8)))) * M) (by omega)
    refine ⟨h', ?_, ?_⟩
    · simp only [murBlocks, hl, Res.ok_bind]
      rw [Nat.add_assoc, show i + 8 * (n + 1) = i + 8 + 8 * n by omega, ← h1]
      unfold scramble
      generalize BitVec.ofNat 64 (value ((s.drop i).take 8)) = k at hk
      rw [hk, mul64_toNat, ← BitVec.toNat_ushiftRight, ← BitVec.toNat_xor, mul64_toNat, ← BitVec.toNat_xor, mul64_toNat]
    · rw [h2]
      congr 2
      omega

/-- **C17.** The hash of a string is the low half of its MurmurHash64A with seed 0. -/
theorem murmur_reference {mem : List Nat} {p : Nat} {s : List Nat} (c : CStr mem p s) (hb : ∀ b ∈ s, b < 256) :
    murmur mem p = .ok ((murmur64a s).toNat % 2 ^ 32) := by
  obtain ⟨h', h1, h2⟩ := murBlocks_value c hb (s.length / 8) 0 (BitVec.ofNat 64 s.length * M) (by omega)
  have h3 := murTail_value c hb (0 + 8 * (s.length / 8)) (s.length % 8) h'.toNat (by omega)
  have hlen : (s.drop (0 + 8 * (s.length / 8))).length = s.length % 8 := by rw [List.length_drop]; omega
  rw [List.take_of_length_le (by omega)] at h3
  rw [List.drop_zero, mixed_rest h' (by rw [hlen]; omega)] at h2
  rw [Nat.add_zero] at h1
  have h0 : mul64 s.length murM = (BitVec.ofNat 64 s.length * M).toNat := by
    rw [BitVec.toNat_mul, BitVec.toNat_ofNat, Nat.mod_mul_mod]; rfl
  have hv := value_lt (s := s.drop (0 + 8 * (s.length / 8))) fun b h => hb b (List.mem_of_mem_drop h)
  rw [hlen] at hv h2
  have hv : value (s.drop (0 + 8 * (s.length / 8))) < 2 ^ 64 :=
    Nat.lt_of_lt_of_le hv (by
      rw [show (2 : Nat) ^ 64 = 256 ^ 8 from rfl]
      exact Nat.pow_le_pow_right (by omega) (by omega))
  have hk : value (s.drop (0 + 8 * (s.length / 8))) = (BitVec.ofNat 64 (value (s.drop (0 + 8 * (s.length / 8))))).toNat := by
    rw [BitVec.toNat_ofNat, Nat.mod_eq_of_lt hv]
  have fin : ∀ h : BitVec 64, mul64 (h.toNat ^^^ h.toNat >>> 47) murM ^^^ mul64 (h.toNat ^^^ h.toNat >>> 47) murM >>> 47 = (finish h).toNat := by
    intro h
    unfold finish
    rw [← BitVec.toNat_ushiftRight, ← BitVec.toNat_xor, mul64_toNat, ← BitVec.toNat_ushiftRight, ← BitVec.toNat_xor]
  unfold murmur murmur64a
  simp only [strlen_eq c, Res.ok_bind, h0, h1, h3, Res.pure_eq]
  rw [h2, ← fin, show (2 : Nat) ^ 32 = 4294967296 from rfl]
  by_cases hr : s.length % 8 = 0
  · have hz : value (s.drop (0 + 8 * (s.length / 8))) = 0 := by
      rw [List.length_eq_zero_iff.1 (hlen.trans hr)]; rfl
    rw [if_pos hr, if_pos hr, hz, Nat.xor_zero]
  · rw [if_neg hr, if_neg hr, hk, ← BitVec.toNat_xor, mul64_toNat, ← hk]

/-- The hash of "hello world". -/
example : murmur ([104, 101, 108, 108, 111, 32, 119, 111, 114, 108, 100] ++ [0]) 0 = .ok 2821894094 := by
  decide +kernel

end Verif.Map
