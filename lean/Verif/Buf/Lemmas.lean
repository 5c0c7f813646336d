import Verif.Buf.Spec

/-! # Lemmas about the buffer functions -/

namespace Verif.Buf

/-! ## Little-endian -/

@[simp] theorem length_le (n v : Nat) : (le n v).length = n := by
  induction n generalizing v <;> simp_all [le]

theorem leVal_le (n v : Nat) : leVal (le n v) = v % 256 ^ n := by
  induction n generalizing v with
  | zero => simp [le, leVal, Nat.mod_one]
  | succ n ih =>
    simp only [le, leVal, ih]
    rw [UInt8.toNat_ofNat', Nat.pow_succ 256 n, Nat.mul_comm (256 ^ n) 256, Nat.mod_mul]
    omega

theorem leVal_lt (bs : List UInt8) : leVal bs < 256 ^ bs.length := by
  induction bs with
  | nil => simp [leVal]
  | cons b bs ih =>
    have := b.toNat_lt
    simp only [leVal, List.length_cons, Nat.pow_succ]
    omega

theorem le_leVal (bs : List UInt8) : le bs.length (leVal bs) = bs := by
  induction bs with
  | nil => rfl
  | cons b bs ih =>
    have := b.toNat_lt
    simp only [leVal, List.length_cons, le]
    rw [show (b.toNat + 256 * leVal bs) % 256 = b.toNat by omega,
      show (b.toNat + 256 * leVal bs) / 256 = leVal bs by omega, ih]
    simp

theorem or_shl {a b k : Nat} (h : a < 2 ^ k) : a ||| b <<< k = a + b * 2 ^ k := by
  rw [Nat.or_comm, ← Nat.shiftLeft_add_eq_or_of_lt h, Nat.shiftLeft_eq, Nat.add_comm]

theorem slice_one {m : List α} {p : Nat} (h : p < m.length) : slice m p 1 = [m[p]] := by
  unfold slice
  rw [List.drop_eq_getElem_cons h]; rfl

theorem slice_succ {m : List α} {p n : Nat} (h : p < m.length) :
    slice m p (n + 1) = m[p] :: slice m (p + 1) n := by
  unfold slice
  rw [List.drop_eq_getElem_cons h]; rfl

theorem Width.load_eq {m : List UInt8} {p : Nat} (w : Width) (h : p + w.bytes ≤ m.length) :
    w.load m p = .ok (leVal (slice m p w.bytes)) := by
  cases w with
  | w8 =>
    simp only [Width.bytes] at h
    rw [Width.load, rd_lt (by omega)]
    simp only [Res.ok_bind, Width.bytes, slice_one (show p < m.length by omega), leVal]
    simp
  | w16 =>
    simp only [Width.bytes] at h
    rw [Width.load, rd_lt (show p < _ by omega), Res.ok_bind, rd_lt (show p + 1 < _ by omega),
      Res.ok_bind]
    rw [Width.bytes, slice_succ (by omega), slice_succ (by omega)]
    generalize m[p] = a0, m[p + 1] = a1
    have h0 := a0.toNat_lt
    rw [Nat.shiftLeft_zero, or_shl (by omega)]
    simp [leVal, slice]; omega
  | w32 =>
    simp only [Width.bytes] at h
    rw [Width.load, rd_lt (show p < _ by omega), Res.ok_bind, rd_lt (show p + 1 < _ by omega),
      Res.ok_bind, rd_lt (show p + 2 < _ by omega), Res.ok_bind, rd_lt (show p + 3 < _ by omega),
      Res.ok_bind]
    rw [Width.bytes, slice_succ (by omega), slice_succ (by omega), slice_succ (by omega),
      slice_succ (by omega)]
    generalize m[p] = a0, m[p + 1] = a1, m[p + 2] = a2, m[p + 3] = a3
    have h0 := a0.toNat_lt; have h1 := a1.toNat_lt; have h2 := a2.toNat_lt
    rw [Nat.shiftLeft_zero, or_shl (b := a1.toNat) (by omega),
      or_shl (b := a2.toNat) (by omega), or_shl (b := a3.toNat) (by omega)]
    simp [leVal, slice]; omega
  | w64 =>
    simp only [Width.bytes] at h
    rw [Width.load, rd_lt (show p < _ by omega), Res.ok_bind, rd_lt (show p + 1 < _ by omega),
      Res.ok_bind, rd_lt (show p + 2 < _ by omega), Res.ok_bind, rd_lt (show p + 3 < _ by omega),
      Res.ok_bind, rd_lt (show p + 4 < _ by omega), Res.ok_bind, rd_lt (show p + 5 < _ by omega),
      Res.ok_bind, rd_lt (show p + 6 < _ by omega), Res.ok_bind, rd_lt (show p + 7 < _ by omega),
      Res.ok_bind]
    rw [Width.bytes, slice_succ (by omega), slice_succ (by omega), slice_succ (by omega),
      slice_succ (by omega), slice_succ (by omega), slice_succ (by omega), slice_succ (by omega),
      slice_succ (by omega)]
    generalize m[p] = a0, m[p + 1] = a1, m[p + 2] = a2, m[p + 3] = a3, m[p + 4] = a4,
      m[p + 5] = a5, m[p + 6] = a6, m[p + 7] = a7
    have h0 := a0.toNat_lt; have h1 := a1.toNat_lt; have h2 := a2.toNat_lt
    have h3 := a3.toNat_lt; have h4 := a4.toNat_lt; have h5 := a5.toNat_lt
    have h6 := a6.toNat_lt
    rw [Nat.shiftLeft_zero, or_shl (b := a1.toNat) (by omega),
      or_shl (b := a2.toNat) (by omega), or_shl (b := a3.toNat) (by omega),
      or_shl (b := a4.toNat) (by omega), or_shl (b := a5.toNat) (by omega),
      or_shl (b := a6.toNat) (by omega), or_shl (b := a7.toNat) (by omega)]
    simp [leVal, slice]; omega

theorem ofNat_mod (v : Nat) : UInt8.ofNat (v % 256) = UInt8.ofNat v := by
  apply UInt8.toNat_inj.1
  simp

theorem set_eq_splice {m : List α} {p : Nat} {a : α} (h : p < m.length) :
    m.set p a = splice m p [a] := by
  apply List.ext_getElem?
  intro i
  rw [splice_getElem? (by simp; omega), List.getElem?_set]
  grind

theorem splice_splice {m : List α} {p : Nat} {a b : List α}
    (h : p + a.length + b.length ≤ m.length) :
    splice (splice m p a) (p + a.length) b = splice m p (a ++ b) := by
  apply List.ext_getElem?
  intro i
  rw [splice_getElem? (by rw [length_splice (by omega)]; omega), splice_getElem? (by omega),
    splice_getElem? (by simp; omega)]
  grind

theorem wr_splice {m : List α} {p : Nat} {bs : List α} {a : α} {q : Nat} (hq : q = p + bs.length)
    (h : q < m.length) : wr (splice m p bs) q a = .ok (splice m p (bs ++ [a])) := by
  subst hq
  have hl : (splice m p bs).length = m.length := length_splice (by omega)
  rw [wr_lt (by omega), set_eq_splice (by omega), splice_splice (by simp; omega)]

theorem Width.store_eq {m : List UInt8} {p v : Nat} (w : Width) (h : p + w.bytes ≤ m.length) :
    w.store m p v = .ok (splice m p (le w.bytes v)) := by
  cases w with
  | w8 =>
    simp only [Width.bytes] at h
    rw [Width.store, wr_lt (by omega), set_eq_splice (by omega)]
    simp only [Width.bytes, le, ofNat_mod]
  | w16 =>
    simp only [Width.bytes] at h
    rw [Width.store, wr_lt (by omega), set_eq_splice (by omega), Res.ok_bind,
      wr_splice (by rfl) (by omega)]
    simp [Width.bytes, le, ofNat_mod, Nat.shiftRight_eq_div_pow]
  | w32 =>
    simp only [Width.bytes] at h
    rw [Width.store, wr_lt (by omega), set_eq_splice (by omega), Res.ok_bind,
      wr_splice (by rfl) (by omega), Res.ok_bind, wr_splice (by rfl) (by omega), Res.ok_bind,
      wr_splice (by rfl) (by omega)]
    simp [Width.bytes, le, ofNat_mod, Nat.shiftRight_eq_div_pow, Nat.div_div_eq_div_mul]
  | w64 =>
    simp only [Width.bytes] at h
    rw [Width.store, wr_lt (by omega), set_eq_splice (by omega), Res.ok_bind,
      wr_splice (by rfl) (by omega), Res.ok_bind, wr_splice (by rfl) (by omega), Res.ok_bind,
      wr_splice (by rfl) (by omega), Res.ok_bind, wr_splice (by rfl) (by omega), Res.ok_bind,
      wr_splice (by rfl) (by omega), Res.ok_bind, wr_splice (by rfl) (by omega), Res.ok_bind,
      wr_splice (by rfl) (by omega)]
    simp [Width.bytes, le, ofNat_mod, Nat.shiftRight_eq_div_pow, Nat.div_div_eq_div_mul]

end Verif.Buf
