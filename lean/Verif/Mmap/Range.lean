import Verif.Bits
import Verif.Mmap.Props

/-! # Memory maps: ranges, Apple, Windows -/

namespace Verif.Mmap

open Spec (Mapping Event Reaches)
open Thread (Texts)

/-! ## Ranges -/

/-- Rounding down to a page. -/
theorem mask_page {off k : Nat} (ho : off < 2 ^ 64) (hk : k ≤ 64) : off &&& (2 ^ 64 - 1 - (2 ^ k - 1)) = off / 2 ^ k * 2 ^ k := by
  have hp : 0 < 2 ^ k := Nat.two_pow_pos k
  have hle : 2 ^ k ≤ 2 ^ 64 := Nat.pow_le_pow_right (by decide) hk
  have e : 2 ^ 64 - 1 - (2 ^ k - 1) = 2 ^ 64 - ((2 ^ k - 1) + 1) := by omega
  rw [e]
  apply Nat.eq_of_testBit_eq
  intro i
  rw [Nat.testBit_and, Nat.testBit_two_pow_sub_succ (by omega), Nat.testBit_two_pow_sub_one, Nat.mul_comm,
    Nat.testBit_two_pow_mul, Nat.testBit_div_two_pow]
  by_cases h64 : i < 64
  · by_cases hik : i < k
    · simp [hik, h64, Nat.not_le.2 hik]
    · have : k ≤ i := by omega
      simp [hik, h64, this]
  · have h0 : off.testBit i = false := Nat.testBit_lt_two_pow (Nat.lt_of_lt_of_le ho (Nat.pow_le_pow_right (by decide) (by omega)))
    by_cases hik : i < k
    · omega
    · have : k ≤ i := by omega
      simp [h64, h0, this]

/-- The range `msync` is called for: rounded down at its start, of the same length. -/
theorem msync_range {strerror : Int → List UInt8} {r : Except Int Unit} {os os' : Os} {m m' : Obj} {off len k : Nat} {rc : Int}
    {rg : Range} (hk : m.pageSize = (2 ^ k : Nat)) (hk' : k ≤ 64) (ho : off < 2 ^ 64)
    (h : msync strerror r os m off len = .ok (rc, rg, os', m')) : rg = ⟨m.ptr + off / 2 ^ k * 2 ^ k, len⟩ := by
  unfold msync at h
  simp only [Res.bind_eq_ok, Res.ok.injEq, Prod.mk.injEq] at h
  obtain ⟨_, -, -, rfl, -, -⟩ := h
  have hp : 0 < 2 ^ k := Nat.two_pow_pos k
  have e : (((2 ^ k : Nat) : Int) - 1).toNat = 2 ^ k - 1 := by omega
  simp only [msyncAddr, hk, e, mask_page ho hk']

theorem page_div {p q y : Nat} (hp : 0 < p) : (q * p + y) / p = q + y / p := by
  rw [Nat.add_comm, Nat.add_mul_div_right _ _ hp, Nat.add_comm]

/-- **C69.** Exactly when every byte asked for is written back: when the last page of the range that
is passed on is the last page of the range asked for. -/
theorem msync_covers_iff {strerror : Int → List UInt8} {r : Except Int Unit} {os os' : Os} {m m' : Obj} {off len k : Nat}
    {rc : Int} {rg : Range} (hk : m.pageSize = (2 ^ k : Nat)) (hk' : k ≤ 64) (hm : m.ptr % 2 ^ k = 0) (ho : off < 2 ^ 64)
    (h : msync strerror r os m off len = .ok (rc, rg, os', m')) :
    (∀ b, m.ptr + off ≤ b → b < m.ptr + off + len → Reaches (2 ^ k) rg.addr rg.len b) ↔
      (len = 0 ∨ (off / 2 ^ k * 2 ^ k + len - 1) / 2 ^ k = (off + len - 1) / 2 ^ k) := by
  rw [msync_range hk hk' ho h]
  simp only [Reaches]
  have hp : 0 < 2 ^ k := Nat.two_pow_pos k
  generalize 2 ^ k = p at hp hm
  obtain ⟨q, hq⟩ : ∃ q, m.ptr = q * p := ⟨m.ptr / p, by have := Nat.div_add_mod m.ptr p; rw [hm, Nat.mul_comm] at this; omega⟩
  have hA : off / p * p ≤ off := Nat.div_mul_le_self off p
  generalize off / p * p = A at hA
  rw [hq]
  constructor
  · intro hb
    by_cases hl : len = 0
    · exact .inl hl
    · right
      obtain ⟨x, h1, h2, h3⟩ := hb (q * p + (off + len - 1)) (by omega) (by omega)
      obtain ⟨y, rfl⟩ : ∃ y, x = q * p + y := ⟨x - q * p, by omega⟩
      rw [page_div hp, page_div hp] at h3
      have e1 : y / p ≤ (A + len - 1) / p := Nat.div_le_div_right (by omega)
      have e2 : (A + len - 1) / p ≤ (off + len - 1) / p := Nat.div_le_div_right (by omega)
      omega
  · rintro (h0 | h0) b hb1 hb2
    · omega
    · obtain ⟨c, rfl⟩ : ∃ c, b = q * p + c := ⟨b - q * p, by omega⟩
      by_cases hc : c < A + len
      · exact ⟨q * p + c, by omega, by omega, rfl⟩
      · refine ⟨q * p + (A + len - 1), by omega, by omega, ?_⟩
        rw [page_div hp, page_div hp]
        have e1 : (A + len - 1) / p ≤ c / p := Nat.div_le_div_right (by omega)
        have e2 : c / p ≤ (off + len - 1) / p := Nat.div_le_div_right (by omega)
        omega

/-- **C69.** Ranges that start at a page are written back. Missing: the others, for which the length
is not extended by what the start moved. -/
theorem msync_covers_partial {strerror : Int → List UInt8} {r : Except Int Unit} {os os' : Os} {m m' : Obj} {off len k : Nat}
    {rc : Int} {rg : Range} (hk : m.pageSize = (2 ^ k : Nat)) (hk' : k ≤ 64) (hm : m.ptr % 2 ^ k = 0) (ho : off < 2 ^ 64)
    (hpage : off % 2 ^ k = 0) (h : msync strerror r os m off len = .ok (rc, rg, os', m')) :
    ∀ b, m.ptr + off ≤ b → b < m.ptr + off + len → Reaches (2 ^ k) rg.addr rg.len b := by
  refine (msync_covers_iff hk hk' hm ho h).2 (.inr ?_)
  rw [Nat.div_mul_cancel (Nat.dvd_of_mod_eq_zero hpage)]

/-- **C69, violated.** Two bytes, the last of a page and the first of the next: success is reported
and the second is not written back. -/
theorem msync_covers_violated : ∃ (m m' : Obj) (os os' : Os) (rg : Range) (b : Nat), m.pageSize = 4096 ∧ m.len = 8192 ∧
    msync (fun _ => [0]) (.ok ()) os m 4095 2 = .ok (0, rg, os', m') ∧ m.ptr + 4095 ≤ b ∧ b < m.ptr + 4095 + 2 ∧
    ¬ Reaches 4096 rg.addr rg.len b := by
  refine ⟨⟨3, 4096, 8192, 8192, []⟩, ⟨3, 4096, 8192, 8192, []⟩, ⟨[3], [⟨8192, 8192, 0⟩], [], 0⟩, ⟨[3], [⟨8192, 8192, 0⟩], [], 0⟩,
    ⟨8192, 2⟩, 12288, rfl, rfl, ?_, by decide, by decide, ?_⟩
  · rfl
  · rintro ⟨x, h1, h2, h3⟩
    simp only at h1 h2 h3
    omega

/-- `sc_mmap_mlock` and `sc_mmap_munlock` reach every page of the range. -/
theorem mlock_covers {strerror : Int → List UInt8} {r : Except Int Unit} {os os' : Os} {m m' : Obj} {off len page : Nat}
    {rc : Int} {rg : Range} (h : mlock strerror r os m off len = .ok (rc, rg, os', m')) :
    ∀ b, m.ptr + off ≤ b → b < m.ptr + off + len → Reaches page rg.addr rg.len b := by
  unfold mlock at h
  simp only [Res.bind_eq_ok, Res.ok.injEq, Prod.mk.injEq] at h
  obtain ⟨_, -, -, rfl, -, -⟩ := h
  intro b h1 h2
  exact ⟨b, h1, h2, rfl⟩

/-- The result of a call on a range is that of the system, and a failure leaves its text. -/
theorem range_result {strerror : Int → List UInt8} (hs : Texts strerror) {r : Except Int Unit} {os os' : Os} {m m' : Obj}
    {off len : Nat} {rc : Int} {rg : Range} (he : ErrOk m)
    (h : msync strerror r os m off len = .ok (rc, rg, os', m') ∨ mlock strerror r os m off len = .ok (rc, rg, os', m')) :
    (rc = 0 ∧ r = .ok () ∧ os' = os ∧ m' = m) ∨ (rc = -1 ∧ ∃ e, r = .error e ∧ TextOf strerror e m' ∧ ErrOk m') := by
  have key : ∃ m₁, note strerror (rangeRes r os).1 (rangeRes r os).2 m = .ok m₁ ∧ (rangeRes r os).1 = rc ∧
      (rangeRes r os).2 = os' ∧ m₁ = m' := by
    rcases h with h | h
    · unfold msync at h
      simp only [Res.bind_eq_ok, Res.ok.injEq, Prod.mk.injEq] at h
      obtain ⟨m₁, h1, h2, -, h3, h4⟩ := h
      exact ⟨m₁, h1, h2, h3, h4⟩
    · unfold mlock at h
      simp only [Res.bind_eq_ok, Res.ok.injEq, Prod.mk.injEq] at h
      obtain ⟨m₁, h1, h2, -, h3, h4⟩ := h
      exact ⟨m₁, h1, h2, h3, h4⟩
  obtain ⟨m₁, h1, rfl, rfl, rfl⟩ := key
  obtain ⟨err, g1, g2, g3, g4⟩ := note_ok hs (rc := (rangeRes r os).1) (os := (rangeRes r os).2) he
  rw [g1] at h1
  injection h1 with h1
  subst h1
  cases r with
  | ok u => exact .inl ⟨rfl, rfl, rfl, by rw [g4 rfl]⟩
  | error e => exact .inr ⟨rfl, e, rfl, g3 (by simp [rangeRes]), g2⟩

/-! ## Apple -/

theorem grow_grow {data : List UInt8} {a b : Nat} (h : a ≤ b) : grow (grow data a) b = grow data b := by
  unfold grow
  rw [List.append_assoc, List.replicate_append_replicate, List.length_append, List.length_replicate]
  congr 2
  omega

theorem grow_self {data : List UInt8} {n : Nat} (h : n ≤ data.length) : grow data n = data := by
  unfold grow
  rw [Nat.sub_eq_zero_of_le h]
  simp

/-- A zero beyond the end only makes the file longer. -/
theorem put0_end {data : List UInt8} {pos : Nat} (h : data.length ≤ pos) : put0 data pos = grow data (pos + 1) := by
  unfold put0 grow
  apply List.ext_getElem?
  intro i
  grind

theorem appleLoop_grow {block len : Nat} (hb : 0 < block) {fuel pos : Nat} {data : List UInt8}
    (h1 : data.length ≤ pos) (h2 : pos ≤ data.length + block - 1)
    (h3 : data.length < len ∨ data.length = len ∧ pos = len + block - 1) (hf : len - data.length < fuel) :
    appleLoop block len fuel pos data = some (grow data len) := by
  induction fuel generalizing pos data with
  | zero => omega
  | succ fuel ih =>
    unfold appleLoop
    rcases h3 with h3 | ⟨h3, h4⟩
    · rw [if_pos (by omega)]
      simp only
      by_cases hp : pos ≥ len
      · rw [if_pos hp, put0_end (by omega), ih (by rw [length_grow]; omega) (by rw [length_grow]; omega)
          (by rw [length_grow]; omega) (by rw [length_grow]; omega), grow_grow (by omega)]
      · rw [if_neg hp, put0_end h1, ih (by rw [length_grow]; omega) (by rw [length_grow]; omega)
          (by rw [length_grow]; omega) (by rw [length_grow]; omega), grow_grow (by omega)]
    · rw [if_neg (by omega), grow_self (by omega)]

/-- What happens to the file, exactly: it is left alone if it has a whole block beyond the map, made
longer if it is shorter than the map, and otherwise loses the last byte of the map. -/
theorem apple_file {block len fuel : Nat} {data : List UInt8} (hb : 0 < block) (hl : 0 < len) (hf : len + 1 < fuel) :
    appleExtend block len fuel data = some (
      if len ≤ data.length / block * block then data
      else if len ≤ data.length then data.set (len - 1) 0
      else grow data len) := by
  have hF : data.length / block * block ≤ data.length := Nat.div_mul_le_self ..
  have hF' : data.length < data.length / block * block + block := by
    have h1 := Nat.div_add_mod data.length block
    have h2 := Nat.mod_lt data.length hb
    rw [Nat.mul_comm] at h1
    omega
  unfold appleExtend
  generalize data.length / block * block = F at hF hF'
  by_cases c1 : len ≤ F
  · rw [if_pos c1]
    obtain ⟨n, rfl⟩ : ∃ n, fuel = n + 1 := ⟨fuel - 1, by omega⟩
    unfold appleLoop
    rw [if_neg (by omega)]
  · rw [if_neg c1]
    by_cases c2 : len ≤ data.length
    · rw [if_pos c2]
      obtain ⟨n, rfl⟩ : ∃ n, fuel = n + 1 + 1 := ⟨fuel - 2, by omega⟩
      unfold appleLoop
      rw [if_pos (by omega)]
      simp only
      rw [if_pos (show F + block - 1 ≥ len by omega)]
      unfold appleLoop
      rw [if_neg (by omega)]
      unfold put0
      rw [grow_self (by omega)]
    · rw [if_neg c2]
      exact appleLoop_grow hb (by omega) (by omega) (.inl (by omega)) (by omega)

/-- On Apple, the contents of the file are kept unless the map ends in its last block. -/
theorem apple_keeps_partial {block len fuel : Nat} {data data' : List UInt8} (hb : 0 < block) (hl : 0 < len)
    (hf : len + 1 < fuel) (h : len ≤ data.length / block * block ∨ data.length < len)
    (h' : appleExtend block len fuel data = some data') : data <+: data' ∧ len ≤ data'.length := by
  rw [apple_file hb hl hf] at h'
  injection h' with h'
  subst h'
  have hF : data.length / block * block ≤ data.length := Nat.div_mul_le_self ..
  rcases h with h | h
  · rw [if_pos h]
    exact ⟨List.prefix_refl _, by omega⟩
  · rw [if_neg (by omega), if_neg (by omega), length_grow]
    exact ⟨prefix_grow .., by omega⟩

/-- On Apple, mapping a whole existing file for writing overwrites its last byte with zero (unless the
size is a multiple of the size of a block): ten bytes 7, mapped in full. -/
theorem apple_keeps_violated : ∃ (data data' : List UInt8), appleExtend 4096 data.length 20 data = some data' ∧
    ¬ data <+: data' ∧ data'[9]? = some 0 ∧ data[9]? = some 7 := by
  refine ⟨List.replicate 10 7, List.replicate 9 7 ++ [0], ?_, ?_, ?_, ?_⟩ <;> decide +kernel

/-- On Apple, the offset is not counted: one block at offset one block of an empty file, and the file
ends where the map begins. -/
theorem apple_offset_violated : ∃ data', appleExtend 4096 4096 4098 [] = some data' ∧ ¬ 4096 + 4096 ≤ data'.length := by
  rw [apple_file (by decide) (by decide) (by decide), if_neg (by decide), if_neg (by decide)]
  exact ⟨_, rfl, by rw [length_grow]; decide⟩

/-! ## Windows -/

theorem halves {off : Nat} (h : off < 2 ^ 64) : ((off >>> 32) &&& 0xFFFFFFFF) * 2 ^ 32 + (off &&& 0xFFFFFFFF) = off := by
  have e : (0xFFFFFFFF : Nat) = 2 ^ 32 - 1 := by decide
  rw [e, Nat.and_two_pow_sub_one_eq_mod, Nat.and_two_pow_sub_one_eq_mod, Nat.shiftRight_eq_div_pow,
    Nat.mod_eq_of_lt (by omega : off / 2 ^ 32 < 2 ^ 32)]
  omega

/-- **C68, Windows.** A creation that failed leaves nothing, not even the handle of the mapping; one
that succeeded holds the descriptor and a view of the file at the offset, and destroying it gives
both back; if the view cannot be removed, the call says so, the descriptor is closed and the object
empty all the same. -/
theorem win_resources {o : WOut} {anon : Bool} {off len : Nat} {w : WOs} (ho : off < 2 ^ 64) :
    (∃ fd ptr n, winInit o anon off len w = .ok (-1, w, fd, ptr, n) ∧ ∀ ok, winTerm ok w fd ptr n = .ok (0, w, fd, ptr, n)) ∨
    (∃ fd ptr n, winInit o anon off len w = .ok (0, { w with fds := fd :: w.fds, views := (ptr, n, off) :: w.views }, fd, ptr, n) ∧
      (len ≠ 0 → n = len) ∧ (∀ size, o.stat = some size → len = 0 → off ≤ size → size < 2 ^ 64 → n = size - off) ∧ o.opn = some fd ∧ o.view = some ptr ∧
      (fd ≠ -1 → winTerm true { w with fds := fd :: w.fds, views := (ptr, n, off) :: w.views } fd ptr n = .ok (0, w, -1, 0, 0) ∧
        winTerm false { w with fds := fd :: w.fds, views := (ptr, n, off) :: w.views } fd ptr n =
          .ok (-1, { w with views := (ptr, n, off) :: w.views }, -1, 0, 0))) := by
  have t : ∀ ok, winTerm ok w (-1) 0 0 = .ok (0, w, -1, 0, 0) := fun ok => by simp [winTerm]
  have c : ∀ fd, wclose { w with fds := fd :: w.fds } fd = .ok w := fun fd => by simp [wclose]
  unfold winInit
  cases hopn : o.opn with
  | none => exact .inl ⟨_, _, _, rfl, t⟩
  | some fd =>
  cases hst : o.stat with
  | none => exact .inl ⟨-1, 0, 0, by simp [c], t⟩
  | some size =>
  simp only
  by_cases h1 : ¬ anon ∧ ¬ o.os
  · rw [if_pos h1]
    exact .inl ⟨-1, 0, 0, by simp [c], t⟩
  rw [if_neg h1]
  by_cases h2 : ¬ o.create
  · rw [if_pos h2]
    exact .inl ⟨-1, 0, 0, by simp [c], t⟩
  rw [if_neg h2]
  cases hv : o.view with
  | none => exact .inl ⟨-1, 0, 0, by simp [c], t⟩
  | some p =>
    right
    refine ⟨fd, p, _, by simp only [halves ho, Nat.add_sub_cancel]; rfl, fun h => if_neg h, ?_, rfl, rfl, fun hfd => ?_⟩
    · intro size' hs h0 hle hlt
      cases hs
      rw [if_pos h0]
      omega
    constructor <;> simp [winTerm, wclose, hfd]

/-! ## Examples -/

/-- Everything succeeds: descriptor 3, a file of 10 bytes, address 4096. -/
def good : Out := ⟨.ok 4096, .ok 3, .ok 10, fun k => if k = 0 then EINTR else 0, fun _ => 5, .ok 4096, 9⟩

/-- A file of ten bytes is mapped for writing with 20 bytes, though the first call that reserves
space is interrupted. -/
example : ∃ os m, init (fun _ => [69, 0]) 5 good true 0 20 ⟨[0, 1, 2], [], List.replicate 10 7, 0⟩ = .ok (some (0, os, m)) ∧
    os.fds = [3, 0, 1, 2] ∧ os.data = List.replicate 10 7 ++ List.replicate 10 0 ∧ m.len = 20 := by
  refine ⟨_, _, rfl, ?_⟩
  decide +kernel

example : good.Fresh ⟨[0, 1, 2], [], List.replicate 10 7, 0⟩ :=
  ⟨fun fd h => by cases h; decide, fun p _ x h => by cases h⟩

/-- `mmap` fails: the descriptor is closed and the text is that of the error of `mmap`, not that of
`close`. -/
example : ∃ os m, init (fun e => [UInt8.ofNat e.toNat, 0]) 5 { good with map := .error 12 } false 0 0
    ⟨[0, 1, 2], [], List.replicate 10 7, 0⟩ = .ok (some (-1, os, m)) ∧
    os.fds = [0, 1, 2] ∧ os.maps = [] ∧ m.err.take 2 = [12, 0] ∧ m.fd = -1 := by
  refine ⟨⟨[0, 1, 2], [], List.replicate 10 7, 12⟩, ⟨-1, 4096, 0, 0, 12 :: List.replicate 127 0⟩, ?_, ?_⟩ <;> decide +kernel

/-- A creation, a destruction and another. -/
example : ∃ s, Run (fun _ => [69, 0]) ⟨⟨[0, 1, 2], [], List.replicate 10 7, 0⟩, ⟨-1, 0, 0, 0, List.replicate 128 0⟩⟩
    [.created 3 ⟨4096, 10, 0⟩, .destroyed, .destroyed] s := by
  have f : good.Fresh ⟨[0, 1, 2], [], List.replicate 10 7, 0⟩ := ⟨fun fd h => by cases h; decide, fun p _ x h => by cases h⟩
  have r0 : Run (fun _ => [69, 0]) ⟨⟨[0, 1, 2], [], List.replicate 10 7, 0⟩, ⟨-1, 0, 0, 0, List.replicate 128 0⟩⟩ [] _ := .refl
  have r1 := r0.step (.created (fuel := 5) (o := good) (wr := false) (off := 0) (len := 0) rfl f rfl)
  have r2 := r1.step (.destroyed (r := .ok ()) rfl)
  have r3 := r2.step (.destroyed (r := .ok ()) rfl)
  exact ⟨_, r3⟩

end Verif.Mmap
