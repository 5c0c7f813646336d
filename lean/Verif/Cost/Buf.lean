import Verif.Buf.Model
import Verif.Cost.Array

/-! # What growing a buffer costs -/

namespace Verif.Buf

/-- The sizes of the memory of a buffer while the same bytes are put into it again and again -/
def blocks (al : Alloc UInt8) (src : List UInt8) (b : B) : Nat → Res (List Nat)
  | 0 => .ok [b.mem.length]
  | n + 1 => do
    let b' ← putRaw al b src src.length
    let l ← blocks al src b' n
    .ok (b.mem.length :: l)

/-- `0`, `4096`, ... -/
def stairs (from_ : Nat) : Nat → List Nat
  | 0 => [4096 * from_]
  | n + 1 => 4096 * from_ :: stairs (from_ + 1) n

theorem stairs_head (j n : Nat) : (stairs j n).head? = some (4096 * j) := by cases n <;> rfl

theorem stairs_copied (n : Nat) : ∀ j, 2 * Cost.copied (stairs j n) = 4096 * n * (2 * j + n - 1) := by
  induction n with
  | zero => intro j; simp [stairs, Cost.copied]
  | succ n ih =>
    intro j
    rw [stairs, Cost.copied_cons (stairs_head _ _), if_neg (by omega), Nat.mul_add, ih]
    cases n with
    | zero => simp; omega
    | succ n =>
      have e1 : 2 * (j + 1) + (n + 1) - 1 = 2 * j + n + 2 := by omega
      have e2 : 2 * j + (n + 1 + 1) - 1 = 2 * j + n + 1 := by omega
      rw [e1, e2]
      simp only [Nat.mul_add, Nat.add_mul]
      omega

theorem put_page {fill : Nat → UInt8} {src : List UInt8} (hs : src.length = 4096) {b : B} {j : Nat} (hj : j < 2 ^ 40)
    (_hm : b.mem.length = 4096 * j) (hc : b.cap = 4096 * j) (hw : b.wpos = 4096 * j) (he : b.err = 0) (hr : b.ref = false)
    (hl : b.limit = BUF_MAX) :
    ∃ b', putRaw (some fill) b src src.length = .ok b' ∧ b'.mem.length = 4096 * (j + 1) ∧ b'.cap = 4096 * (j + 1) ∧
      b'.wpos = 4096 * (j + 1) ∧ b'.err = 0 ∧ b'.ref = false ∧ b'.limit = BUF_MAX := by
  have hsz : mul64 (add64 (add64 b.cap 4096) 4095 / 4096) 4096 = 4096 * (j + 1) := by
    unfold mul64 add64; omega
  have hres : reserve (some fill) b src.length =
      .ok (true, { b with cap := 4096 * (j + 1), mem := resized b.mem (4096 * (j + 1)) fill }) := by
    unfold reserve
    have h1 : add64 b.wpos src.length > b.cap := by unfold add64; omega
    rw [if_pos h1, hr]
    simp only [Bool.false_eq_true, if_false]
    rw [hs, hsz, if_neg (by omega)]
    unfold realloc
    rw [hr]
    simp only [Bool.false_eq_true, or_false]
    rw [if_neg (by omega), if_pos (by omega)]
    rfl
  unfold putRaw
  rw [hres]
  simp only [Res.ok_bind, Bool.not_true, Bool.false_eq_true, if_false]
  unfold setData
  have h2 : ¬ (b.err ≠ 0 ∨ add64 b.wpos src.length > 4096 * (j + 1)) := by unfold add64; omega
  simp only
  rw [if_neg h2, if_neg (by omega)]
  have hcp : ∃ m, memcpy (resized b.mem (4096 * (j + 1)) fill) b.wpos src 0 src.length = .ok m ∧ m.length = 4096 * (j + 1) := by
    unfold memcpy
    rw [if_pos ⟨by rw [length_resized]; omega, by omega⟩]
    refine ⟨_, rfl, ?_⟩
    rw [length_splice, length_resized]
    rw [length_slice (by omega), length_resized]
    omega
  obtain ⟨m, hm', hml⟩ := hcp
  rw [hm']
  refine ⟨_, rfl, hml, rfl, ?_, he, hr, hl⟩
  simp only
  unfold add64
  omega

theorem blocks_stairs {fill : Nat → UInt8} {src : List UInt8} (hs : src.length = 4096) (n : Nat) : ∀ {b : B} {j : Nat}, j + n ≤ 2 ^ 40 →
    b.mem.length = 4096 * j → b.cap = 4096 * j → b.wpos = 4096 * j → b.err = 0 → b.ref = false → b.limit = BUF_MAX →
    blocks (some fill) src b n = .ok (stairs j n) := by
  induction n with
  | zero => intro b j hj hm hc hw he hr hl; simp [blocks, stairs, hm]
  | succ n ih =>
    intro b j hj hm hc hw he hr hl
    obtain ⟨b', hp, hm', hc', hw', he', hr', hl'⟩ := put_page (fill := fill) hs (by omega) hm hc hw he hr hl
    simp only [blocks, hp, Res.ok_bind]
    rw [ih (by omega) hm' hc' hw' he' hr' hl']
    simp [stairs, hm]

/-- **C120 is violated** by buffers: they grow by what is missing only, so that putting `n` times 4096 bytes into an empty buffer copies
`n * (n - 1) / 2` times 4096 bytes; the number of bytes copied for each byte that is put is not bounded. -/
theorem buf_copies_violated {fill : Nat → UInt8} {src : List UInt8} (hs : src.length = 4096) {n : Nat} (hn : n ≤ 2 ^ 40) :
    ∃ l, blocks (some fill) src (init true 0).2 n = .ok l ∧ 2 * Cost.copied l = 4096 * n * (n - 1) := by
  refine ⟨stairs 0 n, blocks_stairs hs n (by omega) rfl rfl rfl rfl rfl rfl, ?_⟩
  rw [stairs_copied]
  congr 1
  omega

end Verif.Buf
