import Verif.Basic

/-!
# C memory: byte blocks, copies and NUL-terminated strings

Shared by the modules that work on bytes. A block is a list of bytes and a pointer into it
is an index. Accesses outside the block are undefined behaviour.
-/

namespace Verif

/-- Bytes `d ..` of `dst` replaced by `bs`. -/
def splice (dst : List α) (d : Nat) (bs : List α) : List α :=
  dst.take d ++ bs ++ dst.drop (d + bs.length)

/-- `n` bytes from `s` on. -/
def slice (src : List α) (s n : Nat) : List α := (src.drop s).take n

/-- `memcpy(dst + d, src + s, n)`, and `memmove` when both are the same block (C11 7.24.2.1,
7.24.2.2). -/
def memcpy (dst : List α) (d : Nat) (src : List α) (s n : Nat) : Res (List α) :=
  if d + n ≤ dst.length ∧ s + n ≤ src.length then .ok (splice dst d (slice src s n)) else .ub

theorem length_slice {src : List α} {s n : Nat} (h : s + n ≤ src.length) :
    (slice src s n).length = n := by
  simp [slice]; omega

theorem slice_getElem? {src : List α} {s n i : Nat} :
    (slice src s n)[i]? = if i < n then src[s + i]? else none := by
  unfold slice
  split
  · rw [List.getElem?_take_of_lt (by assumption), List.getElem?_drop]
  · simp [List.getElem?_take]; omega

theorem length_splice {dst : List α} {d : Nat} {bs : List α} (h : d + bs.length ≤ dst.length) :
    (splice dst d bs).length = dst.length := by
  simp [splice]; omega

theorem splice_getElem? {dst : List α} {d : Nat} {bs : List α} (h : d + bs.length ≤ dst.length)
    {i : Nat} : (splice dst d bs)[i]? =
      if i < d then dst[i]? else if i < d + bs.length then bs[i - d]? else dst[i]? := by
  unfold splice
  split
  · rw [List.append_assoc, List.getElem?_append_left (by simp; omega),
      List.getElem?_take_of_lt (by assumption)]
  · split
    · rw [List.append_assoc, List.getElem?_append_right (by simp; omega),
        List.getElem?_append_left (by simp; omega)]
      simp [Nat.min_eq_left (show d ≤ dst.length by omega)]
    · rw [List.getElem?_append_right (by simp; omega), List.getElem?_drop]
      congr 1; simp; omega

theorem memcpy_ok {dst : List α} {d : Nat} {src : List α} {s n : Nat} (h1 : d + n ≤ dst.length)
    (h2 : s + n ≤ src.length) : memcpy dst d src s n = .ok (splice dst d (slice src s n)) := by
  rw [memcpy, if_pos ⟨h1, h2⟩]

/-- The first `d + n` bytes after writing `bs` at `d`. -/
theorem take_splice {dst : List α} {d : Nat} {bs : List α} (h : d + bs.length ≤ dst.length) :
    (splice dst d bs).take (d + bs.length) = dst.take d ++ bs := by
  unfold splice
  rw [List.take_left' (by simp; omega)]

theorem take_splice_le {dst : List α} {d k : Nat} {bs : List α} (h : d + bs.length ≤ dst.length)
    (hk : k ≤ d) : (splice dst d bs).take k = dst.take k := by
  apply List.ext_getElem?
  intro i
  rw [List.getElem?_take, List.getElem?_take, splice_getElem? h]
  grind

theorem slice_self (bs : List α) : slice bs 0 bs.length = bs := by simp [slice]

theorem slice_append_left {a b : List α} {s n : Nat} (h : s + n ≤ a.length) :
    slice (a ++ b) s n = slice a s n := by
  apply List.ext_getElem?
  intro i
  rw [slice_getElem?, slice_getElem?]
  split
  · rw [List.getElem?_append_left (by omega)]
  · rfl

/-! ## Strings -/

/-- `strlen`, counting from `p + i`. -/
def strlenFrom (mem : List UInt8) (p : Nat) : (fuel i : Nat) → Res Nat
  | 0, _ => .ub
  | fuel + 1, i => do
    let b ← rd mem (p + i)
    if b = 0 then .ok i else strlenFrom mem p fuel (i + 1)

/-- `strlen(p)` (C11 7.24.6.3). -/
def strlen (mem : List UInt8) (p : Nat) : Res Nat := strlenFrom mem p (mem.length + 1) 0

/-- The NUL-terminated string `s` is stored at `p`. -/
structure CStr (mem : List UInt8) (p : Nat) (s : List UInt8) : Prop where
  bytes : ∀ i (h : i < s.length), mem[p + i]? = some s[i]
  nonzero : ∀ b ∈ s, b ≠ 0
  nul : mem[p + s.length]? = some 0

theorem CStr.self {s : List UInt8} (h : ∀ b ∈ s, b ≠ 0) : CStr (s ++ [0]) 0 s :=
  ⟨by intro i hi; rw [Nat.zero_add, List.getElem?_append_left hi, List.getElem?_eq_getElem hi], h,
    by simp⟩

theorem CStr.rd {mem : List UInt8} {p : Nat} {s : List UInt8} (c : CStr mem p s) {i : Nat}
    (h : i ≤ s.length) : rd mem (p + i) = .ok (s[i]?.getD 0) := by
  rw [rd_eq_ok]
  by_cases hi : i < s.length
  · rw [c.bytes i hi]; simp [hi]
  · have : i = s.length := by omega
    subst this
    rw [c.nul]; simp

theorem CStr.lt {mem : List UInt8} {p : Nat} {s : List UInt8} (c : CStr mem p s) :
    p + s.length < mem.length := (List.getElem?_eq_some_iff.1 c.nul).1

theorem CStr.slice {mem : List UInt8} {p : Nat} {s : List UInt8} (c : CStr mem p s) :
    slice mem p s.length = s := by
  apply List.ext_getElem?
  intro i
  rw [slice_getElem?]
  split
  · next h => rw [c.bytes i h, List.getElem?_eq_getElem h]
  · next h => rw [List.getElem?_eq_none (by omega)]

theorem strlenFrom_eq {mem : List UInt8} {p : Nat} {s : List UInt8} (c : CStr mem p s) :
    ∀ (d i fuel : Nat), i + d = s.length → d < fuel → strlenFrom mem p fuel i = .ok s.length := by
  intro d
  induction d with
  | zero =>
    intro i fuel hi hf
    obtain ⟨fuel, rfl⟩ : ∃ f, fuel = f + 1 := ⟨fuel - 1, by omega⟩
    have : i = s.length := by omega
    subst this
    simp [strlenFrom, c.rd]
  | succ d ih =>
    intro i fuel hi hf
    obtain ⟨fuel, rfl⟩ : ∃ f, fuel = f + 1 := ⟨fuel - 1, by omega⟩
    have hil : i < s.length := by omega
    have hne := c.nonzero s[i] (List.getElem_mem hil)
    simp only [strlenFrom, c.rd (Nat.le_of_lt hil), Res.ok_bind]
    rw [List.getElem?_eq_getElem hil]
    simp only [Option.getD_some, hne, if_false]
    exact ih (i + 1) fuel (by omega) (by omega)

theorem strlen_eq {mem : List UInt8} {p : Nat} {s : List UInt8} (c : CStr mem p s) :
    strlen mem p = .ok s.length :=
  strlenFrom_eq c s.length 0 _ (by omega) (by have := c.lt; omega)

/-! ## Formatting -/

/-- `vsnprintf(mem + pos, n, fmt, args)` (C11 7.21.6.12), where `text` is what the format
yields with the arguments, `none` on an encoding error or when it is longer than `INT_MAX`:
at most `n - 1` bytes and a NUL are written, the length of the whole text is returned. -/
def vsnprintf (mem : List UInt8) (pos n : Nat) (text : Option (List UInt8)) :
    Res (List UInt8 × Option Nat) :=
  match text with
  | none => .ok (mem, none)
  | some t =>
    if n = 0 then .ok (mem, some t.length)
    else
      let out := t.take (n - 1) ++ [0]
      if pos + out.length ≤ mem.length then .ok (splice mem pos out, some t.length) else .ub

end Verif
