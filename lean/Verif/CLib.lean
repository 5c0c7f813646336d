import Verif.CMem

/-!
# The string functions of the C library

What C11 7.24 says about `memcmp`, `strcmp`, `strchr`, `strspn`, `strcspn` and `strstr`, on the
memory of `Verif.CMem`. An argument that has to be a string and is not terminated inside its
block makes the call undefined.
-/

namespace Verif

/-- The content of the NUL-terminated string at `p`. -/
def cstr (mem : List UInt8) (p : Nat) : Res (List UInt8) := do
  let n ← strlen mem p
  .ok (slice mem p n)

theorem cstr_eq {mem : List UInt8} {p : Nat} {s : List UInt8} (c : CStr mem p s) :
    cstr mem p = .ok s := by
  rw [cstr, strlen_eq c, Res.ok_bind, c.slice]

theorem CStr.suffix {mem : List UInt8} {p : Nat} {a b : List UInt8} (c : CStr mem p (a ++ b)) :
    CStr mem (p + a.length) b := by
  refine ⟨?_, fun x hx => c.nonzero x (by simp [hx]), ?_⟩
  · intro i hi
    have := c.bytes (a.length + i) (by simp; omega)
    rw [List.getElem_append_right (by omega)] at this
    rw [Nat.add_assoc, this]
    simp
  · have := c.nul
    rw [List.length_append, ← Nat.add_assoc] at this
    exact this

/-- `memcmp(a, b, n) == 0` (C11 7.24.4.1). -/
def memcmpEq (a b : List UInt8) (n : Nat) : Res Bool :=
  if n ≤ a.length ∧ n ≤ b.length then .ok (a.take n == b.take n) else .ub

/-- `strchr(set, c) != NULL` (C11 7.24.5.2): the terminator is considered part of the string. -/
def strchr (set : List UInt8) (c : UInt8) : Res Bool := do
  let s ← cstr set 0
  .ok (c == 0 || s.contains c)

/-- `strspn(p, set)` (C11 7.24.5.6). -/
def strspn (mem : List UInt8) (p : Nat) (set : List UInt8) : Res Nat := do
  let d ← cstr set 0
  let s ← cstr mem p
  .ok (s.takeWhile (d.contains ·)).length

/-- `strcspn(p, set)` (C11 7.24.5.3). -/
def strcspn (mem : List UInt8) (p : Nat) (set : List UInt8) : Res Nat := do
  let d ← cstr set 0
  let s ← cstr mem p
  .ok (s.takeWhile (fun c => !d.contains c)).length

/-- The first index at which `r` occurs in `s`. -/
def firstOcc (r : List UInt8) : List UInt8 → Option Nat
  | [] => if r = [] then some 0 else none
  | c :: s => if r.isPrefixOf (c :: s) then some 0 else (firstOcc r s).map (· + 1)

/-- `strstr(p, r)` (C11 7.24.5.7): the index of the first occurrence. -/
def strstr (mem : List UInt8) (p : Nat) (r : List UInt8) : Res (Option Nat) := do
  let r ← cstr r 0
  let s ← cstr mem p
  .ok ((firstOcc r s).map (p + ·))

/-- `r` occurs in `s` at `i`. -/
def OccursAt (r s : List UInt8) (i : Nat) : Prop := ∃ u v, s = u ++ r ++ v ∧ u.length = i

theorem firstOcc_none {r s : List UInt8} : firstOcc r s = none ↔ ∀ i, ¬ OccursAt r s i := by
  induction s with
  | nil =>
    unfold firstOcc
    constructor
    · intro h i ⟨u, v, e, _⟩
      have := congrArg List.length e
      simp only [List.length_nil, List.length_append] at this
      have : r = [] := List.length_eq_zero_iff.1 (by omega)
      rw [if_pos this] at h
      cases h
    · intro h
      split
      · next hr => subst hr; exact absurd ⟨[], [], rfl, rfl⟩ (h 0)
      · rfl
  | cons c s ih =>
    unfold firstOcc
    constructor
    · intro h i ⟨u, v, e, hu⟩
      split at h
      · cases h
      · next hp =>
        cases u with
        | nil => exact hp (List.isPrefixOf_iff_prefix.2 ⟨v, by simpa using e.symm⟩)
        | cons c' u =>
          simp only [List.cons_append, List.cons.injEq] at e
          exact ih.1 (by simpa using h) _ ⟨u, v, e.2, rfl⟩
    · intro h
      split
      · next hp =>
        obtain ⟨v, hv⟩ := List.isPrefixOf_iff_prefix.1 hp
        exact absurd ⟨[], v, by simpa using hv.symm, rfl⟩ (h 0)
      · rw [ih.2 ?_]
        · rfl
        · intro i ⟨u, v, e, hu⟩
          exact h (i + 1) ⟨c :: u, v, by simp [e], by simp [hu]⟩

theorem firstOcc_some {r s : List UInt8} {i : Nat} : firstOcc r s = some i →
    OccursAt r s i ∧ ∀ j < i, ¬ OccursAt r s j := by
  induction s generalizing i with
  | nil =>
    unfold firstOcc
    split
    · next hr => intro h; cases h; exact ⟨⟨[], [], by simp [hr], rfl⟩, by omega⟩
    · intro h; cases h
  | cons c s ih =>
    unfold firstOcc
    split
    · next hp =>
      intro h; cases h
      obtain ⟨v, hv⟩ := List.isPrefixOf_iff_prefix.1 hp
      exact ⟨⟨[], v, by simpa using hv.symm, rfl⟩, by omega⟩
    · next hp =>
      intro h
      obtain ⟨k, hk, rfl⟩ := Option.map_eq_some_iff.1 h
      obtain ⟨⟨u, v, e, hu⟩, hn⟩ := ih hk
      refine ⟨⟨c :: u, v, by simp [e], by simp [hu]⟩, ?_⟩
      intro j hj ⟨u', v', e', hu'⟩
      cases u' with
      | nil => exact hp (List.isPrefixOf_iff_prefix.2 ⟨v', by simpa using e'.symm⟩)
      | cons c' u' =>
        simp only [List.cons_append, List.cons.injEq] at e'
        simp only [List.length_cons] at hu'
        exact hn (j - 1) (by omega) ⟨u', v', e'.2, by omega⟩

end Verif
