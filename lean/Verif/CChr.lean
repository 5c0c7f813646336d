import Verif.CNum

/-!
# Searching a string for characters
-/

namespace Verif

/-- `strchr(p, c)` for `c != 0` (C11 7.24.5.2). -/
def strchrAt (mem : List UInt8) (p : Nat) (c : UInt8) : Res (Option Nat) := do
  let s ← cstr mem p
  let n := (s.takeWhile (· ≠ c)).length
  .ok (if n < s.length then some (p + n) else none)

/-- `strcspn(p, set)` (C11 7.24.5.3), `set` being the characters of a literal. -/
def cspn (mem : List UInt8) (p : Nat) (set : List UInt8) : Res Nat := do
  let s ← cstr mem p
  .ok (s.takeWhile (· ∉ set)).length

theorem split_char (c : UInt8) (s : List UInt8) :
    c ∉ s ∨ ∃ a b, s = a ++ c :: b ∧ c ∉ a := by
  induction s with
  | nil => left; simp
  | cons d s ih =>
    by_cases h : d = c
    · exact Or.inr ⟨[], s, by rw [h]; rfl, by simp⟩
    · rcases ih with h1 | ⟨a, b, e, h1⟩
      · left; simp [h1, Ne.symm h]
      · exact Or.inr ⟨d :: a, b, by rw [e]; rfl, by simp [h1, Ne.symm h]⟩

theorem split_set (set s : List UInt8) : ∃ a b, s = a ++ b ∧ (∀ x ∈ a, x ∉ set) ∧
    ∀ d, b.head? = some d → d ∈ set := by
  induction s with
  | nil => exact ⟨[], [], rfl, by simp, by simp⟩
  | cons d s ih =>
    by_cases h : d ∈ set
    · exact ⟨[], d :: s, rfl, by simp, by simpa using h⟩
    · obtain ⟨a, b, e, h1, h2⟩ := ih
      refine ⟨d :: a, b, by rw [e]; rfl, ?_, h2⟩
      intro x hx
      rcases List.mem_cons.1 hx with rfl | hx
      · exact h
      · exact h1 x hx

theorem strchrAt_some {mem a b : List UInt8} {p : Nat} {c : UInt8} (h : CStr mem p (a ++ c :: b))
    (ha : c ∉ a) : strchrAt mem p c = .ok (some (p + a.length)) := by
  unfold strchrAt
  rw [cstr_eq h, Res.ok_bind]
  have : (a ++ c :: b).takeWhile (· ≠ c) = a := by
    apply takeWhile_append
    · intro x hx; simp; rintro rfl; exact ha hx
    · intro x hx; simp at hx; simp [hx]
  simp only
  rw [this, if_pos (by simp)]

theorem strchrAt_none {mem s : List UInt8} {p : Nat} {c : UInt8} (h : CStr mem p s)
    (ha : c ∉ s) : strchrAt mem p c = .ok none := by
  unfold strchrAt
  rw [cstr_eq h, Res.ok_bind]
  have : s.takeWhile (· ≠ c) = s := by
    have := takeWhile_append (p := (· ≠ c)) (a := s) (b := [])
      (by intro x hx; simp; rintro rfl; exact ha hx) (by simp)
    simpa using this
  simp only
  rw [this, if_neg (by simp)]

theorem cspn_eq {mem a b set : List UInt8} {p : Nat} (h : CStr mem p (a ++ b))
    (ha : ∀ x ∈ a, x ∉ set) (hb : ∀ d, b.head? = some d → d ∈ set) :
    cspn mem p set = .ok a.length := by
  unfold cspn
  rw [cstr_eq h, Res.ok_bind]
  have : (a ++ b).takeWhile (· ∉ set) = a := by
    apply takeWhile_append
    · intro x hx; simpa using ha x hx
    · intro x hx; simpa using hb x hx
  rw [this]

theorem CStr.rd0 {mem s : List UInt8} {p : Nat} (h : CStr mem p s) :
    Verif.rd mem p = .ok (s.head?.getD 0) := by
  have := h.rd (i := 0) (by omega)
  rw [Nat.add_zero] at this
  rw [this]
  cases s <;> rfl

end Verif
