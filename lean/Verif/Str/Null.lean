import Verif.Str.Props

/-!
# C130: NULL strings

The comments of string/sc_str.h say what each function does when a string is NULL. Most do it.
`sc_str_set`, `sc_str_append` and `sc_str_append_fmt` are said to return false if `*str` is NULL;
they create the string and return true.
-/

namespace Verif.Str

/-- **C130 is violated** by `sc_str_set`, `sc_str_append` and `sc_str_append_fmt`: the header says
that they return false if `*str` is NULL (string/sc_str.h:106-136). Whenever there is memory and
the text is not too long they return true, and the variable is a string with the text. -/
theorem str_null_violated (fill tmp : Nat → UInt8) {str t : List UInt8} (ht : CStr str 0 t)
    (hl : t.length ≤ INT_MAX) :
    (∃ s, set (some fill) none (some str) = .ok (true, some s) ∧ Holds s t) ∧
    (∃ s, append (some fill) none (some str) = .ok (true, some s) ∧ Holds s t) ∧
    (∃ s, appendFmt (some fill) tmp none (some t) = .ok (true, some s) ∧ Holds s t) :=
  ⟨(str_set _ none ht).1 (by simp) (by omega), (str_append_null _ ht).1 (by simp) (by omega),
    (str_set_fmt _ tmp none hl).1 (by simp)⟩

/-- **C130**, part. Where the header speaks of NULL the other functions do what it says: a copy
of NULL is NULL, its length is -1, destroying it does nothing, trimming and replacing in it
return true and leave it NULL, a part of it cannot be taken. A NULL value cannot be set: the call
returns false and leaves the string as it is. Nothing of this depends on memory, and no text is
read — the lists, patterns and positions may be anything. Missing: `sc_str_set`,
`sc_str_append` and `sc_str_append_fmt` of NULL (`str_null_violated`). -/
theorem str_null_partial (al : Alloc UInt8) :
    create al none = .ok none ∧ dup al none = .ok none ∧ len none = -1 ∧ destroy none = none ∧
    (∀ list, trim al none list = .ok (true, none)) ∧
    (∀ fuel rep with_, replace al fuel none (some rep) (some with_) = .ok (some (true, none))) ∧
    (∀ start end_, substring al none start end_ = .ok (false, none)) ∧
    (∀ old, set al old none = .ok (false, old)) ∧
    append al none none = .ok (false, none) :=
  ⟨rfl, rfl, rfl, rfl, fun _ => rfl, fun _ _ _ => rfl, fun _ _ => rfl, fun _ => rfl, rfl⟩

/-- NULL is the only string of which `sc_str_len` is negative, and the only one that
`sc_str_substring` of the empty range refuses when there is memory. -/
theorem str_null_only (fill : Nat → UInt8) {s : S} {c : List UInt8} (h : Holds s c) :
    0 ≤ len (some s) ∧ ∃ s', substring (some fill) (some s) 0 0 = .ok (true, some s') ∧
      Holds s' [] := by
  refine ⟨by rw [str_len h]; exact Int.natCast_nonneg _, ?_⟩
  obtain ⟨s', h1, h2⟩ := (str_substring (some fill) h 0 0).1 (by simp) (by omega) (by omega)
  exact ⟨s', h1, by simpa using h2⟩

/-- NULL cannot be appended to a string, although it can be appended to NULL: the call is
undefined (`strlen(NULL)`, string/sc_str.c:219), whatever the string holds. -/
theorem str_append_of_null (al : Alloc UInt8) (s : S) : append al (some s) none = .ub := rfl

/-- NULL patterns and replacements are refused by an assertion, of NULL too. -/
theorem str_replace_of_null (al : Alloc UInt8) (fuel : Nat) (str : Option S)
    (rep with_ : Option (List UInt8)) (h : rep = none ∨ with_ = none) :
    replace al fuel str rep with_ = .ub := by
  rcases h with rfl | rfl
  · rfl
  · cases rep <;> rfl

example : append (some fun _ => 7) none (some [97, 98, 0]) = .ok (true, some ⟨2, [97, 98, 0]⟩) := by
  decide +kernel

end Verif.Str
