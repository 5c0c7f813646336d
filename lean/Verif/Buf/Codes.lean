import Verif.Buf.Props

/-! # What the error of a buffer says

The error is a member of `struct sc_buf`; its values are `SC_BUF_CORRUPT`, 1, and `SC_BUF_OOM`, 3, buffer/sc_buf.h:52-53. -/

namespace Verif.Buf

/-- **C38.** Putting a number into a valid buffer succeeds, or ends with the error `SC_BUF_OOM`, and then nothing was put. -/
theorem buf_put_code (al : Alloc UInt8) (w : Width) {b : B} (r : InRange b) (he : b.err = 0) (v : Nat) :
    ∃ b', put al w b v = .ok b' ∧ (b'.err = 0 ∧ written b' = written b ++ le w.bytes v ∨ b'.err = 3 ∧ written b' = written b) := by
  have hw := w.bytes_le
  obtain ⟨ok, b1, hr, g⟩ := reserve_spec al r (len := w.bytes) (by omega)
  obtain ⟨b', hp, p⟩ := put_spec al w r v
  refine ⟨b', hp, ?_⟩
  rcases p.out with ⟨-, h1, h2⟩ | ⟨h1, -⟩
  · exact Or.inl ⟨h1, h2⟩
  · right
    rw [put, hr, Res.ok_bind] at hp
    have ho := g.out
    cases ok with
    | false =>
      simp only [Bool.false_eq_true, if_false] at ho
      cases hp
      exact ⟨by rw [ho.1, he]; rfl, g.written r⟩
    | true =>
      exfalso
      simp only [if_true] at ho
      have hi := g.inr
      have e1 := hi.mem
      have e2 := hi.cap
      have e3 := g.wpos
      have e4 := hi.wpos
      have e5 : b1.err = 0 := ho.1.trans he
      simp only [Bool.not_true, Bool.false_eq_true, if_false] at hp
      rw [setPos, add64_lt (by omega), if_neg (by omega), w.store_eq (by omega)] at hp
      simp only [Res.ok_bind] at hp
      cases hp
      exact h1 e5

/-- **C38.** Putting bytes into a valid buffer succeeds, or ends with the error `SC_BUF_OOM`, and then nothing was put. -/
theorem buf_put_raw_code (al : Alloc UInt8) {b : B} (r : InRange b) (he : b.err = 0) {src : List UInt8} (h : src.length ≤ OBJ_MAX) :
    ∃ b', putRaw al b src src.length = .ok b' ∧
      (b'.err = 0 ∧ written b' = written b ++ src ∨ b'.err = 3 ∧ written b' = written b) := by
  obtain ⟨ok, b1, hr, g⟩ := reserve_spec al r (len := src.length) h
  obtain ⟨b', hp, p⟩ := putRaw_spec al r h (Nat.le_refl _)
  refine ⟨b', hp, ?_⟩
  rcases p.out with ⟨-, h1, h2⟩ | ⟨h1, -⟩
  · refine Or.inl ⟨h1, ?_⟩
    rw [h2, slice_eq_take, List.take_length]
  · right
    rw [putRaw, hr, Res.ok_bind] at hp
    have ho := g.out
    cases ok with
    | false =>
      simp only [Bool.false_eq_true, if_false] at ho
      cases hp
      exact ⟨by rw [ho.1, he]; rfl, g.written r⟩
    | true =>
      exfalso
      simp only [if_true] at ho
      have hi := g.inr
      have e1 := hi.mem
      have e2 := hi.cap
      have e3 := g.wpos
      have e4 := hi.wpos
      have e5 : b1.err = 0 := ho.1.trans he
      simp only [Bool.not_true, Bool.false_eq_true, if_false] at hp
      rw [setData, add64_lt (by omega), if_neg (by omega)] at hp
      by_cases hz : src.length = 0
      · rw [if_pos hz] at hp
        cases hp
        exact h1 e5
      · rw [if_neg hz, memcpy_ok (by omega) (by omega)] at hp
        simp only [Res.ok_bind] at hp
        cases hp
        exact h1 e5

/-- **C38.** Reading a number from a valid buffer ends with the error `SC_BUF_CORRUPT` exactly if there are not enough bytes, and else without
error. -/
theorem buf_get_code (w : Width) {b : B} (r : InRange b) (he : b.err = 0) :
    ∃ b' v, get w b = .ok (b', v) ∧ b'.err = if (unread b).length < w.bytes then 1 else 0 := by
  rw [get_eq w r]
  rw [length_unread r]
  have h1 := r.rpos
  by_cases h : b.rpos + w.bytes ≤ b.wpos
  · rw [if_pos ⟨he, h⟩, if_neg (by omega)]
    exact ⟨_, _, rfl, he⟩
  · rw [if_neg (fun hc => h hc.2), if_pos (by omega)]
    refine ⟨_, _, rfl, ?_⟩
    show b.err ||| 1 = 1
    rw [he]; rfl

/-- **C38.** So does reading bytes. -/
theorem buf_get_data_code {b : B} (r : InRange b) (he : b.err = 0) {len : Nat} (hl : len ≤ OBJ_MAX) :
    ∃ b' v, getData b len = .ok (b', v) ∧ b'.err = if (unread b).length < len then 1 else 0 := by
  rw [getData_eq r hl]
  rw [length_unread r]
  have h1 := r.rpos
  by_cases h : b.rpos + len ≤ b.wpos
  · rw [if_pos ⟨he, h⟩, if_neg (by omega)]
    exact ⟨_, _, rfl, he⟩
  · rw [if_neg (fun hc => h hc.2), if_pos (by omega)]
    refine ⟨_, _, rfl, ?_⟩
    show b.err ||| 1 = 1
    rw [he]; rfl

/-- A full buffer that cannot grow, and one that is read beyond its end -/
example : (put none .w32 (wrap [1, 2] 2 true false) 7) = .ok { wrap [1, 2] 2 true false with err := 3 } ∧
    get .w32 (wrap [1, 2] 2 true true) = .ok ({ wrap [1, 2] 2 true true with err := 1 }, 0) := ⟨rfl, rfl⟩

end Verif.Buf
