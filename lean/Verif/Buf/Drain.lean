import Verif.Buf.Cut

/-! # C147: reading until nothing is left -/

namespace Verif.Buf

/-- What a reader asks for next: a number, a string, or a blob, which is its length and then its bytes. -/
inductive Kind where
  | int (w : Width)
  | str
  | blob

/-- Asking for it -/
def Kind.read (b : B) : Kind → Res B
  | .int w => do
    let (b, _) ← get w b
    .ok b
  | .str => do
    let (b, _) ← getStr b
    .ok b
  | .blob => do
    let (b, n) ← get .w64 b
    .ok (getBlob b n).1

/-- `while (sc_buf_valid(b) && sc_buf_size(b) > 0)`: for `fuel` rounds; `none` if it has not come to its end then. What is asked for in each round
is up to the program. -/
def drain (f : Nat → Kind) : (fuel i : Nat) → B → Res (Option B)
  | 0, _, b => .ok (if valid b = true ∧ size b ≠ 0 then none else some b)
  | n + 1, i, b =>
    if valid b = true ∧ size b ≠ 0 then do
      let b ← (f i).read b
      drain f n (i + 1) b
    else .ok (some b)

/-- What is asked for has no length that no object has, but for the one that stands for NULL. -/
def Fits (b : B) : Kind → Prop
  | .int _ => True
  | .blob => 8 ≤ (unread b).length → leVal ((unread b).take 8) < OBJ_MAX
  | .str => 8 ≤ (unread b).length → leVal ((unread b).take 8) < OBJ_MAX ∨ leVal ((unread b).take 8) = BUF_MAX

/-- This holds in each of the rounds. -/
def AllFit (f : Nat → Kind) : (fuel i : Nat) → B → Prop
  | 0, _, _ => True
  | n + 1, i, b => Fits b (f i) ∧ ∀ b', (f i).read b = .ok b' → AllFit f n (i + 1) b'

/-- The length that comes next -/
theorem next_length {b : B} (r : InRange b) (h : b.rpos + 8 ≤ b.wpos) : 8 ≤ (unread b).length ∧ (unread b).take 8 = slice b.mem b.rpos 8 := by
  have hl := length_unread r
  refine ⟨by omega, ?_⟩
  rw [unread, slice, slice, List.take_take, Nat.min_eq_left (by omega)]

/-- A value that is asked for consumes something or makes the buffer invalid. -/
theorem Kind.read_advances {b : B} (r : InRange b) (k : Kind) (hl : Fits b k) : ∃ b', k.read b = .ok b' ∧ InRange b' ∧ b'.mem = b.mem ∧
    b'.wpos = b.wpos ∧ (b'.err = 0 → b.rpos < b'.rpos) := by
  have h1 := r.rpos
  have h2 := r.wpos
  have h3 := r.cap
  have hf : InRange (b.fail CORRUPT) := r.fail _
  cases k with
  | int w =>
    have hw : 0 < w.bytes := by cases w <;> decide
    rw [Kind.read, get_eq w r, Res.ok_bind]
    by_cases h : b.err = 0 ∧ b.rpos + w.bytes ≤ b.wpos
    · rw [if_pos h]
      exact ⟨_, rfl, r.advance (n := b.rpos + w.bytes) (by omega), rfl, rfl, fun _ => by simp only; omega⟩
    · rw [if_neg h]
      exact ⟨_, rfl, hf, rfl, rfl, fun h => absurd h (fail_err _)⟩
  | str =>
    rw [Kind.read, getStr_eq r, Res.ok_bind]
    by_cases h : b.err = 0 ∧ b.rpos + 8 ≤ b.wpos
    · rw [if_pos h]
      simp only
      have r1 : InRange { b with rpos := b.rpos + 8 } := r.advance (n := b.rpos + 8) (by omega)
      by_cases hm : leVal (slice b.mem b.rpos 8) = BUF_MAX
      · rw [if_pos hm]
        exact ⟨_, rfl, r1, rfl, rfl, fun _ => by simp only; omega⟩
      · rw [if_neg hm]
        have hn := next_length r h.2
        have hlen := hl hn.1
        rw [hn.2] at hlen
        replace hlen := hlen.resolve_right hm
        rw [Nat.mod_eq_of_lt (by omega)]
        by_cases hc : b.rpos + 8 + leVal (slice b.mem b.rpos 8) + 1 > b.wpos
        · rw [if_pos hc]
          exact ⟨_, rfl, r1.fail _, rfl, rfl, fun h => absurd h (fail_err _)⟩
        · rw [if_neg hc]
          exact ⟨_, rfl, r.advance (n := b.rpos + 8 + leVal (slice b.mem b.rpos 8) + 1) (by omega), rfl, rfl,
            fun _ => by simp only; omega⟩
    · rw [if_neg h]
      exact ⟨_, rfl, hf, rfl, rfl, fun h => absurd h (fail_err _)⟩
  | blob =>
    rw [Kind.read, get_eq .w64 r, Res.ok_bind, show Width.w64.bytes = 8 from rfl]
    by_cases h : b.err = 0 ∧ b.rpos + 8 ≤ b.wpos
    · rw [if_pos h]
      simp only
      have r1 : InRange { b with rpos := b.rpos + 8 } := r.advance (n := b.rpos + 8) (by omega)
      rw [getBlob]
      have hn := next_length r h.2
      have hlen := hl hn.1
      rw [hn.2] at hlen
      generalize leVal (slice b.mem b.rpos 8) = n at hlen
      by_cases h0 : n = 0
      · rw [if_pos h0]
        exact ⟨_, rfl, r1, rfl, rfl, fun _ => by simp only; omega⟩
      · rw [if_neg h0]
        simp only
        rw [add64_lt (by omega)]
        by_cases hc : b.rpos + 8 + n > b.wpos
        · rw [if_pos hc]
          exact ⟨_, rfl, r1.fail _, rfl, rfl, fun h => absurd h (fail_err _)⟩
        · rw [if_neg hc]
          exact ⟨_, rfl, r.advance (n := b.rpos + 8 + n) (by omega), rfl, rfl, fun _ => by simp only; omega⟩
    · rw [if_neg h]
      simp only
      rw [getBlob, if_pos rfl]
      exact ⟨_, rfl, hf, rfl, rfl, fun h => absurd h (fail_err _)⟩

/-- **C147 (part).** A program that asks for numbers, strings and blobs, in any order, until nothing is left or the buffer is invalid, comes to an
end after at most as many rounds as there are bytes, if no length that is read is one that no object has. Missing: other lengths. -/
theorem buf_drain_partial (f : Nat → Kind) : ∀ (n i : Nat) {b : B}, InRange b → AllFit f n i b → (unread b).length ≤ n →
    ∃ b', drain f n i b = .ok (some b') ∧ (valid b' = false ∨ unread b' = []) := by
  intro n
  induction n with
  | zero =>
    intro i b r hl hn
    have hlen := length_unread r
    refine ⟨b, ?_, Or.inr (List.length_eq_zero_iff.1 (by omega))⟩
    rw [drain, if_neg]
    rintro ⟨_, h⟩
    have := r.rpos
    have := r.wpos
    have := r.cap
    unfold size sub64 at h
    omega
  | succ n ih =>
    intro i b r hl hn
    have hlen := length_unread r
    have h1 := r.rpos
    have h2 := r.wpos
    have h3 := r.cap
    rw [drain]
    by_cases h : valid b = true ∧ size b ≠ 0
    · rw [if_pos h]
      obtain ⟨b', hb, r', hm, hw, ha⟩ := (f i).read_advances r hl.1
      rw [hb, Res.ok_bind]
      by_cases he : b'.err = 0
      · refine ih (i + 1) r' (hl.2 _ hb) ?_
        have := length_unread r'
        have := ha he
        have := r'.rpos
        omega
      · refine ⟨b', ?_, Or.inl (by simp [valid, he])⟩
        cases n with
        | zero => rw [drain, if_neg (by simp [valid, he])]
        | succ n => rw [drain, if_neg (by simp [valid, he])]
    · rw [if_neg h]
      refine ⟨b, rfl, ?_⟩
      by_cases hv : valid b = true
      · right
        have : size b = 0 := by
          by_cases h0 : size b = 0
          · exact h0
          · exact absurd ⟨hv, h0⟩ h
        unfold size sub64 at this
        exact List.length_eq_zero_iff.1 (by omega)
      · left; simpa using hv

/-- Eight bytes from outside -/
def loopBytes (x : UInt8) : B := wrap [x, 255, 255, 255, 255, 255, 255, 255] 8 true true

/-- **C147 is violated** by strings: the length 2^64 - 9 makes `sc_buf_get_str` return a string and go back to where it was. The loop never ends. -/
theorem buf_drain_str_violated : Reachable (loopBytes 247) ∧ getStr (loopBytes 247) = .ok (loopBytes 247, some 8) ∧
    ∀ n i, drain (fun _ => .str) n i (loopBytes 247) = .ok none := by
  have h : getStr (loopBytes 247) = .ok (loopBytes 247, some 8) := by rfl
  refine ⟨.start (.wrap (data := [247, 255, 255, 255, 255, 255, 255, 255]) (isRef := true) (isData := true) (by decide)), h, ?_⟩
  intro n
  induction n with
  | zero => intro i; rfl
  | succ n ih =>
    intro i
    rw [drain, if_pos (by decide), Kind.read, h]
    exact ih (i + 1)

/-- **C147 is violated** by blobs: the length 2^64 - 8 makes `sc_buf_get_blob` return a pointer and go back to where the length was. -/
theorem buf_drain_blob_violated : Reachable (loopBytes 248) ∧ ∀ n i, drain (fun _ => .blob) n i (loopBytes 248) = .ok none := by
  have h : Kind.blob.read (loopBytes 248) = .ok (loopBytes 248) := by rfl
  refine ⟨.start (.wrap (data := [248, 255, 255, 255, 255, 255, 255, 255]) (isRef := true) (isData := true) (by decide)), ?_⟩
  intro n
  induction n with
  | zero => intro i; rfl
  | succ n ih =>
    intro i
    rw [drain, if_pos (by decide), h]
    exact ih (i + 1)

/-- **C37 is violated** by blobs and data whose length comes from outside, too: for the length 2^64 - 8 `sc_buf_get_blob` returns a pointer although
nothing is left, and `sc_buf_get_data` copies from outside the memory. -/
theorem buf_get_blob_violated : Reachable (loopBytes 248) ∧ ∃ b1 b2 n p, get .w64 (loopBytes 248) = .ok (b1, n) ∧ unread b1 = [] ∧
    getBlob b1 n = (b2, some p) ∧ b2.err = 0 ∧ p = b1.mem.length ∧ 0 < n ∧ getData b1 n = .ub :=
  ⟨.start (.wrap (data := [248, 255, 255, 255, 255, 255, 255, 255]) (isRef := true) (isData := true) (by decide)),
    { loopBytes 248 with rpos := 8 }, loopBytes 248, 18446744073709551608, 8, rfl, rfl, rfl, rfl, rfl, by decide, rfl⟩

/-! ## An example -/

/-- The bytes of a number and a string meet the condition, and are read in two rounds. -/
def drainEx : B := wrap [1, 2, 2, 0, 0, 0, 0, 0, 0, 0, 104, 105, 0] 13 true true

/-- A number and then strings -/
def drainKinds (i : Nat) : Kind := if i = 0 then .int .w16 else .str

example : AllFit drainKinds 2 0 drainEx := by
  refine ⟨trivial, fun b' h => ⟨?_, fun _ _ => trivial⟩⟩
  have : b' = { drainEx with rpos := 2 } := by
    have h' : Kind.read drainEx (drainKinds 0) = .ok { drainEx with rpos := 2 } := by rfl
    rw [h'] at h; cases h; rfl
  subst this
  exact fun _ => Or.inl (by decide)

example : drain drainKinds 2 0 drainEx = .ok (some { drainEx with rpos := 13 }) := by rfl

end Verif.Buf
