import Verif.Buf.Props

/-! # C146: a message of which the end is missing -/

namespace Verif.Buf

/-- What is read in place of a value that is not there: 0, false, NULL or zero bytes -/
def Val.Missing : Val → Val → Prop
  | .int w _, .int w' v => w' = w ∧ v = 0
  | .bool _, .bool v => v = false
  | .double _, .double v => v = 0
  | .str _, .str s => s = none
  | .blob _, .blob bs => ∃ n, bs = List.replicate n 0
  | _, _ => False

/-- Each of the values is missing. -/
def AllMissing : List Val → List Val → Prop
  | [], [] => True
  | v :: vs, x :: xs => v.Missing x ∧ AllMissing vs xs
  | _, _ => False

/-- Reading a value from an invalid buffer -/
theorem Val.get_err {b : B} (r : InRange b) (he : b.err ≠ 0) (v : Val) :
    ∃ b' x, v.get b = .ok (b', x) ∧ InRange b' ∧ b'.err ≠ 0 ∧ v.Missing x := by
  have hf : InRange (b.fail CORRUPT) := r.fail _
  cases v with
  | int w n =>
    rw [Val.get, Buf.get_eq w r, if_neg (fun h => he h.1)]
    exact ⟨_, _, rfl, hf, fail_err _, rfl, rfl⟩
  | bool v =>
    rw [Val.get, getBool, Buf.get_eq .w8 r, if_neg (fun h => he h.1)]
    exact ⟨_, _, rfl, hf, fail_err _, rfl⟩
  | double n =>
    rw [Val.get, getDouble, Buf.get_eq .w64 r, if_neg (fun h => he h.1)]
    exact ⟨_, _, rfl, hf, fail_err _, rfl⟩
  | str s =>
    rw [Val.get, getStr_eq r, if_neg (fun h => he h.1)]
    exact ⟨_, _, rfl, hf, fail_err _, rfl⟩
  | blob bs =>
    rw [Val.get, Buf.get_eq .w64 r, if_neg (fun h => he h.1), Res.ok_bind]
    simp only
    rw [getData_eq hf (by decide), if_neg (fun h => fail_err _ h.1)]
    exact ⟨_, _, rfl, hf.fail _, fail_err _, 0, rfl⟩

/-- Reading a message from an invalid buffer -/
theorem getAll_err (vs : List Val) : ∀ {b : B}, InRange b → b.err ≠ 0 →
    ∃ b' xs, getAll b vs = .ok (b', xs) ∧ b'.err ≠ 0 ∧ AllMissing vs xs := by
  induction vs with
  | nil => intro b r he; exact ⟨b, [], rfl, he, trivial⟩
  | cons v vs ih =>
    intro b r he
    obtain ⟨b1, x, h1, r1, e1, m1⟩ := v.get_err r he
    obtain ⟨b2, xs, h2, e2, m2⟩ := ih r1 e1
    exact ⟨b2, x :: xs, by rw [getAll, h1, Res.ok_bind]; simp only; rw [h2]; rfl, e2, m1, m2⟩

/-- Reading a value of which the end is missing -/
theorem Val.get_cut {b : B} (r : InRange b) (he : b.err = 0) (v : Val) (hv : v.Ok) {u : List UInt8} (hu : unread b ++ u = v.encode)
    (hne : u ≠ []) : ∃ b' x, v.get b = .ok (b', x) ∧ InRange b' ∧ b'.err ≠ 0 ∧ v.Missing x := by
  have hf : InRange (b.fail CORRUPT) := r.fail _
  have hlen := length_unread r
  have hb1 := r.rpos
  have hb2 := r.wpos
  have hb3 := r.cap
  have hul : 0 < u.length := List.length_pos_iff.2 hne
  have hl : (unread b).length + u.length = v.encode.length := by rw [← hu, List.length_append]
  cases v with
  | int w n =>
    simp only [Val.encode, length_le] at hl
    rw [Val.get, Buf.get_eq w r, if_neg (fun h => by omega)]
    exact ⟨_, _, rfl, hf, fail_err _, rfl, rfl⟩
  | bool v =>
    simp only [Val.encode, List.length_singleton] at hl
    rw [Val.get, getBool, Buf.get_eq .w8 r, if_neg (fun h => by have := h.2; simp only [Width.bytes] at this; omega)]
    exact ⟨_, _, rfl, hf, fail_err _, rfl⟩
  | double n =>
    simp only [Val.encode, length_le] at hl
    rw [Val.get, getDouble, Buf.get_eq .w64 r, if_neg (fun h => by have := h.2; simp only [Width.bytes] at this; omega)]
    exact ⟨_, _, rfl, hf, fail_err _, rfl⟩
  | str s =>
    cases s with
    | none =>
      simp only [Val.encode, length_le] at hl
      rw [Val.get, getStr_eq r, if_neg (fun h => by omega)]
      exact ⟨_, _, rfl, hf, fail_err _, rfl⟩
    | some s =>
      obtain ⟨_, hsz⟩ := hv
      simp only [Val.encode, length_le, List.length_append, List.length_singleton] at hl
      by_cases h8 : b.rpos + 8 ≤ b.wpos
      · have hpre : unread b = le 8 s.length ++ (unread b).drop 8 := by
          have h1 := congrArg (List.take 8) hu
          rw [List.take_append_of_le_length (by omega), Val.encode, List.append_assoc, List.take_left' (length_le 8 _)] at h1
          rw [← h1, List.take_append_drop]
        have hs := slice_unread hpre
        rw [length_le] at hs
        rw [Val.get, getStr_eq r, if_pos ⟨he, h8⟩, hs, leVal_le, Nat.mod_eq_of_lt (show s.length < 256 ^ 8 by omega)]
        simp only
        rw [if_neg (by omega), if_pos (by omega)]
        exact ⟨_, _, rfl, (r.advance (n := b.rpos + 8) (by omega)).fail _, fail_err _, rfl⟩
      · rw [Val.get, getStr_eq r, if_neg (fun h => h8 h.2)]
        exact ⟨_, _, rfl, hf, fail_err _, rfl⟩
  | blob bs =>
    have hsz : bs.length < OBJ_MAX := hv
    simp only [Val.encode, length_le, List.length_append] at hl
    by_cases h8 : b.rpos + 8 ≤ b.wpos
    · have hpre : unread b = le 8 bs.length ++ (unread b).drop 8 := by
        have h1 := congrArg (List.take 8) hu
        rw [List.take_append_of_le_length (by omega), Val.encode, List.take_left' (length_le 8 _)] at h1
        rw [← h1, List.take_append_drop]
      obtain ⟨b1, h1, r1, e1, hu1, _, hr1, hw1⟩ := get_int .w64 (v := bs.length) (rest := (unread b).drop 8) r he
        (by simp only [Width.bytes]; omega) hpre
      simp only [Width.bytes] at hr1
      rw [Val.get, h1, Res.ok_bind]
      simp only
      rw [getData_eq r1 (Nat.le_of_lt hsz), if_neg (fun h => by omega)]
      exact ⟨_, _, rfl, r1.fail _, fail_err _, _, rfl⟩
    · rw [Val.get, Buf.get_eq .w64 r, if_neg (fun h => h8 h.2), Res.ok_bind]
      simp only
      rw [getData_eq hf (by decide), if_neg (fun h => fail_err _ h.1)]
      exact ⟨_, _, rfl, hf.fail _, fail_err _, 0, rfl⟩

/-- **C146.** If the end of a message is missing, however little, reading it with its types makes the buffer invalid: the values that are
complete are read as they were written, and for every other one 0, false, NULL or zero bytes are read. -/
theorem buf_message_cut (vs : List Val) (hv : ∀ v ∈ vs, v.Ok) : ∀ {b : B} {u : List UInt8}, InRange b → b.err = 0 →
    unread b ++ u = vs.flatMap Val.encode → u ≠ [] →
    ∃ b' k xs, getAll b vs = .ok (b', vs.take k ++ xs) ∧ b'.err ≠ 0 ∧ AllMissing (vs.drop k) xs ∧ k < vs.length ∧
      ((vs.take k).flatMap Val.encode).length ≤ (unread b).length ∧ (unread b).length < ((vs.take (k + 1)).flatMap Val.encode).length := by
  induction vs with
  | nil => intro b u _ _ h hne; simp at h; exact absurd h.2 hne
  | cons v vs ih =>
    intro b u r he hu hne
    rw [List.flatMap_cons] at hu
    have hvv := hv v (by simp)
    have hvs : ∀ v ∈ vs, v.Ok := fun w hw => hv w (by simp [hw])
    by_cases hc : v.encode.length ≤ (unread b).length
    · have hpre : unread b = v.encode ++ (unread b).drop v.encode.length := by
        have h1 := congrArg (List.take v.encode.length) hu
        rw [List.take_append_of_le_length hc, List.take_left' rfl] at h1
        conv => lhs; rw [← List.take_append_drop v.encode.length (unread b), h1]
      obtain ⟨b1, h1, r1, e1, hu1⟩ := v.get_eq r he hvv hpre
      have hrest : unread b1 ++ u = vs.flatMap Val.encode := by
        rw [hpre, List.append_assoc] at hu
        rw [hu1]; exact List.append_cancel_left hu
      obtain ⟨b', k, xs, h2, e2, m, hk, hlo, hhi⟩ := ih hvs r1 e1 hrest hne
      have hll : (unread b).length = v.encode.length + (unread b1).length := by
        rw [hu1, List.length_drop]; omega
      refine ⟨b', k + 1, xs, by rw [getAll, h1, Res.ok_bind]; simp only; rw [h2]; rfl, e2, m, ?_, ?_, ?_⟩
      · simp only [List.length_cons]; omega
      · rw [List.take_succ_cons, List.flatMap_cons, List.length_append]; omega
      · rw [List.take_succ_cons, List.flatMap_cons, List.length_append]; omega
    · have hcut : unread b ++ u.take (v.encode.length - (unread b).length) = v.encode := by
        have h1 := congrArg (List.take v.encode.length) hu
        rw [List.take_left' rfl, List.take_append, List.take_of_length_le (by omega)] at h1
        exact h1
      have hne' : u.take (v.encode.length - (unread b).length) ≠ [] := by
        intro h
        rw [h, List.append_nil] at hcut
        rw [hcut] at hc
        exact hc (Nat.le_refl _)
      obtain ⟨b1, x, h1, r1, e1, m1⟩ := v.get_cut r he hvv hcut hne'
      obtain ⟨b2, xs, h2, e2, m2⟩ := getAll_err vs r1 e1
      refine ⟨b2, 0, x :: xs, by rw [getAll, h1, Res.ok_bind]; simp only; rw [h2]; rfl, e2, ⟨m1, m2⟩, by simp, by simp, ?_⟩
      simp only [List.take_succ_cons, List.take_zero, List.flatMap_cons, List.flatMap_nil, List.append_nil]
      omega

/-- **C146**, as a reader sees it: a message of whose bytes the first ones are there is read without error exactly if all of it is there, and
then as it was written. -/
theorem buf_message_complete (vs : List Val) (hv : ∀ v ∈ vs, v.Ok) {b : B} {u : List UInt8} (r : InRange b) (he : b.err = 0)
    (hu : unread b ++ u = vs.flatMap Val.encode) : ∃ b' xs, getAll b vs = .ok (b', xs) ∧ (valid b' = true ↔ u = []) ∧
    (valid b' = true → xs = vs) := by
  by_cases hne : u = []
  · subst hne
    obtain ⟨b', h, e, _⟩ := buf_message_read r he vs hv (rest := []) (by simpa using hu)
    exact ⟨b', vs, h, by simp [valid, e], fun _ => rfl⟩
  · obtain ⟨b', k, xs, h, e, _⟩ := buf_message_cut vs hv r he hu hne
    exact ⟨b', _, h, by simp [valid, e, hne], fun h => absurd (of_decide_eq_true h) e⟩

/-! ## An example -/

/-- A number and a string, of which the terminator is missing -/
example : getAll ⟨[1, 2, 2, 0, 0, 0, 0, 0, 0, 0, 104, 105, 0], 13, BUF_MAX, 0, 12, 0, false⟩ [.int .w16 513, .str (some [104, 105])] =
    .ok (⟨[1, 2, 2, 0, 0, 0, 0, 0, 0, 0, 104, 105, 0], 13, BUF_MAX, 10, 12, 1, false⟩, [.int .w16 513, .str none]) := by
  rfl

end Verif.Buf
