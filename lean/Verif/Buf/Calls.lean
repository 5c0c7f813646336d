import Verif.Buf.Lemmas

/-! # What each buffer function does on a buffer in range -/

namespace Verif.Buf

theorem or_ne_zero {a f : Nat} (h : f ≠ 0) : a ||| f ≠ 0 := by
  intro he
  have := Nat.right_le_or (n := a) (m := f)
  omega

theorem fail_err (b : B) : (b.fail CORRUPT).err ≠ 0 := or_ne_zero (by decide)
theorem fail_err' (b : B) : (b.fail OOM).err ≠ 0 := or_ne_zero (by decide)

theorem InRange.fail {b : B} (r : InRange b) (f : Nat) : InRange (b.fail f) :=
  ⟨r.mem, r.rpos, r.wpos, r.cap⟩

theorem add64_lt {a b : Nat} (h : a + b < W64) : add64 a b = a + b := by
  unfold add64; omega

theorem slice_eq_take (m : List α) (n : Nat) : slice m 0 n = m.take n := by simp [slice]

theorem length_written {b : B} (r : InRange b) : (written b).length = b.wpos := by
  have h1 := r.mem
  have h2 := r.wpos
  rw [written, length_slice (by omega)]

theorem length_unread {b : B} (r : InRange b) : (unread b).length = b.wpos - b.rpos := by
  have h1 := r.mem
  have h2 := r.wpos
  have h3 := r.rpos
  rw [unread, length_slice (by omega)]

theorem unread_eq {b : B} (_r : InRange b) : unread b = (written b).drop b.rpos := by
  apply List.ext_getElem?
  intro i
  rw [unread, written, slice_getElem?, List.getElem?_drop, slice_getElem?, Nat.zero_add]
  split <;> split <;> first | rfl | omega

/-! ## `sc_buf_reserve` -/

structure Grown (b b' : B) (ok : Bool) (len : Nat) : Prop where
  inr : InRange b'
  rpos : b'.rpos = b.rpos
  wpos : b'.wpos = b.wpos
  limit : b'.limit = b.limit
  ref : b'.ref = b.ref
  keep : ∀ i, i < b.cap → b'.mem[i]? = b.mem[i]?
  grow : b.cap ≤ b'.cap
  within : b'.cap ≠ b.cap → b'.cap ≤ b.limit ∧ b.ref = false
  out : if ok then b'.err = b.err ∧ b.wpos + len ≤ b'.cap
    else b'.err = b.err ||| OOM ∧ b'.mem = b.mem ∧ b'.cap = b.cap

theorem reserve_spec (al : Alloc UInt8) {b : B} (r : InRange b) {len : Nat} (h : len ≤ OBJ_MAX) :
    ∃ ok b', reserve al b len = .ok (ok, b') ∧ Grown b b' ok len := by
  have h1 := r.wpos
  have h2 := r.cap
  have hno : Grown b (b.fail OOM) false len :=
    ⟨r.fail _, rfl, rfl, rfl, rfl, fun _ _ => rfl, Nat.le_refl _, fun h => absurd rfl h,
      rfl, rfl, rfl⟩
  rw [reserve, add64_lt (by omega)]
  split
  · split
    · exact ⟨false, _, rfl, hno⟩
    · next hgt href =>
      simp only
      rw [add64_lt (show b.cap + len < W64 by omega), add64_lt (by omega)]
      have hsz : mul64 ((b.cap + len + 4095) / 4096) 4096 =
          (b.cap + len + 4095) / 4096 * 4096 := by unfold mul64; omega
      rw [hsz]
      split
      · exact ⟨false, _, rfl, hno⟩
      · next hlim =>
        rw [realloc, if_neg (by simp [href]; omega)]
        split
        · next hobj =>
          cases al with
          | none => exact ⟨false, _, rfl, hno⟩
          | some fill =>
            refine ⟨true, _, rfl, ?_⟩
            refine ⟨⟨by simp, r.rpos, ?_, hobj⟩, rfl, rfl, rfl, rfl, ?_, ?_, ?_, rfl, ?_⟩
            · simp only; omega
            · intro i hi
              simp only
              rw [resized_getElem? (by omega)]
              have := r.mem
              rw [List.getElem?_eq_getElem (show i < b.mem.length by omega)]; rfl
            · simp only; omega
            · intro _; exact ⟨by simp only; omega, by simpa using href⟩
            · simp only; omega
        · exact ⟨false, _, rfl, hno⟩
  · exact ⟨true, b, rfl, r, rfl, rfl, rfl, rfl, fun _ _ => rfl, Nat.le_refl _,
      fun h => absurd rfl h, rfl, by omega⟩

theorem Grown.written {b b' : B} {ok : Bool} {len : Nat} (g : Grown b b' ok len)
    (r : InRange b) : written b' = written b := by
  have h := r.wpos
  apply List.ext_getElem?
  intro i
  rw [Buf.written, Buf.written, slice_getElem?, slice_getElem?, g.wpos, Nat.zero_add]
  split
  · exact g.keep i (by omega)
  · rfl

/-! ## Puts -/

/-- What a call that appends the bytes `bs` does: either it appends them and the buffer is
valid, or the buffer is invalid and at most a part of them was appended, none at all if it
was invalid before. -/
structure Puts (b b' : B) (bs : List UInt8) : Prop where
  inr : InRange b'
  rpos : b'.rpos = b.rpos
  limit : b'.limit = b.limit
  ref : b'.ref = b.ref
  grow : b.cap ≤ b'.cap
  within : b'.cap ≠ b.cap → b'.cap ≤ b.limit ∧ b.ref = false
  out : (b.err = 0 ∧ b'.err = 0 ∧ written b' = written b ++ bs) ∨
    (b'.err ≠ 0 ∧ ∃ pre, pre <+: bs ∧ written b' = written b ++ pre ∧ (b.err ≠ 0 → pre = []))

theorem Puts.trans {b b1 b2 : B} {x y : List UInt8} (h1 : Puts b b1 x) (h2 : Puts b1 b2 y) :
    Puts b b2 (x ++ y) := by
  refine ⟨h2.inr, h2.rpos.trans h1.rpos, h2.limit.trans h1.limit, h2.ref.trans h1.ref,
    Nat.le_trans h1.grow h2.grow, ?_, ?_⟩
  · intro hne
    have ha := h1.within
    have hb := h2.within
    rw [h1.limit, h1.ref] at hb
    by_cases he : b1.cap = b.cap
    · exact hb (by omega)
    · by_cases he' : b2.cap = b1.cap
      · rw [he']; exact ha he
      · exact hb he'
  · rcases h1.out with ⟨e0, e1, w1⟩ | ⟨e1, pre, hp, w1, hz⟩
    · rcases h2.out with ⟨_, e2, w2⟩ | ⟨e2, pre, hp, w2, hz⟩
      · exact Or.inl ⟨e0, e2, by rw [w2, w1, List.append_assoc]⟩
      · refine Or.inr ⟨e2, x ++ pre, ?_, by rw [w2, w1, List.append_assoc],
          fun h => absurd e0 h⟩
        exact (List.prefix_append_right_inj x).2 hp
    · rcases h2.out with ⟨e2, _, _⟩ | ⟨e2, pre2, hp2, w2, hz2⟩
      · exact absurd e2 e1
      · rw [hz2 e1, List.append_nil] at w2
        exact Or.inr ⟨e2, pre, hp.trans (List.prefix_append x y), by rw [w2, w1], hz⟩

theorem Puts.refl {b : B} (r : InRange b) : Puts b b [] := by
  refine ⟨r, rfl, rfl, rfl, Nat.le_refl _, fun h => absurd rfl h, ?_⟩
  by_cases he : b.err = 0
  · exact Or.inl ⟨he, he, by simp⟩
  · exact Or.inr ⟨he, [], by simp, by simp, fun _ => rfl⟩

theorem Puts.fail {b : B} (r : InRange b) {f : Nat} (hf : f ≠ 0) (bs : List UInt8) :
    Puts b (b.fail f) bs := by
  refine ⟨r.fail _, rfl, rfl, rfl, Nat.le_refl _, fun h => absurd rfl h, ?_⟩
  exact Or.inr ⟨or_ne_zero hf, [], by simp, by simp [written, B.fail], fun _ => rfl⟩

/-- A failed reserve. -/
theorem Grown.puts_false {b b' : B} {len : Nat} (g : Grown b b' false len) (r : InRange b)
    (bs : List UInt8) : Puts b b' bs := by
  refine ⟨g.inr, g.rpos, g.limit, g.ref, g.grow, g.within, Or.inr ⟨?_, [], by simp, ?_,
    fun _ => rfl⟩⟩
  · have := g.out
    simp only [Bool.false_eq_true, if_false] at this
    rw [this.1]; exact or_ne_zero (by decide)
  · rw [g.written r]; simp

/-- A successful reserve, then a failed write (the buffer was invalid). -/
theorem Grown.puts_err {b b' : B} {len : Nat} (g : Grown b b' true len) (r : InRange b)
    (bs : List UInt8) : Puts b (b'.fail CORRUPT) bs := by
  refine ⟨g.inr.fail _, g.rpos, g.limit, g.ref, g.grow, g.within, Or.inr ⟨fail_err _, [], by simp, ?_,
    fun _ => rfl⟩⟩
  rw [List.append_nil, ← g.written r]; rfl

theorem written_splice {b : B} (r : InRange b) {bs : List UInt8} (h : b.wpos + bs.length ≤ b.cap) :
    written { b with mem := splice b.mem b.wpos bs, wpos := b.wpos + bs.length } =
      written b ++ bs := by
  have := r.mem
  rw [written, written, slice_eq_take, slice_eq_take]
  simp only
  rw [take_splice (by omega)]

/-- A successful reserve, then a write. -/
theorem Grown.puts_true {b b' : B} {bs : List UInt8} (g : Grown b b' true bs.length) (r : InRange b)
    (he : b'.err = 0) :
    Puts b { b' with mem := splice b'.mem b'.wpos bs, wpos := b'.wpos + bs.length } bs := by
  have ho := g.out
  simp only [if_true] at ho
  have hi := g.inr
  have h1 := hi.mem
  have h2 := g.wpos
  refine ⟨⟨?_, ?_, ?_, hi.cap⟩, g.rpos, g.limit, g.ref, g.grow, g.within, Or.inl ⟨?_, he, ?_⟩⟩
  · simp only; rw [length_splice (by omega)]; exact h1
  · simp only; have := hi.rpos; omega
  · simp only; omega
  · rw [← ho.1]; exact he
  · rw [written_splice hi (by omega), g.written r]

theorem Width.bytes_le (w : Width) : 0 < w.bytes ∧ w.bytes ≤ 8 := by
  cases w <;> simp [Width.bytes]

theorem put_spec (al : Alloc UInt8) (w : Width) {b : B} (r : InRange b) (v : Nat) :
    ∃ b', put al w b v = .ok b' ∧ Puts b b' (le w.bytes v) := by
  have hw := w.bytes_le
  obtain ⟨ok, b1, hr, g⟩ := reserve_spec al r (len := w.bytes) (by omega)
  rw [put, hr, Res.ok_bind]
  cases ok with
  | false => exact ⟨b1, rfl, g.puts_false r _⟩
  | true =>
    have ho := g.out
    simp only [if_true] at ho
    have hi := g.inr
    have h1 := hi.mem
    have h2 := hi.cap
    have h3 := g.wpos
    have h4 := hi.wpos
    simp only [Bool.not_true, Bool.false_eq_true, if_false]
    rw [setPos, add64_lt (by omega)]
    by_cases he : b1.err = 0
    · rw [if_neg (by omega), w.store_eq (by omega)]
      simp only [Res.ok_bind]
      rw [add64_lt (by omega)]
      have := (show Grown b b1 true (le w.bytes v).length by rw [length_le]; exact g).puts_true r he
      rw [length_le] at this
      exact ⟨_, rfl, this⟩
    · rw [if_pos (Or.inl he)]
      simp only [Res.ok_bind]
      rw [show add64 b1.wpos 0 = b1.wpos by rw [add64_lt (by omega)]; rfl]
      exact ⟨_, rfl, g.puts_err r _⟩

theorem putRaw_spec (al : Alloc UInt8) {b : B} (r : InRange b) {src : List UInt8} {len : Nat}
    (h : len ≤ OBJ_MAX) (hs : len ≤ src.length) :
    ∃ b', putRaw al b src len = .ok b' ∧ Puts b b' (slice src 0 len) := by
  obtain ⟨ok, b1, hr, g⟩ := reserve_spec al r (len := len) h
  rw [putRaw, hr, Res.ok_bind]
  cases ok with
  | false => exact ⟨b1, rfl, g.puts_false r _⟩
  | true =>
    have ho := g.out
    simp only [if_true] at ho
    have hi := g.inr
    have h1 := hi.mem
    have h2 := hi.cap
    have h3 := g.wpos
    have h4 := hi.wpos
    simp only [Bool.not_true, Bool.false_eq_true, if_false]
    rw [setData, add64_lt (by omega)]
    have hlen : (slice src 0 len).length = len := length_slice (by omega)
    by_cases he : b1.err = 0
    · rw [if_neg (by omega)]
      have := (show Grown b b1 true (slice src 0 len).length by rw [hlen]; exact g).puts_true r he
      rw [hlen] at this
      by_cases hz : len = 0
      · subst hz
        rw [if_pos rfl, Res.ok_bind]
        simp only
        rw [show add64 b1.wpos 0 = b1.wpos by rw [add64_lt (by omega)]; rfl]
        refine ⟨_, rfl, ?_⟩
        have hs : splice b1.mem b1.wpos (slice src 0 0) = b1.mem := by
          simp [slice, splice]
        rw [hs] at this
        exact this
      · rw [if_neg hz, memcpy_ok (by omega) (by omega)]
        simp only [Res.ok_bind]
        rw [add64_lt (by omega)]
        exact ⟨_, rfl, this⟩
    · rw [if_pos (Or.inl he)]
      simp only [Res.ok_bind]
      rw [show add64 b1.wpos 0 = b1.wpos by rw [add64_lt (by omega)]; rfl]
      exact ⟨_, rfl, g.puts_err r _⟩

theorem putStr_spec (al1 al2 : Alloc UInt8) {b : B} (r : InRange b) {s t : List UInt8}
    (h : s.length < OBJ_MAX) (c : CStr s 0 t) :
    ∃ b', putStr al1 al2 b (some s) = .ok b' ∧ Puts b b' (le 8 t.length ++ t ++ [0]) := by
  have hl := c.lt
  rw [putStr, strlen_eq c, Res.ok_bind, if_neg (by omega)]
  obtain ⟨b1, h1, p1⟩ := put_spec al1 .w64 r t.length
  rw [h1, Res.ok_bind]
  obtain ⟨b2, h2, p2⟩ := putRaw_spec al2 p1.inr (src := s) (len := t.length + 1) (by omega)
    (by omega)
  refine ⟨b2, h2, ?_⟩
  have hs : slice s 0 (t.length + 1) = t ++ [0] := by
    apply List.ext_getElem?
    intro i
    rw [slice_getElem?, Nat.zero_add]
    split
    · by_cases hi : i < t.length
      · have := c.bytes i hi
        rw [Nat.zero_add] at this
        rw [this, List.getElem?_append_left hi, List.getElem?_eq_getElem hi]
      · have he : i = t.length := by omega
        have := c.nul
        rw [Nat.zero_add] at this
        rw [he, this]; simp
    · rw [List.getElem?_eq_none (by simp; omega)]
  rw [hs] at p2
  rw [List.append_assoc]
  exact p1.trans p2

theorem putStrLen_spec (al1 al2 al3 : Alloc UInt8) {b : B} (r : InRange b) {s : List UInt8}
    {len : Nat} (h : len < OBJ_MAX) (hs : len ≤ s.length) :
    ∃ b', putStrLen al1 al2 al3 b (some s) len = .ok b' ∧
      Puts b b' (le 8 len ++ slice s 0 len ++ [0]) := by
  obtain ⟨b1, h1, p1⟩ := put_spec al1 .w64 r len
  obtain ⟨b2, h2, p2⟩ := putRaw_spec al2 p1.inr (src := s) (len := len) (by omega) hs
  obtain ⟨b3, h3, p3⟩ := put_spec al3 .w8 p2.inr 0
  refine ⟨b3, by rw [putStrLen, h1, Res.ok_bind, h2, Res.ok_bind, h3], ?_⟩
  exact (p1.trans p2).trans p3

theorem putBlob_spec (al1 al2 : Alloc UInt8) {b : B} (r : InRange b) {s : List UInt8}
    {len : Nat} (h : len < OBJ_MAX) (hs : len ≤ s.length) :
    ∃ b', putBlob al1 al2 b s len = .ok b' ∧ Puts b b' (le 8 len ++ slice s 0 len) := by
  obtain ⟨b1, h1, p1⟩ := put_spec al1 .w64 r len
  obtain ⟨b2, h2, p2⟩ := putRaw_spec al2 p1.inr (src := s) (len := len) (by omega) hs
  exact ⟨b2, by rw [putBlob, h1, Res.ok_bind, h2], p1.trans p2⟩

/-! ## Gets -/

theorem peekPos_eq (w : Width) {b : B} (r : InRange b) {pos : Nat} (hp : pos ≤ OBJ_MAX) :
    peekPos w b pos = .ok (if b.err = 0 ∧ pos + w.bytes ≤ b.wpos then
      (b, leVal (slice b.mem pos w.bytes), w.bytes) else (b.fail CORRUPT, 0, 0)) := by
  have hw := w.bytes_le
  have h1 := r.mem
  have h2 := r.wpos
  rw [peekPos, add64_lt (by omega)]
  by_cases h : b.err = 0 ∧ pos + w.bytes ≤ b.wpos
  · rw [if_neg (by omega), if_pos h, w.load_eq (by omega)]; rfl
  · rw [if_pos (by omega), if_neg h]

theorem get_eq (w : Width) {b : B} (r : InRange b) :
    get w b = .ok (if b.err = 0 ∧ b.rpos + w.bytes ≤ b.wpos then
      ({ b with rpos := b.rpos + w.bytes }, leVal (slice b.mem b.rpos w.bytes))
      else (b.fail CORRUPT, 0)) := by
  have hw := w.bytes_le
  have h1 := r.rpos
  have h2 := r.wpos
  have h3 := r.cap
  rw [get, peekPos_eq w r (by omega), Res.ok_bind]
  by_cases h : b.err = 0 ∧ b.rpos + w.bytes ≤ b.wpos
  · rw [if_pos h, if_pos h]
    simp only
    rw [add64_lt (by omega)]
  · rw [if_neg h, if_neg h]
    simp only
    rw [add64_lt (by omega)]; rfl

theorem getData_eq {b : B} (r : InRange b) {len : Nat} (hl : len ≤ OBJ_MAX) :
    getData b len = .ok (if b.err = 0 ∧ b.rpos + len ≤ b.wpos then
      ({ b with rpos := b.rpos + len }, slice b.mem b.rpos len)
      else (b.fail CORRUPT, List.replicate len 0)) := by
  have h1 := r.rpos
  have h2 := r.wpos
  have h3 := r.cap
  have h4 := r.mem
  rw [getData, add64_lt (by omega)]
  by_cases h : b.err = 0 ∧ b.rpos + len ≤ b.wpos
  · rw [if_neg (by omega), if_pos h, peekData, add64_lt (by omega), if_neg (by omega),
      if_pos (by omega)]
    simp only [Res.ok_bind]
    rw [add64_lt (by omega)]
  · rw [if_neg h]
    split
    · rfl
    · rw [peekData, add64_lt (by omega), if_pos (by omega)]
      simp only [Res.ok_bind]
      rw [add64_lt (by omega)]; rfl

/-- `sc_buf_get_str`, for every content. -/
theorem getStr_eq {b : B} (r : InRange b) :
    getStr b = .ok (if b.err = 0 ∧ b.rpos + 8 ≤ b.wpos then
      let len := leVal (slice b.mem b.rpos 8)
      let b1 := { b with rpos := b.rpos + 8 }
      if len = BUF_MAX then (b1, none)
      else if (b.rpos + 8 + len + 1) % W64 > b.wpos then (b1.fail CORRUPT, none)
      else ({ b with rpos := (b.rpos + 8 + len + 1) % W64 }, some (b.rpos + 8))
      else (b.fail CORRUPT, none)) := by
  have h1 := r.rpos
  have h2 := r.wpos
  have h3 := r.cap
  rw [getStr, get_eq .w64 r, Res.ok_bind]
  rw [Width.bytes]
  by_cases h : b.err = 0 ∧ b.rpos + 8 ≤ b.wpos
  · rw [if_pos h, if_pos h]
    simp only
    split
    · rfl
    · rw [show (!valid { b with rpos := b.rpos + 8 }) = false by simp [valid, h.1]]
      simp only [Bool.false_eq_true, if_false]
      generalize leVal (slice b.mem b.rpos 8) = len
      have e1 : add64 (add64 (b.rpos + 8) len) 1 = (b.rpos + 8 + len + 1) % W64 := by
        unfold add64; omega
      have e2 : add64 (b.rpos + 8) (add64 len 1) = (b.rpos + 8 + len + 1) % W64 := by
        unfold add64; omega
      rw [e1, e2]
      split <;> rfl
  · rw [if_neg h, if_neg h]
    simp only
    rw [if_neg (by decide), if_pos (by simp [valid, fail_err])]

theorem getBlob_eq {b : B} (r : InRange b) {len : Nat} (hl : len ≤ OBJ_MAX) :
    getBlob b len = if len = 0 then (b, none)
      else if b.rpos + len ≤ b.wpos then ({ b with rpos := b.rpos + len }, some b.rpos)
      else (b.fail CORRUPT, none) := by
  have h1 := r.rpos
  have h2 := r.wpos
  have h3 := r.cap
  rw [getBlob, add64_lt (by omega)]
  split
  · rfl
  · split
    · rw [if_neg (by omega)]
    · rw [if_pos (by omega)]

theorem InRange.advance {b : B} (r : InRange b) {n : Nat} (h : n ≤ b.wpos) :
    InRange { b with rpos := n } := ⟨r.mem, h, r.wpos, r.cap⟩

/-! ## The rest -/

theorem compact_spec {b : B} (r : InRange b) :
    ∃ b', compact b = .ok b' ∧ InRange b' ∧ b'.rpos = 0 ∧ b'.wpos = b.wpos - b.rpos ∧
      unread b' = unread b ∧ b'.cap = b.cap ∧ b'.limit = b.limit ∧ b'.ref = b.ref ∧
      b'.err = b.err := by
  have h1 := r.rpos
  have h2 := r.wpos
  have h3 := r.cap
  have h4 := r.mem
  rw [compact]
  by_cases he : b.rpos = b.wpos
  · simp only [he, if_true, ne_eq, not_true_eq_false, if_false]
    refine ⟨_, rfl, ⟨h4, Nat.le_refl _, Nat.zero_le _, h3⟩, rfl, ?_, ?_, rfl, rfl, rfl, rfl⟩
    · simp
    · simp [unread, slice, he]
  · simp only [he, if_false]
    by_cases hz : b.rpos = 0
    · simp only [hz, ne_eq, not_true_eq_false, if_false]
      exact ⟨b, rfl, r, hz, by omega, rfl, rfl, rfl, rfl, rfl⟩
    · rw [if_pos hz]
      have hs : sub64 b.wpos b.rpos = b.wpos - b.rpos := by unfold sub64; omega
      rw [hs, memcpy_ok (by omega) (by omega), Res.ok_bind]
      have hl : (slice b.mem b.rpos (b.wpos - b.rpos)).length = b.wpos - b.rpos :=
        length_slice (by omega)
      refine ⟨_, rfl, ⟨?_, Nat.zero_le _, ?_, h3⟩, rfl, rfl, ?_, rfl, rfl, rfl, rfl⟩
      · simp only; rw [length_splice (by omega)]; exact h4
      · simp only; omega
      · unfold unread
        simp only
        rw [Nat.sub_zero, slice_eq_take]
        have := take_splice (dst := b.mem) (d := 0) (bs := slice b.mem b.rpos (b.wpos - b.rpos))
          (by omega)
        rw [hl, Nat.zero_add] at this
        rw [this]; simp

theorem setPos_spec (w : Width) {b : B} (r : InRange b) {pos v : Nat} (hp : pos ≤ OBJ_MAX) :
    setPos w b pos v = .ok (if b.err = 0 ∧ pos + w.bytes ≤ b.cap then
      ({ b with mem := splice b.mem pos (le w.bytes v) }, w.bytes) else (b.fail CORRUPT, 0)) := by
  have hw := w.bytes_le
  have h1 := r.mem
  rw [setPos, add64_lt (by omega)]
  by_cases h : b.err = 0 ∧ pos + w.bytes ≤ b.cap
  · rw [if_neg (by omega), if_pos h, w.store_eq (by omega)]; rfl
  · rw [if_pos (by omega), if_neg h]

theorem setData_spec {b : B} (r : InRange b) {off len : Nat} {src : List UInt8}
    (hp : off ≤ OBJ_MAX) (hl : len < OBJ_MAX) (hs : len ≤ src.length) :
    setData b off src len = .ok (if b.err = 0 ∧ off + len ≤ b.cap then
      ({ b with mem := splice b.mem off (slice src 0 len) }, len) else (b.fail CORRUPT, 0)) := by
  have h1 := r.mem
  rw [setData, add64_lt (by omega)]
  by_cases h : b.err = 0 ∧ off + len ≤ b.cap
  · rw [if_neg (by omega), if_pos h]
    by_cases hz : len = 0
    · subst hz
      rw [if_pos rfl]
      simp [slice, splice]
    · rw [if_neg hz, memcpy_ok (by omega) (by omega)]; rfl
  · rw [if_pos (by omega), if_neg h]

theorem InRange.mem_splice {b : B} (r : InRange b) {p : Nat} {bs : List UInt8}
    (h : p + bs.length ≤ b.cap) : InRange { b with mem := splice b.mem p bs } := by
  have h1 := r.mem
  exact ⟨by simp only; rw [length_splice (by omega)]; exact h1, r.rpos, r.wpos, r.cap⟩

theorem shrink_spec (al : Alloc UInt8) {b : B} (r : InRange b) (len : Nat)
    (hr : b.ref = false) :
    ∃ ok b', shrink al b len = .ok (ok, b') ∧ InRange b' ∧ b'.rpos = 0 ∧ unread b' = unread b ∧
      b'.wpos = b.wpos - b.rpos ∧
      b'.limit = b.limit ∧ b'.ref = b.ref ∧ b'.err = (if ok then b.err else b.err ||| OOM) ∧
      b'.cap < b.cap + 4096 := by
  obtain ⟨b1, hc, r1, hr1, hw1, hu1, hcap1, hl1, href1, he1⟩ := compact_spec r
  have h2 := r1.wpos
  have h3 := r1.cap
  have h4 := r1.mem
  rw [shrink, hc, Res.ok_bind]
  split
  · exact ⟨true, b1, rfl, r1, hr1, hu1, hw1, hl1, href1, he1, by omega⟩
  · next hn =>
    simp only
    rw [add64_lt (by omega)]
    have hsz : mul64 ((len + 4095) / 4096) 4096 = (len + 4095) / 4096 * 4096 := by
      unfold mul64; omega
    rw [hsz, realloc, if_neg (by simp [href1, hr]; omega)]
    split
    · next hobj =>
      cases al with
      | none => exact ⟨false, _, rfl, r1.fail _, hr1, hu1, hw1, hl1, href1, by simp [B.fail, he1],
          by simp [B.fail]; omega⟩
      | some fill =>
        refine ⟨true, _, rfl, ⟨by simp, r1.rpos, by simp only; omega, hobj⟩, hr1, ?_, hw1, hl1,
          href1, he1, by simp only; omega⟩
        rw [← hu1]
        unfold unread
        simp only
        rw [hr1, slice_eq_take, slice_eq_take, Nat.sub_zero, resized_take (by omega) (by omega)]
    · exact ⟨false, _, rfl, r1.fail _, hr1, hu1, hw1, hl1, href1, by simp [B.fail, he1],
          by simp [B.fail]; omega⟩

end Verif.Buf
