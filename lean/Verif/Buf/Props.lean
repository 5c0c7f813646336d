import Verif.Buf.Text

/-! # Properties C34 – C43 of `sc_buf` -/

namespace Verif.Buf

/-! ## C34: integers -/

/-- What `le` means: byte `i` of `v` is `v / 256 ^ i mod 256`. -/
theorem le_getElem? {n v i : Nat} (h : i < n) :
    (le n v)[i]? = some (UInt8.ofNat (v / 256 ^ i % 256)) := by
  induction n generalizing v i with
  | zero => omega
  | succ n ih =>
    rw [le]
    cases i with
    | zero => simp
    | succ i =>
      rw [List.getElem?_cons_succ, ih (by omega), Nat.div_div_eq_div_mul, Nat.pow_succ,
        Nat.mul_comm]

theorem unread_append {b b' : B} (r : InRange b) (r' : InRange b') (hr : b'.rpos = b.rpos)
    {bs : List UInt8} (hw : written b' = written b ++ bs) : unread b' = unread b ++ bs := by
  have h1 := r.rpos
  have h2 := length_written r
  rw [unread_eq r, unread_eq r', hw, hr, List.drop_append_of_le_length (by omega)]

theorem unread_advance {b : B} (r : InRange b) {n : Nat} (h : b.rpos + n ≤ b.wpos) :
    unread { b with rpos := b.rpos + n } = (unread b).drop n := by
  rw [unread_eq r, unread_eq (r.advance (n := b.rpos + n) h), List.drop_drop]; rfl

theorem slice_unread {b : B} {bs rest : List UInt8}
    (hu : unread b = bs ++ rest) : slice b.mem b.rpos bs.length = bs := by
  have : slice b.mem b.rpos bs.length = (unread b).take bs.length := by
    have hle : bs.length ≤ b.wpos - b.rpos := by
      have := congrArg List.length hu
      simp only [unread, slice, List.length_take, List.length_append] at this
      omega
    rw [unread, slice, slice, List.take_take, Nat.min_eq_left hle]
  rw [this, hu, List.take_left]

/-- Reading an integer from a valid buffer whose unread bytes start with its encoding. -/
theorem get_int (w : Width) {b : B} (r : InRange b) (he : b.err = 0) {v : Nat} {rest : List UInt8}
    (hv : v < 256 ^ w.bytes) (hu : unread b = le w.bytes v ++ rest) :
    ∃ b', get w b = .ok (b', v) ∧ InRange b' ∧ b'.err = 0 ∧ unread b' = rest ∧ b'.mem = b.mem ∧
      b'.rpos = b.rpos + w.bytes ∧ b'.wpos = b.wpos := by
  have hl := length_unread r
  rw [hu] at hl
  simp only [List.length_append, length_le] at hl
  have hr := r.rpos
  have hw := w.bytes_le
  rw [get_eq w r, if_pos ⟨he, by omega⟩]
  have hs := slice_unread hu
  rw [length_le] at hs
  refine ⟨_, ?_, r.advance (n := b.rpos + w.bytes) (by omega), he, ?_, rfl, rfl, rfl⟩
  · rw [hs, leVal_le, Nat.mod_eq_of_lt hv]
  · rw [unread_advance r (by omega), hu, List.drop_left' (by simp)]

theorem put_ok {al : Alloc UInt8} (w : Width) {b : B} (r : InRange b) (he : b.err = 0) {v : Nat}
    (h : b.wpos + w.bytes ≤ b.cap ∨ CanGrow al b w.bytes) :
    ∃ b', put al w b v = .ok b' ∧ Puts b b' (le w.bytes v) ∧ b'.err = 0 := by
  have hw := w.bytes_le
  obtain ⟨b', h1, p⟩ := put_spec al w r v
  refine ⟨b', h1, p, ?_⟩
  obtain ⟨b1, hb1⟩ := reserve_ok (al := al) r (len := w.bytes) (by
    rcases h with h | h
    · exact Or.inl h
    · exact Or.inr ⟨h, by omega⟩)
  obtain ⟨ok, b2, hb2, g⟩ := reserve_spec al r (len := w.bytes) (by omega)
  rw [hb1] at hb2; cases hb2
  have ho := g.out
  simp only [if_true] at ho
  have hi := g.inr
  have h3 := hi.cap
  have h4 := hi.mem
  have h5 := g.wpos
  have e1 : b1.err = 0 := by rw [ho.1]; exact he
  have e2 : b1.wpos + w.bytes ≤ b1.cap := by omega
  rw [put, hb1, Res.ok_bind] at h1
  simp only [Bool.not_true, Bool.false_eq_true, if_false] at h1
  rw [setPos_spec w hi (by omega), if_pos ⟨e1, e2⟩] at h1
  cases h1
  exact e1

theorem putRaw_ok {al : Alloc UInt8} {b : B} (r : InRange b) (he : b.err = 0) {src : List UInt8}
    {len : Nat} (hs : len ≤ src.length) (hl : len < OBJ_MAX)
    (h : b.wpos + len ≤ b.cap ∨ CanGrow al b len) :
    ∃ b', putRaw al b src len = .ok b' ∧ Puts b b' (slice src 0 len) ∧ b'.err = 0 := by
  obtain ⟨b', h1, p⟩ := putRaw_spec al r (Nat.le_of_lt hl) hs
  refine ⟨b', h1, p, ?_⟩
  obtain ⟨b1, hb1⟩ := reserve_ok (al := al) r (len := len) (by
    rcases h with h | h
    · exact Or.inl h
    · exact Or.inr ⟨h, by omega⟩)
  obtain ⟨ok, b2, hb2, g⟩ := reserve_spec al r (len := len) (by omega)
  rw [hb1] at hb2; cases hb2
  have ho := g.out
  simp only [if_true] at ho
  have hi := g.inr
  have h3 := hi.cap
  have h4 := hi.mem
  have h5 := g.wpos
  have e1 : b1.err = 0 := by rw [ho.1]; exact he
  have e2 : b1.wpos + len ≤ b1.cap := by omega
  rw [putRaw, hb1, Res.ok_bind] at h1
  simp only [Bool.not_true, Bool.false_eq_true, if_false] at h1
  rw [setData_spec hi (by omega) hl hs, if_pos ⟨e1, e2⟩] at h1
  cases h1
  exact e1

/-- **C34.** For every width and value: with room (or if it can grow), a put appends exactly
the value's little-endian bytes, and a get that comes to these bytes returns the value. -/
theorem buf_int_round_trip (w : Width) {al : Alloc UInt8} {b : B} (r : InRange b) (he : b.err = 0)
    (hread : b.rpos = b.wpos) {v : Nat} (hv : v < 256 ^ w.bytes)
    (h : b.wpos + w.bytes ≤ b.cap ∨ CanGrow al b w.bytes) :
    ∃ b1 b2, put al w b v = .ok b1 ∧ written b1 = written b ++ le w.bytes v ∧
      get w b1 = .ok (b2, v) ∧ b2.err = 0 ∧ b2.rpos = b2.wpos := by
  obtain ⟨b1, h1, p, e1⟩ := put_ok w (v := v) r he h
  rcases p.out with ⟨_, _, hw⟩ | ⟨hne, _⟩
  · have hu := unread_append r p.inr p.rpos hw
    have hz : unread b = [] := by simp [unread, slice, hread]
    rw [hz, List.nil_append] at hu
    obtain ⟨b2, h2, r2, e2, hu2, _, h3, h4⟩ := get_int w p.inr e1 hv (rest := []) (by simpa using hu)
    refine ⟨b1, b2, h1, hw, h2, e2, ?_⟩
    have h5 := length_unread r2
    rw [hu2] at h5
    have h6 := r2.rpos
    simp at h5
    omega
  · exact absurd e1 hne

/-- **C34**, at a position: setting an integer inside the written bytes changes just its
bytes, and peeking there returns it. -/
theorem buf_set_peek (w : Width) {b : B} (r : InRange b) (he : b.err = 0) {pos v : Nat}
    (hv : v < 256 ^ w.bytes) (hp : pos + w.bytes ≤ b.wpos) :
    ∃ b', setAt w b pos v = .ok b' ∧ peekAt w b' pos = .ok (b', v) ∧
      written b' = (written b).take pos ++ le w.bytes v ++ (written b).drop (pos + w.bytes) := by
  have h1 := r.mem
  have h2 := r.wpos
  have h3 := r.cap
  have r' := r.mem_splice (p := pos) (bs := le w.bytes v) (by rw [length_le]; omega)
  refine ⟨{ b with mem := splice b.mem pos (le w.bytes v) }, ?_, ?_, ?_⟩
  · rw [setAt, setPos_spec w r (by omega), if_pos ⟨he, by omega⟩]; rfl
  · rw [peekAt, peekPos_eq w r' (by omega), if_pos ⟨he, hp⟩]
    have := slice_splice (m := b.mem) (bs := le w.bytes v) (p := pos) (by rw [length_le]; omega)
    rw [length_le] at this
    rw [Res.ok_bind]
    simp only [this, leVal_le, Nat.mod_eq_of_lt hv]
  · apply List.ext_getElem?
    intro i
    have hl := length_le w.bytes v
    simp only [written, slice, splice, List.drop_zero, List.getElem?_take, List.getElem?_append,
      List.length_append, List.length_take, List.getElem?_drop, hl]
    grind

/-! ## C35: messages -/

theorem getBool_val {b : B} (r : InRange b) (he : b.err = 0) {v : Bool} {rest : List UInt8}
    (hu : unread b = [if v then 1 else 0] ++ rest) :
    ∃ b', getBool b = .ok (b', v) ∧ InRange b' ∧ b'.err = 0 ∧ unread b' = rest := by
  obtain ⟨b', h, r', e', hu', _⟩ := get_int .w8 (v := if v then 1 else 0) (rest := rest) r he
    (by cases v <;> decide) (by cases v <;> exact hu)
  refine ⟨b', ?_, r', e', hu'⟩
  rw [getBool, h]
  cases v <;> rfl

theorem cstr_of_slice {mem s : List UInt8} {p : Nat}
    (h : slice mem p (s.length + 1) = s ++ [0]) (hs : ∀ c ∈ s, c ≠ 0) : CStr mem p s := by
  refine ⟨?_, hs, ?_⟩
  · intro i hi
    have := congrArg (fun l : List UInt8 => l[i]?) h
    rw [slice_getElem?, if_pos (by omega), List.getElem?_append_left hi,
      List.getElem?_eq_getElem hi] at this
    exact this
  · have := congrArg (fun l : List UInt8 => l[s.length]?) h
    rw [slice_getElem?, if_pos (by omega)] at this
    rw [this]; simp

theorem Val.get_eq {b : B} (r : InRange b) (he : b.err = 0) (v : Val) (hv : v.Ok)
    {rest : List UInt8} (hu : unread b = v.encode ++ rest) :
    ∃ b', v.get b = .ok (b', v) ∧ InRange b' ∧ b'.err = 0 ∧ unread b' = rest := by
  have hb1 := r.rpos
  have hb2 := r.wpos
  have hb3 := r.cap
  have hlen := length_unread r
  cases v with
  | int w n =>
    obtain ⟨b', h, r', e', hu', _⟩ := get_int w r he hv hu
    exact ⟨b', by rw [Val.get, h]; rfl, r', e', hu'⟩
  | bool v =>
    obtain ⟨b', h, r', e', hu'⟩ := getBool_val r he hu
    exact ⟨b', by rw [Val.get, h]; rfl, r', e', hu'⟩
  | double n =>
    obtain ⟨b', h, r', e', hu', _⟩ := get_int .w64 r he hv hu
    exact ⟨b', by rw [Val.get, getDouble, h]; rfl, r', e', hu'⟩
  | str s =>
    cases s with
    | none =>
      simp only [Val.encode] at hu
      rw [hu] at hlen
      simp only [List.length_append, length_le] at hlen
      have hs := slice_unread hu
      rw [length_le] at hs
      rw [Val.get, getStr_eq r, if_pos ⟨he, by omega⟩, hs]
      simp only [leVal_le]
      rw [if_pos (by decide)]
      refine ⟨_, rfl, r.advance (n := b.rpos + 8) (by omega), he, ?_⟩
      rw [unread_advance r (by omega), hu, List.drop_left' (by simp)]
    | some s =>
      simp only [Val.encode] at hu
      obtain ⟨hnz, hsz⟩ := hv
      rw [hu] at hlen
      simp only [List.length_append, length_le, List.length_singleton] at hlen
      have hs := slice_unread (b := b) (bs := le 8 s.length) (rest := s ++ [0] ++ rest)
        (by rw [hu]; simp)
      rw [length_le] at hs
      rw [Val.get, getStr_eq r, if_pos ⟨he, by omega⟩, hs, leVal_le,
        Nat.mod_eq_of_lt (show s.length < 256 ^ 8 by omega)]
      simp only
      rw [if_neg (by omega), if_neg (by omega), Nat.mod_eq_of_lt (by omega)]
      simp only [Res.ok_bind]
      have hu2 := unread_advance r (n := 8) (by omega)
      rw [hu, List.append_assoc, List.append_assoc, List.drop_left' (by simp), ← List.append_assoc]
        at hu2
      have hs2 := slice_unread hu2
      simp only [List.length_append, List.length_singleton] at hs2
      have hc := cstr_of_slice hs2 hnz
      rw [cstrAt, strlen_eq hc, Res.ok_bind, hc.slice, Res.ok_bind]
      refine ⟨_, rfl, r.advance (n := b.rpos + 8 + s.length + 1) (by omega), he, ?_⟩
      have e : b.rpos + 8 + s.length + 1 = b.rpos + (8 + (s.length + 1)) := by omega
      rw [e, unread_advance r (by omega), hu]
      rw [List.drop_left' (by simp)]
  | blob bs =>
    simp only [Val.encode] at hu
    have hsz : bs.length < OBJ_MAX := hv
    obtain ⟨b1, h1, r1, e1, hu1, _⟩ := get_int .w64 (v := bs.length) (rest := bs ++ rest) r he
      (by simp only [Width.bytes]; omega) (by rw [hu]; simp [Width.bytes])
    have hlen1 := length_unread r1
    rw [hu1] at hlen1
    simp only [List.length_append] at hlen1
    have := r1.rpos
    rw [Val.get, h1, Res.ok_bind]
    simp only
    rw [getData_eq r1 (Nat.le_of_lt hsz), if_pos ⟨e1, by omega⟩, Res.ok_bind]
    simp only
    rw [slice_unread hu1]
    refine ⟨_, rfl, r1.advance (n := b1.rpos + bs.length) (by omega), e1, ?_⟩
    rw [unread_advance r1 (by omega), hu1, List.drop_left]

theorem getAll_eq (vs : List Val) (hv : ∀ v ∈ vs, v.Ok) :
    ∀ {b : B} {rest : List UInt8}, InRange b → b.err = 0 →
      unread b = vs.flatMap Val.encode ++ rest →
      ∃ b', getAll b vs = .ok (b', vs) ∧ InRange b' ∧ b'.err = 0 ∧ unread b' = rest := by
  induction vs with
  | nil => intro b rest r he hu; exact ⟨b, rfl, r, he, by simpa using hu⟩
  | cons v vs ih =>
    intro b rest r he hu
    rw [List.flatMap_cons, List.append_assoc] at hu
    obtain ⟨b1, h1, r1, e1, hu1⟩ := v.get_eq r he (hv v (by simp)) hu
    obtain ⟨b2, h2, r2, e2, hu2⟩ := ih (fun v h => hv v (by simp [h])) r1 e1 hu1
    refine ⟨b2, ?_, r2, e2, hu2⟩
    rw [getAll, h1, Res.ok_bind]
    simp only
    rw [h2]; rfl

theorem Val.put_spec (al : Nat → Alloc UInt8) {b : B} (r : InRange b) (v : Val) (hv : v.Ok) :
    ∃ b', v.put al b = .ok b' ∧ Puts b b' v.encode := by
  cases v with
  | int w n => exact Buf.put_spec (al 0) w r n
  | bool v => cases v <;> exact Buf.put_spec (al 0) .w8 r _
  | double n => exact Buf.put_spec (al 0) .w64 r n
  | str s =>
    cases s with
    | none => exact Buf.put_spec (al 0) .w64 r _
    | some s =>
      obtain ⟨b1, h1, p1⟩ := Buf.put_spec (al 0) .w64 r s.length
      have hl : s.length < OBJ_MAX := hv.2
      rw [Val.put, Option.map_some, putStr, strlen_eq (CStr.self hv.1), Res.ok_bind,
        if_neg (by omega), h1, Res.ok_bind]
      obtain ⟨b2, h2, p2⟩ := putRaw_spec (al 1) p1.inr (src := s ++ [0]) (len := s.length + 1)
        (by omega) (by simp)
      refine ⟨b2, h2, ?_⟩
      have e : slice (s ++ [0]) 0 (s.length + 1) = s ++ [0] := by
        have := slice_self (s ++ [0])
        simpa using this
      rw [e] at p2
      rw [Val.encode, List.append_assoc]
      exact p1.trans p2
  | blob bs =>
    obtain ⟨b', h, p⟩ := putBlob_spec (al 0) (al 1) (b := b) (s := bs) (len := bs.length) r hv
      (Nat.le_refl _)
    rw [slice_self] at p
    exact ⟨b', h, p⟩

theorem putAll_spec (al : Nat → Nat → Alloc UInt8) (vs : List Val) (hv : ∀ v ∈ vs, v.Ok) :
    ∀ {b : B} {i : Nat}, InRange b →
      ∃ b', putAll al b i vs = .ok b' ∧ Puts b b' (vs.flatMap Val.encode) := by
  induction vs with
  | nil => intro b i r; exact ⟨b, rfl, Puts.refl r⟩
  | cons v vs ih =>
    intro b i r
    obtain ⟨b1, h1, p1⟩ := v.put_spec (al i) r (hv v (by simp))
    obtain ⟨b2, h2, p2⟩ := ih (fun v h => hv v (by simp [h])) (i := i + 1) p1.inr
    exact ⟨b2, by rw [putAll, h1, Res.ok_bind, h2], by rw [List.flatMap_cons]; exact p1.trans p2⟩

theorem Val.put_fits (al : Nat → Alloc UInt8) {b : B} (r : InRange b) (he : b.err = 0) (v : Val)
    (hv : v.Ok) (h : b.wpos + v.encode.length ≤ b.cap) :
    ∃ b', v.put al b = .ok b' ∧ b'.err = 0 := by
  cases v with
  | int w n =>
    obtain ⟨b', h1, _, h2⟩ := put_ok (al := al 0) w (v := n) r he (Or.inl (by simpa [Val.encode] using h))
    exact ⟨b', h1, h2⟩
  | bool v =>
    obtain ⟨b', h1, _, h2⟩ := put_ok (al := al 0) .w8 (v := if v then 1 else 0) r he
      (Or.inl (by simpa [Val.encode, Width.bytes] using h))
    exact ⟨b', h1, h2⟩
  | double n =>
    obtain ⟨b', h1, _, h2⟩ := put_ok (al := al 0) .w64 (v := n) r he
      (Or.inl (by simpa [Val.encode, Width.bytes] using h))
    exact ⟨b', h1, h2⟩
  | str s =>
    cases s with
    | none =>
      obtain ⟨b', h1, _, h2⟩ := put_ok (al := al 0) .w64 (v := BUF_MAX) r he
        (Or.inl (by simpa [Val.encode, Width.bytes] using h))
      exact ⟨b', h1, h2⟩
    | some s =>
      have hl : s.length < OBJ_MAX := hv.2
      simp only [Val.encode, List.length_append, length_le, List.length_singleton] at h
      have hc := r.cap
      obtain ⟨b1, h1, p1, e1⟩ := put_ok (al := al 0) .w64 (v := s.length) r he
        (Or.inl (by simp only [Width.bytes]; omega))
      have hw : b1.wpos = b.wpos + 8 := by
        rcases p1.out with ⟨_, _, hw⟩ | ⟨hne, _⟩
        · have := congrArg List.length hw
          rw [length_written p1.inr, List.length_append, length_written r, length_le] at this
          exact this
        · exact absurd e1 hne
      have hg := p1.grow
      obtain ⟨b2, h2, _, e2⟩ := putRaw_ok (al := al 1) p1.inr e1 (src := s ++ [0])
        (len := s.length + 1) (by simp) (by omega) (Or.inl (by omega))
      refine ⟨b2, ?_, e2⟩
      rw [Val.put, Option.map_some, putStr, strlen_eq (CStr.self hv.1), Res.ok_bind,
        if_neg (by omega), h1, Res.ok_bind, h2]
  | blob bs =>
    have hl : bs.length < OBJ_MAX := hv
    simp only [Val.encode, List.length_append, length_le] at h
    obtain ⟨b1, h1, p1, e1⟩ := put_ok (al := al 0) .w64 (v := bs.length) r he
      (Or.inl (by simp only [Width.bytes]; omega))
    have hw : b1.wpos = b.wpos + 8 := by
      rcases p1.out with ⟨_, _, hw⟩ | ⟨hne, _⟩
      · have := congrArg List.length hw
        rw [length_written p1.inr, List.length_append, length_written r, length_le] at this
        exact this
      · exact absurd e1 hne
    have hg := p1.grow
    obtain ⟨b2, h2, _, e2⟩ := putRaw_ok (al := al 1) p1.inr e1 (src := bs)
      (len := bs.length) (Nat.le_refl _) hl (Or.inl (by omega))
    exact ⟨b2, by rw [Val.put, putBlob, h1, Res.ok_bind, h2], e2⟩

theorem putAll_fits (al : Nat → Nat → Alloc UInt8) (vs : List Val) (hv : ∀ v ∈ vs, v.Ok) :
    ∀ {b : B} {i : Nat}, InRange b → b.err = 0 →
      b.wpos + (vs.flatMap Val.encode).length ≤ b.cap →
      ∃ b', putAll al b i vs = .ok b' ∧ b'.err = 0 := by
  induction vs with
  | nil => intro b i r he _; exact ⟨b, rfl, he⟩
  | cons v vs ih =>
    intro b i r he h
    rw [List.flatMap_cons, List.length_append] at h
    obtain ⟨b1, h1, p1⟩ := v.put_spec (al i) r (hv v (by simp))
    obtain ⟨b1', h1', e1⟩ := v.put_fits (al i) r he (hv v (by simp)) (by omega)
    rw [h1] at h1'; cases h1'
    have hg := p1.grow
    have hw : b1.wpos = b.wpos + v.encode.length := by
      rcases p1.out with ⟨_, _, hw⟩ | ⟨hne, _⟩
      · have := congrArg List.length hw
        rw [length_written p1.inr, List.length_append, length_written r] at this
        exact this
      · exact absurd e1 hne
    obtain ⟨b2, h2, e2⟩ := ih (fun v h => hv v (by simp [h])) (i := i + 1) p1.inr e1 (by omega)
    exact ⟨b2, by rw [putAll, h1, Res.ok_bind, h2], e2⟩

/-- **C35.** Any message, written to a valid buffer with nothing unread, with any allocator
behaviour: if the buffer is still valid afterwards, reading it with the same types returns
the same values, without error, and leaves nothing unread. It is valid afterwards if the
message fits in the free space. -/
theorem buf_message_round_trip (al : Nat → Nat → Alloc UInt8) {b : B} (r : InRange b)
    (he : b.err = 0) (hread : b.rpos = b.wpos) (vs : List Val) (hv : ∀ v ∈ vs, v.Ok) :
    ∃ b', putAll al b 0 vs = .ok b' ∧
      (b'.err = 0 → written b' = written b ++ vs.flatMap Val.encode ∧
        ∃ b'', getAll b' vs = .ok (b'', vs) ∧ b''.err = 0 ∧ unread b'' = []) ∧
      (b.wpos + (vs.flatMap Val.encode).length ≤ b.cap → b'.err = 0) := by
  obtain ⟨b', h, p⟩ := putAll_spec al vs hv (i := 0) r
  refine ⟨b', h, ?_, ?_⟩
  · intro e'
    rcases p.out with ⟨_, _, hw⟩ | ⟨hne, _⟩
    · refine ⟨hw, ?_⟩
      have hu := unread_append r p.inr p.rpos hw
      have hz : unread b = [] := by simp [unread, slice, hread]
      rw [hz, List.nil_append] at hu
      obtain ⟨b'', h2, _, e2, hu2⟩ := getAll_eq vs hv p.inr e' (rest := []) (by simpa using hu)
      exact ⟨b'', h2, e2, hu2⟩
    · exact absurd e' hne
  · intro hfit
    obtain ⟨b2, h2, e2⟩ := putAll_fits al vs hv (i := 0) r he hfit
    rw [h] at h2; cases h2; exact e2

/-- **C35**, the reader's half: a message is read back whatever follows it. -/
theorem buf_message_read {b : B} (r : InRange b) (he : b.err = 0) (vs : List Val)
    (hv : ∀ v ∈ vs, v.Ok) {rest : List UInt8} (hu : unread b = vs.flatMap Val.encode ++ rest) :
    ∃ b', getAll b vs = .ok (b', vs) ∧ b'.err = 0 ∧ unread b' = rest := by
  obtain ⟨b', h, _, e, hu⟩ := getAll_eq vs hv r he hu
  exact ⟨b', h, e, hu⟩

/-! ## C36: positions -/

/-- Where histories start. -/
inductive Start : B → Prop where
  | init {ok : Bool} {cap : Nat} {b : B} : init ok cap = (true, b) → Start b
  | wrap {data : List UInt8} {isRef isData : Bool} : data.length < OBJ_MAX →
      Start (wrap data data.length isRef isData)

theorem Start.inRange {b : B} (h : Start b) : InRange b := by
  cases h with
  | @init ok cap b h =>
    unfold Buf.init at h
    split at h
    · split at h
      · next h1 h2 =>
        simp at h2
        cases h
        exact ⟨by simp [Buf.wrap], by simp [Buf.wrap], by simp [Buf.wrap], by simp [Buf.wrap]; omega⟩
      · cases h
    · cases h
      exact ⟨by simp [Buf.wrap]; omega, by simp [Buf.wrap], by simp [Buf.wrap],
        by simp [Buf.wrap]; omega⟩
  | @wrap data isRef isData h =>
    exact ⟨rfl, by simp [Buf.wrap], by simp [Buf.wrap]; split <;> omega, h⟩

/-- What the two operations that can break the positions need in addition (C36 fails without,
see `buf_put_text_violated` and `buf_shrink_ref_violated`): `sc_buf_shrink` is not used on
memory the buffer only refers to, `sc_buf_put_text` on a buffer that was read from has room
or can grow, and its format is not erroneous. -/
def Safe (b : B) : Op → Prop
  | .shrink _ _ => b.ref = false
  | .putText al t => b.rpos = 0 ∨
      ∃ s, t = some s ∧ (s.length + 1 ≤ b.cap - b.wpos ∨ CanGrow al b (s.length + 1))
  | _ => True

theorem Puts.step {b : B} {f : Res B} {bs : List UInt8} (h : ∃ b', f = .ok b' ∧ Puts b b' bs) :
    ∃ b', f = .ok b' ∧ InRange b' := by
  obtain ⟨b', h1, p⟩ := h
  exact ⟨b', h1, p.inr⟩

theorem step_inRange {b : B} (r : InRange b) (op : Op) (ha : Allowed b op) (hs : Safe b op) :
    ∃ b', step b op = .ok b' ∧ InRange b' := by
  have h1 := r.mem
  have h2 := r.wpos
  have h3 := r.cap
  have h4 := r.rpos
  cases op with
  | limit n => exact ⟨_, rfl, h1, h4, h2, h3⟩
  | reserve al n =>
    obtain ⟨ok, b', h, g⟩ := reserve_spec al r (Nat.le_of_lt ha)
    exact ⟨b', by rw [step, h]; rfl, g.inr⟩
  | shrink al n =>
    obtain ⟨ok, b', h, g, _⟩ := shrink_spec al r n hs
    exact ⟨b', by rw [step, h]; rfl, g⟩
  | compact =>
    obtain ⟨b', h, g, _⟩ := compact_spec r
    exact ⟨b', h, g⟩
  | clear => exact ⟨_, rfl, h1, Nat.le_refl _, Nat.zero_le _, h3⟩
  | markRead n =>
    have ha : n ≤ b.wpos - b.rpos := ha
    exact ⟨_, rfl, h1, by simp only [markRead]; rw [add64_lt (by omega)]; omega, h2, h3⟩
  | markWrite n =>
    have ha : n ≤ b.cap - b.wpos := ha
    exact ⟨_, rfl, h1, by simp only [markWrite]; rw [add64_lt (by omega)]; omega,
      by simp only [markWrite]; rw [add64_lt (by omega)]; omega, h3⟩
  | setRpos n =>
    refine ⟨_, rfl, ?_⟩
    unfold setRpos
    split
    · exact r.fail _
    · exact r.advance (by omega)
  | setWpos n =>
    refine ⟨_, rfl, ?_⟩
    unfold setWpos
    split
    · exact r.fail _
    · exact ⟨h1, ha, by simp only; omega, h3⟩
  | peekAt w pos =>
    refine ⟨(if b.err = 0 ∧ pos + w.bytes ≤ b.wpos then
      (b, leVal (slice b.mem pos w.bytes), w.bytes) else (b.fail CORRUPT, 0, 0)).1, ?_, ?_⟩
    · rw [step, peekAt, peekPos_eq w r (Nat.le_of_lt ha)]; rfl
    · split
      · exact r
      · exact r.fail _
  | peekData pos len =>
    rw [step, peekData, add64_lt (by have := ha.1; have := ha.2; omega)]
    split
    · exact ⟨_, rfl, r.fail _⟩
    · rw [if_pos (by omega)]; exact ⟨_, rfl, r⟩
  | setAt w pos v =>
    rw [step, setAt, setPos_spec w r (Nat.le_of_lt ha)]
    split
    · next h => exact ⟨_, rfl, r.mem_splice (by simpa using h.2)⟩
    · exact ⟨_, rfl, r.fail _⟩
  | setData off src len =>
    rw [step, setData_spec r (Nat.le_of_lt ha.1) ha.2.1 ha.2.2]
    split
    · next h =>
      exact ⟨_, rfl, r.mem_splice (by rw [length_slice (by have := ha.2.2; omega)]; exact h.2)⟩
    · exact ⟨_, rfl, r.fail _⟩
  | get w =>
    rw [step, get_eq w r]
    split
    · next h => exact ⟨_, rfl, r.advance h.2⟩
    · exact ⟨_, rfl, r.fail _⟩
  | getStr =>
    rw [step, getStr_eq r, Res.ok_bind]
    simp only
    split
    · next h =>
      split
      · exact ⟨_, rfl, r.advance h.2⟩
      · split
        · exact ⟨_, rfl, (r.advance h.2).fail _⟩
        · exact ⟨_, rfl, r.advance (by omega)⟩
    · exact ⟨_, rfl, r.fail _⟩
  | getBlob n =>
    rw [step, getBlob_eq r (Nat.le_of_lt ha)]
    split
    · exact ⟨_, rfl, r⟩
    · split
      · exact ⟨_, rfl, r.advance (by assumption)⟩
      · exact ⟨_, rfl, r.fail _⟩
  | getData n =>
    rw [step, getData_eq r (Nat.le_of_lt ha)]
    split
    · next h => exact ⟨_, rfl, r.advance h.2⟩
    · exact ⟨_, rfl, r.fail _⟩
  | put al w v => exact Puts.step (put_spec al w r v)
  | putRaw al src len => exact Puts.step (putRaw_spec al r (Nat.le_of_lt ha.1) ha.2)
  | putStr al1 al2 str =>
    cases str with
    | none => exact Puts.step (put_spec al1 .w64 r _)
    | some s =>
      obtain ⟨hl, t, c⟩ := ha
      exact Puts.step (putStr_spec al1 al2 r hl c)
  | putStrLen al1 al2 al3 str len =>
    cases str with
    | none => exact Puts.step (put_spec al1 .w64 r _)
    | some s => exact Puts.step (putStrLen_spec al1 al2 al3 r ha.1 ha.2)
  | putBlob al1 al2 src len => exact Puts.step (putBlob_spec al1 al2 r ha.1 ha.2)
  | putFmt al t =>
    cases t with
    | none => exact ⟨_, putFmt_none al, r.fail _⟩
    | some t =>
      obtain ⟨b', h, f, _⟩ := putFmt_spec al r (ha t rfl)
      exact ⟨b', h, f.inr⟩
  | putText al t =>
    cases t with
    | none =>
      refine ⟨_, putText_none al, ?_⟩
      rcases hs with hs | ⟨s, hs, _⟩
      · exact ⟨h1, by simp only; omega, Nat.zero_le _, h3⟩
      · cases hs
    | some t =>
      obtain ⟨b', h, f, hok⟩ := putText_spec al r (ha t rfl)
      refine ⟨b', h, ?_⟩
      rcases hs with hs | ⟨s, hs, hg⟩
      · rcases f.out with ⟨h, _⟩ | ⟨h, _, hw⟩
        · exact h
        · have := f.rpos
          exact ⟨h.mem, by omega, h.wpos, h.cap⟩
      · cases hs
        exact (hok hg).2.1

/-- The buffers that histories reach in which callers observe their obligations. -/
inductive Reachable : B → Prop where
  | start {b : B} : Start b → Reachable b
  | step {b b' : B} {op : Op} : Reachable b → Allowed b op → Safe b op → step b op = .ok b' →
      Reachable b'

/-- **C36**, part: in every history of allowed calls — with every byte content, every encoded
length, every allocator behaviour, but `Safe` calls of `sc_buf_put_text` and `sc_buf_shrink`
only — read position ≤ write position ≤ capacity, and no call accesses memory outside the
buffer's. Missing: the two cases excluded by `Safe`, where the claim is false. -/
theorem buf_in_range_partial {b : B} (h : Reachable b) :
    InRange b ∧ ∀ op, Allowed b op → Safe b op → ∃ b', step b op = .ok b' := by
  have r : InRange b := by
    induction h with
    | start h => exact h.inRange
    | @step b b' op _ ha hs he ih =>
      obtain ⟨b'', h1, h2⟩ := step_inRange ih op ha hs
      rw [he] at h1; cases h1; exact h2
  refine ⟨r, ?_⟩
  intro op ha hs
  obtain ⟨b', h1, _⟩ := step_inRange r op ha hs
  exact ⟨b', h1⟩

/-- The buffer after a call, for the concrete cases below. -/
def outB : Res B → B
  | .ok b => b
  | .ub => wrap [] 0 true true

theorem outB_eq {f : Res B} (h : f ≠ .ub) : f = .ok (outB f) := by
  cases f with
  | ok b => rfl
  | ub => exact absurd rfl h

/-- **C36** is false for `sc_buf_put_text`: when it cannot grow a buffer that was read from, it
sets the write position to 0, below the read position; the size is then about 2^64. -/
theorem buf_put_text_violated :
    ∃ b b', Reachable b ∧ Allowed b (.putText none (some [65, 66])) ∧
      step b (.putText none (some [65, 66])) = .ok b' ∧ b'.wpos < b'.rpos ∧
      size b' = SIZE_MAX := by
  refine ⟨{ wrap [104, 0] 2 true true with rpos := 1 },
    outB (step { wrap [104, 0] 2 true true with rpos := 1 } (.putText none (some [65, 66]))),
    .step (op := .get .w8) (.start (.wrap (data := [104, 0]) (isRef := true)
    (isData := true) (by decide))) trivial trivial (by decide +kernel), ?_, by decide +kernel,
    by decide +kernel, by decide +kernel⟩
  intro s hs; cases hs; decide

/-- **C36, C39** are false for `sc_buf_shrink` on memory the buffer only refers to: that
memory is given to `realloc`. -/
theorem buf_shrink_ref_violated :
    ∃ b, Reachable b ∧ b.ref = true ∧ Allowed b (.shrink none 1) ∧
      step b (.shrink none 1) = .ub := by
  refine ⟨_, .start (.wrap (data := [0, 0]) (isRef := true) (isData := false) (by decide)), rfl,
    by simp [Allowed], by decide +kernel⟩

/-! ## C37: hostile bytes -/

/-- **C37**, integers: whatever the bytes, a get either consumes exactly the next bytes and
returns the number they encode, or returns 0, makes the buffer invalid and consumes nothing. -/
theorem buf_get_int_hostile (w : Width) {b : B} (r : InRange b) :
    ∃ b' v, get w b = .ok (b', v) ∧
      ((b.err = 0 ∧ unread b = le w.bytes v ++ unread b' ∧ b'.err = 0) ∨
       (v = 0 ∧ b'.err ≠ 0 ∧ unread b' = unread b ∧ (b.err ≠ 0 ∨ (unread b).length < w.bytes))) := by
  rw [get_eq w r]
  have hl := length_unread r
  split
  · next h =>
    refine ⟨_, _, rfl, Or.inl ⟨h.1, ?_, h.1⟩⟩
    have h1 := r.mem
    have h2 := r.wpos
    have hs : (slice b.mem b.rpos w.bytes).length = w.bytes := length_slice (by omega)
    have := le_leVal (slice b.mem b.rpos w.bytes)
    rw [hs] at this
    rw [this, unread_advance r h.2, show slice b.mem b.rpos w.bytes = (unread b).take w.bytes by
      rw [unread, slice, slice, List.take_take, Nat.min_eq_left (by omega)], List.take_append_drop]
  · next h =>
    have := r.rpos
    refine ⟨_, _, rfl, Or.inr ⟨rfl, fail_err _, rfl, ?_⟩⟩
    by_cases he : b.err = 0
    · right; rw [hl]; omega
    · exact Or.inl he

/-- **C37**, `sc_buf_get_data`: it gives the next `len` bytes, or zeroes and an invalid
buffer. -/
theorem buf_get_data_hostile {b : B} (r : InRange b) {len : Nat} (hlen : len < OBJ_MAX) :
    ∃ b' d, getData b len = .ok (b', d) ∧ d.length = len ∧
      ((b.err = 0 ∧ unread b = d ++ unread b' ∧ b'.err = 0) ∨
       (d = List.replicate len 0 ∧ b'.err ≠ 0 ∧ unread b' = unread b)) := by
  rw [getData_eq r (Nat.le_of_lt hlen)]
  have hl := length_unread r
  have h1 := r.mem
  have h2 := r.wpos
  split
  · next h =>
    refine ⟨_, _, rfl, length_slice (by omega), Or.inl ⟨h.1, ?_, h.1⟩⟩
    rw [unread_advance r h.2, show slice b.mem b.rpos len = (unread b).take len by
      rw [unread, slice, slice, List.take_take, Nat.min_eq_left (by omega)], List.take_append_drop]
  · exact ⟨_, _, rfl, by simp, Or.inr ⟨rfl, fail_err _, rfl⟩⟩

/-- **C37**, `sc_buf_get_blob`: for `len > 0` it returns a pointer to the next `len` bytes,
inside the written region, or NULL and an invalid buffer. -/
theorem buf_get_blob_hostile {b : B} (r : InRange b) {len : Nat} (hlen : len < OBJ_MAX)
    (hz : 0 < len) :
    (∃ b' p, getBlob b len = (b', some p) ∧ b.rpos ≤ p ∧ p + len ≤ b.wpos ∧
      unread b = slice b.mem p len ++ unread b') ∨
    (∃ b', getBlob b len = (b', none) ∧ b'.err ≠ 0 ∧ (unread b).length < len) := by
  rw [getBlob_eq r (Nat.le_of_lt hlen), if_neg (by omega)]
  have hl := length_unread r
  have := r.rpos
  split
  · next h =>
    refine Or.inl ⟨_, _, rfl, Nat.le_refl _, h, ?_⟩
    rw [unread_advance r h, show slice b.mem b.rpos len = (unread b).take len by
      rw [unread, slice, slice, List.take_take, Nat.min_eq_left (by omega)], List.take_append_drop]
  · exact Or.inr ⟨_, rfl, fail_err _, by omega⟩

/-- **C37**, `sc_buf_get_str`, part: if the encoded length is below 2^62, it returns a pointer
to that many bytes and one more, inside the written region and consumed; or NULL. Missing:
larger encoded lengths, for which the claim is false (`buf_get_str_violated`), and that the
byte after the string is a terminator (`buf_get_str_unterminated_violated`). -/
theorem buf_get_str_hostile_partial {b : B} (r : InRange b)
    (hlen : (unread b).length < 8 ∨ leVal ((unread b).take 8) < OBJ_MAX ∨
      leVal ((unread b).take 8) = BUF_MAX) :
    ∃ b' o, getStr b = .ok (b', o) ∧
      ((o = none ∧ (b'.err ≠ 0 ∨ (b.err = 0 ∧ b'.err = 0 ∧ unread b = le 8 BUF_MAX ++ unread b'))) ∨
       (∃ p s z, o = some p ∧ b.err = 0 ∧ b'.err = 0 ∧ p + s.length + 1 ≤ b.wpos ∧
        slice b.mem p (s.length + 1) = s ++ [z] ∧
        unread b = le 8 s.length ++ s ++ [z] ++ unread b')) := by
  have h1 := r.mem
  have h2 := r.wpos
  have h3 := r.cap
  have hr := r.rpos
  have hl := length_unread r
  rw [getStr_eq r]
  by_cases h : b.err = 0 ∧ b.rpos + 8 ≤ b.wpos
  · rw [if_pos h]
    have ht : (unread b).take 8 = slice b.mem b.rpos 8 := by
      rw [unread, slice, slice, List.take_take, Nat.min_eq_left (by omega)]
    have hle : le 8 (leVal (slice b.mem b.rpos 8)) = slice b.mem b.rpos 8 := by
      have := le_leVal (slice b.mem b.rpos 8)
      rwa [length_slice (by omega)] at this
    rw [ht] at hlen
    generalize hL : leVal (slice b.mem b.rpos 8) = len at hlen hle
    simp only
    by_cases hz : len = BUF_MAX
    · rw [if_pos hz]
      refine ⟨_, _, rfl, Or.inl ⟨rfl, Or.inr ⟨h.1, h.1, ?_⟩⟩⟩
      rw [unread_advance r h.2, ← hz, hle, ← ht, List.take_append_drop]
    · rw [if_neg hz]
      have hlt : len < OBJ_MAX := by omega
      rw [Nat.mod_eq_of_lt (by omega)]
      split
      · exact ⟨_, _, rfl, Or.inl ⟨rfl, Or.inl (fail_err _)⟩⟩
      · next hin =>
        have hs : (slice b.mem (b.rpos + 8) (len + 1)).length = len + 1 := length_slice (by omega)
        obtain ⟨s, z, hsz⟩ : ∃ s z, slice b.mem (b.rpos + 8) (len + 1) = s ++ [z] := by
          have h0 : slice b.mem (b.rpos + 8) (len + 1) ≠ [] := by
            intro h0; rw [h0] at hs; simp at hs
          exact ⟨_, _, (List.dropLast_concat_getLast h0).symm⟩
        have hsl : s.length = len := by
          rw [hsz] at hs; simp at hs; omega
        refine ⟨_, _, rfl, Or.inr ⟨b.rpos + 8, s, z, rfl, h.1, h.1, by omega, by rw [hsl]; exact hsz, ?_⟩⟩
        have e : b.rpos + 8 + len + 1 = b.rpos + (8 + (len + 1)) := by omega
        rw [e, unread_advance r (by omega), hsl, hle, ← ht, List.append_assoc _ s [z], ← hsz]
        have hd : slice b.mem (b.rpos + 8) (len + 1) = ((unread b).drop 8).take (len + 1) := by
          apply List.ext_getElem?
          intro i
          rw [slice_getElem?, unread, List.getElem?_take, List.getElem?_drop, slice_getElem?]
          by_cases hi : i < len + 1
          · rw [if_pos hi, if_pos hi, if_pos (by omega), Nat.add_assoc]
          · rw [if_neg hi, if_neg hi]
        rw [hd, List.append_assoc, ← List.drop_drop, List.take_append_drop, List.take_append_drop]
  · rw [if_neg h]
    exact ⟨_, _, rfl, Or.inl ⟨rfl, Or.inl (fail_err _)⟩⟩

/-- **C37** is false for `sc_buf_get_str`: with the encoded length 2^64 - 1 the check
`rpos + len + 1 > wpos` wraps around, the call succeeds, and the pointer it returns is behind
the data — here behind the end of the memory. -/
theorem buf_get_str_violated :
    ∃ b b' p, Reachable b ∧ getStr b = .ok (b', some p) ∧ b'.err = 0 ∧ p = b.mem.length := by
  refine ⟨_, wrap (List.replicate 8 255) 8 true true |> ({ · with rpos := 8 }), 8,
    .start (.wrap (data := List.replicate 8 255) (isRef := true) (isData := true)
    (by decide)), by decide +kernel, by decide, by decide⟩

/-- **C37**: a string received from outside need not be terminated: reading it as a C string
runs off the memory. -/
theorem buf_get_str_unterminated_violated :
    ∃ b b' p, Reachable b ∧ getStr b = .ok (b', some p) ∧ b'.err = 0 ∧ cstrAt b'.mem p = .ub := by
  refine ⟨_, wrap [1, 0, 0, 0, 0, 0, 0, 0, 65, 66] 10 true true |> ({ · with rpos := 10 }), 8,
    .start (.wrap (data := [1, 0, 0, 0, 0, 0, 0, 0, 65, 66]) (isRef := true)
    (isData := true) (by decide)), by decide +kernel, by decide, by decide⟩

/-! ## C38: errors -/

theorem Puts.sticky {b b' : B} {bs : List UInt8} (p : Puts b b' bs) (h : b.err ≠ 0) :
    b'.err ≠ 0 ∧ written b' = written b := by
  rcases p.out with ⟨h0, _⟩ | ⟨h1, pre, _, hw, hz⟩
  · exact absurd h0 h
  · rw [hz h, List.append_nil] at hw; exact ⟨h1, hw⟩

/-- **C38**, part: an invalid buffer stays invalid through every call but `sc_buf_clear`, and
the calls that append a value write nothing. (`buf_err_get`: the gets return 0.) Missing:
`sc_buf_put_fmt` and `sc_buf_put_text` write all the same (`buf_put_fmt_err_violated`). -/
theorem buf_err_sticky_partial {b : B} (r : InRange b) (he : b.err ≠ 0) (op : Op)
    (ha : Allowed b op) (hs : Safe b op) (hc : op ≠ .clear) :
    ∃ b', step b op = .ok b' ∧ b'.err ≠ 0 ∧
      ((∃ al w v, op = .put al w v) ∨ (∃ al s n, op = .putRaw al s n) ∨
        (∃ al1 al2 s, op = .putStr al1 al2 s) ∨ (∃ al1 al2 al3 s n, op = .putStrLen al1 al2 al3 s n) ∨
        (∃ al1 al2 s n, op = .putBlob al1 al2 s n) ∨ (∃ w pos v, op = .setAt w pos v) ∨
        (∃ off s n, op = .setData off s n) → written b' = written b) := by
  have puts : ∀ {f : Res B} {bs : List UInt8} {P : Prop}, (∃ b', f = .ok b' ∧ Puts b b' bs) →
      ∃ b', f = .ok b' ∧ b'.err ≠ 0 ∧ (P → written b' = written b) := by
    intro f bs P ⟨b', h, p⟩
    exact ⟨b', h, (p.sticky he).1, fun _ => (p.sticky he).2⟩
  have no : ∀ {P : Prop} {b' : B}, (P → False) → P → written b' = written b :=
    fun h hp => (h hp).elim
  have hor : ∀ f, b.err ||| f ≠ 0 := by
    intro f h
    have := Nat.left_le_or (n := b.err) (m := f)
    omega
  cases op with
  | limit n => exact ⟨_, rfl, he, fun _ => rfl⟩
  | reserve al n =>
    obtain ⟨ok, b', h, g⟩ := reserve_spec al r (Nat.le_of_lt ha)
    refine ⟨b', by rw [step, h]; rfl, ?_, fun _ => g.written r⟩
    have := g.out
    split at this
    · rw [this.1]; exact he
    · rw [this.1]; exact hor _
  | shrink al n =>
    obtain ⟨ok, b', h, _, _, _, _, _, _, h3, _⟩ := shrink_spec al r n hs
    refine ⟨b', by rw [step, h]; rfl, ?_, by simp⟩
    rw [h3]; split
    · exact he
    · exact hor _
  | compact =>
    obtain ⟨b', h, _, _, _, _, _, _, _, h2⟩ := compact_spec r
    exact ⟨b', h, by rw [h2]; exact he, by simp⟩
  | clear => exact absurd rfl hc
  | markRead n => exact ⟨_, rfl, he, fun _ => rfl⟩
  | markWrite n => exact ⟨_, rfl, he, by simp⟩
  | setRpos n =>
    refine ⟨_, rfl, ?_, by simp⟩
    unfold setRpos; split
    · exact fail_err _
    · exact he
  | setWpos n =>
    refine ⟨_, rfl, ?_, by simp⟩
    unfold setWpos; split
    · exact fail_err _
    · exact he
  | peekAt w pos =>
    rw [step, peekAt, peekPos_eq w r (Nat.le_of_lt ha), if_neg (fun h => he h.1)]
    exact ⟨_, rfl, fail_err _, fun _ => rfl⟩
  | peekData pos len =>
    rw [step, peekData, if_pos (Or.inl he)]
    exact ⟨_, rfl, fail_err _, fun _ => rfl⟩
  | setAt w pos v =>
    rw [step, setAt, setPos_spec w r (Nat.le_of_lt ha), if_neg (fun h => he h.1)]
    exact ⟨_, rfl, fail_err _, fun _ => rfl⟩
  | setData off src len =>
    rw [step, setData_spec r (Nat.le_of_lt ha.1) ha.2.1 ha.2.2, if_neg (fun h => he h.1)]
    exact ⟨_, rfl, fail_err _, fun _ => rfl⟩
  | get w =>
    rw [step, get_eq w r, if_neg (fun h => he h.1)]
    exact ⟨_, rfl, fail_err _, fun _ => rfl⟩
  | getStr =>
    rw [step, getStr_eq r, if_neg (fun h => he h.1)]
    exact ⟨_, rfl, fail_err _, fun _ => rfl⟩
  | getBlob n =>
    rw [step, getBlob_eq r (Nat.le_of_lt ha)]
    split
    · exact ⟨_, rfl, he, fun _ => rfl⟩
    · split
      · exact ⟨_, rfl, he, fun _ => rfl⟩
      · exact ⟨_, rfl, fail_err _, fun _ => rfl⟩
  | getData n =>
    rw [step, getData_eq r (Nat.le_of_lt ha), if_neg (fun h => he h.1)]
    exact ⟨_, rfl, fail_err _, fun _ => rfl⟩
  | put al w v => exact puts (put_spec al w r v)
  | putRaw al src len => exact puts (putRaw_spec al r (Nat.le_of_lt ha.1) ha.2)
  | putStr al1 al2 str =>
    cases str with
    | none => exact puts (put_spec al1 .w64 r _)
    | some s =>
      obtain ⟨hl, t, c⟩ := ha
      exact puts (putStr_spec al1 al2 r hl c)
  | putStrLen al1 al2 al3 str len =>
    cases str with
    | none => exact puts (put_spec al1 .w64 r _)
    | some s => exact puts (putStrLen_spec al1 al2 al3 r ha.1 ha.2)
  | putBlob al1 al2 src len => exact puts (putBlob_spec al1 al2 r ha.1 ha.2)
  | putFmt al t =>
    cases t with
    | none => exact ⟨_, putFmt_none al, fail_err _, by simp⟩
    | some t =>
      obtain ⟨b', h, f, _⟩ := putFmt_spec al r (ha t rfl)
      exact ⟨b', h, f.err he, by simp⟩
  | putText al t =>
    cases t with
    | none => exact ⟨_, putText_none al, hor _, by simp⟩
    | some t =>
      obtain ⟨b', h, f, _⟩ := putText_spec al r (ha t rfl)
      refine ⟨b', h, ?_, by simp⟩
      rcases f.out with ⟨_, h, _⟩ | ⟨_, h, _⟩
      · rw [h]; exact he
      · exact h

/-- **C38**: on an invalid buffer the fixed-size gets return 0 and consume nothing. -/
theorem buf_err_get (w : Width) {b : B} (r : InRange b) (he : b.err ≠ 0) :
    ∃ b', get w b = .ok (b', 0) ∧ b'.err ≠ 0 ∧ b'.rpos = b.rpos := by
  rw [get_eq w r, if_neg (fun h => he h.1)]
  exact ⟨_, rfl, fail_err _, rfl⟩

/-- **C38**: `sc_buf_clear` makes any buffer valid and empty. -/
theorem buf_clear_valid (b : B) : valid (clear b) = true ∧ (clear b).rpos = 0 ∧
    (clear b).wpos = 0 := ⟨rfl, rfl, rfl⟩

/-- **C38** is false for `sc_buf_put_fmt` and `sc_buf_put_text`: on an invalid buffer both
move the write position; `sc_buf_put_text` even writes the text. -/
theorem buf_put_fmt_err_violated :
    ∃ b b1 b2, Reachable b ∧ b.err ≠ 0 ∧ b.wpos = 0 ∧
      step b (.putFmt none (some [65])) = .ok b1 ∧ b1.wpos = 10 ∧
      step b (.putText none (some [65])) = .ok b2 ∧ written b2 = [65, 0] := by
  refine ⟨{ wrap (List.replicate 12 0) 12 true false with err := CORRUPT },
    outB (step { wrap (List.replicate 12 0) 12 true false with err := CORRUPT }
      (.putFmt none (some [65]))),
    outB (step { wrap (List.replicate 12 0) 12 true false with err := CORRUPT }
      (.putText none (some [65]))),
    .step (op := .get .w8) (.start (.wrap (data := List.replicate 12 0)
    (isRef := true) (isData := false) (by decide))) trivial trivial (by decide +kernel),
    by decide, by decide, by decide +kernel, by decide +kernel, by decide +kernel,
    by decide +kernel⟩

/-! ## C39: limits -/

theorem Puts.lim {b : B} {f : Res B} {bs : List UInt8} (h : ∃ b', f = .ok b' ∧ Puts b b' bs)
    {b' : B} (hf : f = .ok b') : b'.cap ≠ b.cap → b'.cap ≤ b.limit ∧ b.ref = false := by
  obtain ⟨b1, h1, p⟩ := h
  rw [h1] at hf; cases hf; exact p.within

/-- **C39**, part: no call but `sc_buf_shrink` changes the capacity of a buffer that refers to
foreign memory, or makes it exceed the limit. Missing: `sc_buf_shrink`, for which both are
false (`buf_shrink_limit_violated`, `buf_shrink_ref_violated`). -/
theorem buf_limit_partial {b b' : B} (r : InRange b) (op : Op) (ha : Allowed b op)
    (hs : ∀ al n, op ≠ .shrink al n) (hstep : step b op = .ok b') (hne : b'.cap ≠ b.cap) :
    b'.cap ≤ b.limit ∧ b.ref = false := by
  cases op with
  | limit n => cases hstep; exact absurd rfl hne
  | reserve al n =>
    obtain ⟨ok, b1, h, g⟩ := reserve_spec al r (Nat.le_of_lt ha)
    rw [step, h] at hstep
    cases hstep; exact g.within hne
  | shrink al n => exact absurd rfl (hs al n)
  | compact =>
    obtain ⟨b1, h, _, _, _, _, hc, _⟩ := compact_spec r
    rw [step, h] at hstep
    cases hstep; exact absurd hc hne
  | clear => cases hstep; exact absurd rfl hne
  | markRead n => cases hstep; exact absurd rfl hne
  | markWrite n => cases hstep; exact absurd rfl hne
  | setRpos n =>
    cases hstep
    refine absurd ?_ hne
    unfold setRpos; split <;> rfl
  | setWpos n =>
    cases hstep
    refine absurd ?_ hne
    unfold setWpos; split <;> rfl
  | peekAt w pos =>
    rw [step, peekAt, peekPos_eq w r (Nat.le_of_lt ha)] at hstep
    split at hstep <;> (cases hstep; exact absurd rfl hne)
  | peekData pos len =>
    rw [step, peekData] at hstep
    split at hstep
    · cases hstep; exact absurd rfl hne
    · split at hstep
      · cases hstep; exact absurd rfl hne
      · cases hstep
  | setAt w pos v =>
    rw [step, setAt, setPos_spec w r (Nat.le_of_lt ha)] at hstep
    split at hstep <;> (cases hstep; exact absurd rfl hne)
  | setData off src len =>
    rw [step, setData_spec r (Nat.le_of_lt ha.1) ha.2.1 ha.2.2] at hstep
    split at hstep <;> (cases hstep; exact absurd rfl hne)
  | get w =>
    rw [step, get_eq w r] at hstep
    split at hstep <;> (cases hstep; exact absurd rfl hne)
  | getStr =>
    rw [step, getStr_eq r, Res.ok_bind] at hstep
    simp only at hstep
    split at hstep
    · split at hstep
      · cases hstep; exact absurd rfl hne
      · split at hstep <;> (cases hstep; exact absurd rfl hne)
    · cases hstep; exact absurd rfl hne
  | getBlob n =>
    rw [step, getBlob_eq r (Nat.le_of_lt ha)] at hstep
    split at hstep
    · cases hstep; exact absurd rfl hne
    · split at hstep <;> (cases hstep; exact absurd rfl hne)
  | getData n =>
    rw [step, getData_eq r (Nat.le_of_lt ha)] at hstep
    split at hstep <;> (cases hstep; exact absurd rfl hne)
  | put al w v => exact Puts.lim (put_spec al w r v) hstep hne
  | putRaw al src len => exact Puts.lim (putRaw_spec al r (Nat.le_of_lt ha.1) ha.2) hstep hne
  | putStr al1 al2 str =>
    cases str with
    | none => exact Puts.lim (put_spec al1 .w64 r _) hstep hne
    | some s =>
      obtain ⟨hl, t, c⟩ := ha
      exact Puts.lim (putStr_spec al1 al2 r hl c) hstep hne
  | putStrLen al1 al2 al3 str len =>
    cases str with
    | none => exact Puts.lim (put_spec al1 .w64 r _) hstep hne
    | some s => exact Puts.lim (putStrLen_spec al1 al2 al3 r ha.1 ha.2) hstep hne
  | putBlob al1 al2 src len => exact Puts.lim (putBlob_spec al1 al2 r ha.1 ha.2) hstep hne
  | putFmt al t =>
    cases t with
    | none => rw [step, putFmt_none] at hstep; cases hstep; exact absurd rfl hne
    | some t =>
      obtain ⟨b1, h, f, _⟩ := putFmt_spec al r (ha t rfl)
      rw [step, h] at hstep; cases hstep; exact f.within hne
  | putText al t =>
    cases t with
    | none => rw [step, putText_none] at hstep; cases hstep; exact absurd rfl hne
    | some t =>
      obtain ⟨b1, h, f, _⟩ := putText_spec al r (ha t rfl)
      rw [step, h] at hstep; cases hstep; exact f.within hne

/-- **C39** is false for `sc_buf_shrink`: it rounds up to a multiple of 4096, so it can make a
buffer larger, and larger than its limit. Here capacity and limit are 8 and the buffer is
"shrunk" to 4: it ends up with 4096. -/
theorem buf_shrink_limit_violated :
    ∃ b b', Reachable b ∧ b.limit = 8 ∧ b.cap = 8 ∧
      step b (.shrink (some fun _ => 0) 4) = .ok b' ∧ b'.cap = 4096 ∧ b'.limit = 8 := by
  refine ⟨limit (init true 8).2 8, outB (step (limit (init true 8).2 8) (.shrink (some fun _ => 0) 4)),
    .step (op := .limit 8) (.start (.init (ok := true) (cap := 8) (b := (init true 8).2)
      (by decide +kernel))) trivial trivial (by decide +kernel), by decide +kernel,
    by decide +kernel, outB_eq (by decide +kernel), by decide +kernel, by decide +kernel⟩

/-! ## C40: compact, shrink, reserve -/

/-- **C40.** `sc_buf_compact` keeps the unread bytes and moves them to the front. -/
theorem buf_compact_keeps {b : B} (r : InRange b) :
    ∃ b', compact b = .ok b' ∧ unread b' = unread b ∧ b'.rpos = 0 ∧ b'.cap = b.cap ∧
      b'.err = b.err := by
  obtain ⟨b', h, _, h1, _, h2, h3, _, _, h4⟩ := compact_spec r
  exact ⟨b', h, h2, h1, h3, h4⟩

/-- **C40.** `sc_buf_shrink` keeps the unread bytes, for every length and whether or not the
reallocation succeeds. -/
theorem buf_shrink_keeps (al : Alloc UInt8) {b : B} (r : InRange b) (hr : b.ref = false)
    (len : Nat) :
    ∃ ok b', shrink al b len = .ok (ok, b') ∧ unread b' = unread b ∧ (ok = true → b'.err = b.err) := by
  obtain ⟨ok, b', h, _, _, h2, _, _, _, h3, _⟩ := shrink_spec al r len hr
  exact ⟨ok, b', h, h2, fun ho => by rw [h3, ho]; rfl⟩

/-- **C40**, `sc_buf_reserve`, part: for lengths below 2^62 it keeps the unread bytes and,
when it succeeds, there is room for the requested bytes. Missing: larger lengths, for which
it is false (`buf_reserve_violated`). -/
theorem buf_reserve_partial (al : Alloc UInt8) {b : B} (r : InRange b) {len : Nat}
    (hlen : len < OBJ_MAX) :
    ∃ ok b', reserve al b len = .ok (ok, b') ∧ unread b' = unread b ∧
      (ok = true → len ≤ quota b' ∧ b'.err = b.err) ∧ (ok = false → b'.err ≠ 0) := by
  obtain ⟨ok, b', h, g⟩ := reserve_spec al r (Nat.le_of_lt hlen)
  refine ⟨ok, b', h, ?_, ?_, ?_⟩
  · rw [unread_eq r, unread_eq g.inr, g.written r, g.rpos]
  · intro ho
    have := g.out
    rw [if_pos ho] at this
    have h1 := g.wpos
    have h2 := g.inr.cap
    refine ⟨?_, this.1⟩
    unfold quota sub64
    omega
  · intro ho
    have := g.out
    rw [if_neg (by simp [ho])] at this
    rw [this.1]; exact or_ne_zero (by decide)

/-- **C40** is false for `sc_buf_reserve` with lengths near 2^64: the check wraps around, and
it reports success although there is no room. -/
theorem buf_reserve_violated :
    ∃ b b', Reachable b ∧ reserve none b (W64 - 1) = .ok (true, b') ∧ quota b' < W64 - 1 := by
  refine ⟨_, wrap [1, 2] 2 true true,
    .start (.wrap (data := [1, 2]) (isRef := true) (isData := true) (by decide)),
    by decide +kernel, by decide +kernel⟩

/-! ## C41: move -/

/-- **C41**, part: if the destination is valid, `sc_buf_move` appends to it exactly the bytes
it takes from the source, as many as fit. Missing: an invalid destination, for which it is
false (`buf_move_violated`). -/
theorem buf_move_partial (al : Alloc UInt8) {d s : B} (rd : InRange d) (rs : InRange s)
    (he : d.err = 0) :
    ∃ d' s', move al d s = .ok (d', s') ∧ d'.err = 0 ∧ s'.err = s.err ∧
      ∃ bs, written d' = written d ++ bs ∧ unread s = bs ++ unread s' ∧
        bs.length = min (d.cap - d.wpos) (s.wpos - s.rpos) := by
  have h1 := rd.mem
  have h2 := rd.wpos
  have h3 := rd.cap
  have h4 := rs.mem
  have h5 := rs.wpos
  have h6 := rs.cap
  have h7 := rs.rpos
  have hq : quota d = d.cap - d.wpos := by unfold quota sub64; omega
  have hs : size s = s.wpos - s.rpos := by unfold size sub64; omega
  rw [move, hq, hs]
  obtain ⟨n, hn⟩ : ∃ n, n = min (d.cap - d.wpos) (s.wpos - s.rpos) := ⟨_, rfl⟩
  have hn' : (if d.cap - d.wpos < s.wpos - s.rpos then d.cap - d.wpos else s.wpos - s.rpos) = n := by
    rw [hn]; split <;> omega
  rw [hn']
  obtain ⟨d', h, p, e'⟩ := putRaw_ok (al := al) rd he (src := s.mem.drop s.rpos) (len := n)
    (by simp; omega) (by omega) (Or.inl (by omega))
  rw [h, Res.ok_bind, add64_lt (by omega)]
  refine ⟨d', _, rfl, e', rfl, slice (s.mem.drop s.rpos) 0 n, ?_, ?_, ?_⟩
  · rcases p.out with ⟨_, _, hw⟩ | ⟨hne, _⟩
    · exact hw
    · exact absurd e' hne
  · rw [unread_advance rs (by omega), show slice (s.mem.drop s.rpos) 0 n = (unread s).take n by
      rw [unread, slice, slice, List.take_take, Nat.min_eq_left (by omega), List.drop_zero],
      List.take_append_drop]
  · rw [length_slice (by simp; omega), hn]

/-- **C41** is false if the destination is invalid: nothing is appended, but the source is
consumed. -/
theorem buf_move_violated :
    ∃ d s d' s', Reachable d ∧ Reachable s ∧ move none d s = .ok (d', s') ∧ unread s = [7] ∧
      written d' = written d ∧ unread s' = [] := by
  refine ⟨{ wrap [0, 0] 2 true false with err := CORRUPT }, wrap [7] 1 true true,
    { wrap [0, 0] 2 true false with err := CORRUPT }, { wrap [7] 1 true true with rpos := 1 },
    .step (op := .get .w8) (.start (.wrap (data := [0, 0]) (isRef := true)
      (isData := false) (by decide))) trivial trivial (by decide +kernel),
    .start (.wrap (data := [7]) (isRef := true) (isData := true) (by decide)),
    by decide +kernel, by decide, by decide, by decide⟩

/-! ## C42: encoded lengths -/

/-- The length function of the API for a value. -/
def Val.len : Val → Res Nat
  | .int w _ => .ok (intLen w)
  | .bool _ => .ok (intLen .w8)
  | .double _ => .ok (intLen .w64)
  | .str s => strLen (s.map (· ++ [0]))
  | .blob bs => .ok (blobLen bs.length)

/-- **C42.** For every value, the length function of its type gives the number of bytes by
which a successful put advances the write position. -/
theorem buf_len_exact (al : Nat → Alloc UInt8) {b b' : B} (r : InRange b) (v : Val) (hv : v.Ok)
    (hp : v.put al b = .ok b') (he : b'.err = 0) : v.len = .ok (b'.wpos - b.wpos) := by
  obtain ⟨b1, h1, p⟩ := v.put_spec al r hv
  rw [hp] at h1; cases h1
  have hw : b'.wpos - b.wpos = v.encode.length := by
    rcases p.out with ⟨_, _, hw⟩ | ⟨hne, _⟩
    · have := congrArg List.length hw
      rw [length_written p.inr, List.length_append, length_written r] at this
      omega
    · exact absurd he hne
  rw [hw]
  cases v with
  | int w n => cases w <;> rfl
  | bool v => rfl
  | double n => rfl
  | str s =>
    cases s with
    | none => rfl
    | some s =>
      have := hv.2
      rw [Val.len, Option.map_some, strLen, strlen_eq (CStr.self hv.1), Res.ok_bind,
        add64_lt (by omega)]
      simp [Val.encode]; omega
  | blob bs =>
    have : bs.length < OBJ_MAX := hv
    rw [Val.len, blobLen, add64_lt (by omega)]
    simp [Val.encode]; omega

/-! ## C43: formatted text -/

/-- **C43**, `sc_buf_put_fmt`, part: on a valid buffer with room for the length, the text and
the terminator, or that can grow, it stores the text such that `sc_buf_get_str` returns it.
Missing: the free space is exactly the length of the text plus 8, or the buffer is full and
the text ends exactly at a multiple of 4096 (`buf_put_fmt_violated`). -/
theorem buf_put_fmt_partial (al : Alloc UInt8) {b : B} (r : InRange b) (he : b.err = 0)
    {t : List UInt8} (ht : t.length < 2147483647) (hnz : ∀ c ∈ t, c ≠ 0)
    (hroom : t.length + 9 ≤ b.cap - b.wpos ∨ (CanGrow al b (t.length + 8) ∧
      t.length + 8 ≠ b.cap - b.wpos ∧
      ¬ (b.wpos = b.cap ∧ (b.cap + (t.length + 8)) % 4096 = 0))) :
    ∃ b', putFmt al b (some t) = .ok b' ∧ b'.err = 0 ∧
      unread b' = unread b ++ (Val.str (some t)).encode ∧
      (b.rpos = b.wpos → ∃ b'', (Val.str none).get b' = .ok (b'', .str (some t)) ∧
        unread b'' = []) := by
  obtain ⟨b', h, f, h1, h2⟩ := putFmt_spec al r ht
  have e' : b'.err = 0 := by
    rcases hroom with hr | ⟨hg, hn, hm⟩
    · exact h1 he hr
    · exact h2 he hg hn hm
  have p := f.ok he
  rcases p.out with ⟨_, _, hw⟩ | ⟨hne, _⟩
  · have hu := unread_append r p.inr p.rpos hw
    refine ⟨b', h, e', hu, ?_⟩
    intro hread
    have hz : unread b = [] := by simp [unread, slice, hread]
    rw [hz, List.nil_append] at hu
    obtain ⟨b'', h3, _, _, hu2⟩ := (Val.str (some t)).get_eq p.inr e' ⟨hnz, by omega⟩ (rest := [])
      (by rw [List.append_nil]; exact hu)
    exact ⟨b'', h3, hu2⟩
  · exact absurd e' hne

/-- **C43** is false for `sc_buf_put_fmt` at the capacity boundary: it reserves room for the
length and the text but not for the terminator. A buffer with 10 free bytes, which could
grow, cannot take a text of 2 characters. -/
theorem buf_put_fmt_violated :
    ∃ b b', Reachable b ∧ b.err = 0 ∧ CanGrow (some fun _ => 0) b 10 ∧
      putFmt (some fun _ => 0) b (some [65, 66]) = .ok b' ∧ b'.err = OOM := by
  refine ⟨(init true 10).2, outB (putFmt (some fun _ => 0) (init true 10).2 (some [65, 66])),
    .start (.init (ok := true) (cap := 10) (by decide +kernel)), by decide +kernel, ?_,
    by decide +kernel, by decide +kernel⟩
  refine ⟨by decide +kernel, by simp, by decide +kernel, by decide +kernel⟩

/-- **C43 is violated** for one length: a text of `INT_MAX` characters, put into an empty buffer that has room for it, makes
`sc_buf_put_text` add 1 to `INT_MAX`, which is undefined. -/
theorem buf_put_text_long_violated (al : Alloc UInt8) {b : B} (r : InRange b) (he : b.rpos = b.wpos) {t : List UInt8} (ht : t.length = 2147483647)
    (hroom : t.length < b.cap - b.wpos) : putText al b (some t) = .ub := by
  have h1 := r.mem
  have h2 := r.wpos
  have h3 := r.cap
  have hq : quota b = b.cap - b.wpos := by unfold quota sub64; omega
  have hs : size b = 0 := by unfold size sub64; omega
  obtain ⟨m1, hv1, -⟩ := vsnprintf_spec (mem := b.mem) (pos := b.wpos - 0) (n := b.cap - b.wpos) (by omega) t
  rw [putText]
  simp only
  rw [hs, if_neg (by omega), hq, hv1, Res.ok_bind]
  simp only
  rw [if_neg (by omega), textEnd, if_pos (by omega)]

/-- **C43**, `sc_buf_put_text`: if the unread bytes are a terminated text (or nothing), it
appends the text and keeps exactly one terminator, provided there is room or the buffer can
grow. -/
theorem buf_put_text_appends (al : Alloc UInt8) {b : B} (r : InRange b) {old t : List UInt8}
    (ht : t.length < 2147483647)
    (hold : unread b = old ++ [0] ∨ (unread b = [] ∧ old = []))
    (hroom : t.length + 1 ≤ b.cap - b.wpos ∨ CanGrow al b (t.length + 1)) :
    ∃ b', putText al b (some t) = .ok b' ∧ b'.err = b.err ∧ unread b' = old ++ t ++ [0] := by
  obtain ⟨b', h, f, hok⟩ := putText_spec al r ht
  obtain ⟨e, r', hw⟩ := hok hroom
  refine ⟨b', h, e, ?_⟩
  have h1 := r.mem
  have h2 := r.wpos
  have h3 := r.rpos
  have hl := length_unread r
  rw [unread_eq r', hw, f.rpos, List.append_assoc, List.append_assoc]
  have hlen : (slice b.mem 0 (textPos b)).length = textPos b := by
    apply length_slice
    unfold textPos; split <;> omega
  have hrp : b.rpos ≤ textPos b := by unfold textPos; split <;> omega
  rw [List.drop_append_of_le_length (by omega)]
  congr 1
  rw [slice_eq_take, List.drop_take]
  rcases hold with hold | ⟨hold, rfl⟩
  · rw [hold] at hl
    simp only [List.length_append, List.length_singleton] at hl
    have ht : textPos b - b.rpos = old.length := by
      unfold textPos; rw [if_pos (by omega)]; omega
    rw [ht]
    have := slice_unread (b := b) (bs := old) (rest := [0]) hold
    exact this
  · rw [hold] at hl
    simp only [List.length_nil] at hl
    have ht : textPos b - b.rpos = 0 := by
      unfold textPos; rw [if_neg (by omega)]; omega
    rw [ht]; rfl

/-! ## The hypotheses are met -/

/-- A message of five values in a buffer of 64 bytes (C34, C35, C42). -/
example : let b := (init true 64).2
    let vs : List Val := [.int .w16 513, .str (some [104, 105]), .str none, .bool true,
      .blob [1, 2, 3]]
    let b' := outB (putAll (fun _ _ => none) b 0 vs)
    InRange b ∧ (∀ v ∈ vs, v.Ok) ∧ b'.err = 0 ∧
    written b' = [1, 2, 2, 0, 0, 0, 0, 0, 0, 0, 104, 105, 0, 255, 239, 255, 255, 255, 255, 255, 255,
      1, 3, 0, 0, 0, 0, 0, 0, 0, 1, 2, 3] := by
  refine ⟨Start.inRange (.init (ok := true) (cap := 64) (by decide +kernel)), ?_,
    by decide +kernel, by decide +kernel⟩
  simp [Val.Ok, Width.bytes]

/-- A buffer that has to grow for a formatted text (C43). -/
example : let b := (init true 0).2
    CanGrow (some fun _ => 9) b 8 ∧
    unread (outB (putFmt (some fun _ => 9) b (some [65, 66]))) =
      [2, 0, 0, 0, 0, 0, 0, 0, 65, 66, 0] := by
  refine ⟨⟨by decide +kernel, by simp, by decide +kernel, by decide +kernel⟩, by decide +kernel⟩

end Verif.Buf
