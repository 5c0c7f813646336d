import Verif.Buf.Calls

/-! # `sc_buf_put_fmt` and `sc_buf_put_text` -/

namespace Verif.Buf

theorem reserve_ok {al : Alloc UInt8} {b : B} (r : InRange b) {len : Nat}
    (h : b.wpos + len ≤ b.cap ∨ (CanGrow al b len ∧ len ≤ OBJ_MAX)) :
    ∃ b', reserve al b len = .ok (true, b') := by
  have h1 := r.wpos
  have h2 := r.cap
  have hl : len ≤ OBJ_MAX := by rcases h with h | h <;> omega
  rw [reserve, add64_lt (by omega)]
  split
  · next hgt =>
    rcases h with h | ⟨⟨hr, ha, hlim, hobj⟩, _⟩
    · omega
    · rw [if_neg (by simp [hr])]
      simp only
      rw [add64_lt (show b.cap + len < W64 by omega), add64_lt (by omega)]
      have hsz : mul64 ((b.cap + len + 4095) / 4096) 4096 =
          (b.cap + len + 4095) / 4096 * 4096 := by unfold mul64; omega
      rw [hsz, if_neg (by omega), realloc, if_neg (by simp [hr]; omega), if_pos hobj]
      cases al with
      | none => exact absurd rfl ha
      | some fill => exact ⟨_, rfl⟩
  · exact ⟨b, rfl⟩

theorem vsnprintf_spec {mem : List UInt8} {pos n : Nat} (h : n = 0 ∨ pos + n ≤ mem.length)
    (t : List UInt8) :
    ∃ m', vsnprintf mem pos n (some t) = .ok (m', some t.length) ∧ m'.length = mem.length ∧
      (∀ i, i < pos → m'[i]? = mem[i]?) ∧ (t.length < n → m' = splice mem pos (t ++ [0])) := by
  rw [vsnprintf]
  by_cases hn : n = 0
  · simp only [hn, if_true]
    exact ⟨mem, rfl, rfl, fun _ _ => rfl, fun h => absurd h (by omega)⟩
  · simp only
    rw [if_neg hn]
    have hl : pos + (t.take (n - 1) ++ [0]).length ≤ mem.length := by
      simp only [List.length_append, List.length_take, List.length_singleton]
      omega
    rw [if_pos hl]
    refine ⟨_, rfl, length_splice hl, ?_, ?_⟩
    · intro i hi
      rw [splice_getElem? hl, if_pos hi]
    · intro ht
      rw [List.take_of_length_le (by omega)]

/-- What `sc_buf_put_fmt` guarantees, apart from when it succeeds. -/
structure Fmt (b b' : B) (bs : List UInt8) : Prop where
  inr : InRange b'
  rpos : b'.rpos = b.rpos
  limit : b'.limit = b.limit
  ref : b'.ref = b.ref
  grow : b.cap ≤ b'.cap
  within : b'.cap ≠ b.cap → b'.cap ≤ b.limit ∧ b.ref = false
  ok : b.err = 0 → Puts b b' bs
  err : b.err ≠ 0 → b'.err ≠ 0

theorem written_congr {b b' : B} (hw : b'.wpos = b.wpos)
    (h : ∀ i, i < b.wpos → b'.mem[i]? = b.mem[i]?) : written b' = written b := by
  apply List.ext_getElem?
  intro i
  rw [written, written, slice_getElem?, slice_getElem?, hw, Nat.zero_add]
  split
  · exact h i (by assumption)
  · rfl

/-- The end of `sc_buf_put_fmt` once the text is in place. -/
theorem fmt_end {b : B} {m : List UInt8} (r : InRange { b with mem := m }) {t : List UInt8}
    (hm : b.wpos + (t.length + 9) ≤ b.cap)
    (hmem : slice m (b.wpos + 8) (t.length + 1) = t ++ [0]) :
    ∃ b', (do
        let b ← setAt .w64 { b with mem := m } b.wpos t.length
        .ok (markWrite b (add64 t.length 9))) = Res.ok b' ∧ InRange b' ∧ b'.rpos = b.rpos ∧
      b'.limit = b.limit ∧ b'.ref = b.ref ∧ b'.cap = b.cap ∧
      (b.err = 0 → b'.err = 0 ∧ written b' = slice m 0 b.wpos ++ (le 8 t.length ++ t ++ [0])) ∧
      (b.err ≠ 0 → b'.err ≠ 0) := by
  have h1 := r.mem
  have h2 := r.cap
  have h3 := r.rpos
  simp only at h1 h2 h3
  rw [setAt, setPos_spec .w64 r (by omega), Res.ok_bind]
  by_cases he : b.err = 0
  · have hc : ({ b with mem := m } : B).err = 0 ∧
        b.wpos + Width.w64.bytes ≤ ({ b with mem := m } : B).cap :=
      ⟨he, by simp only [Width.bytes]; omega⟩
    rw [if_pos hc]
    simp only [Res.ok_bind, markWrite, Width.bytes]
    rw [add64_lt (show t.length + 9 < W64 by omega), add64_lt (by omega)]
    have hsp : b.wpos + (le 8 t.length).length ≤ m.length := by simp; omega
    refine ⟨_, rfl, ⟨?_, ?_, ?_, h2⟩, rfl, rfl, rfl, rfl, fun _ => ⟨he, ?_⟩,
      fun h => absurd he h⟩
    · simp only; rw [length_splice hsp]; exact h1
    · simp only; omega
    · simp only; omega
    · apply List.ext_getElem?
      intro i
      rw [written, slice_getElem?]
      simp only
      rw [Nat.zero_add, splice_getElem? hsp, length_le]
      by_cases ha : i < b.wpos
      · rw [if_pos (by omega), if_pos ha, List.getElem?_append_left
          (by rw [length_slice (by omega)]; exact ha), slice_getElem?, if_pos ha, Nat.zero_add]
      · rw [List.getElem?_append_right (by rw [length_slice (by omega)]; omega),
          length_slice (by omega), List.append_assoc]
        by_cases hb : i < b.wpos + 8
        · rw [if_pos (by omega), if_neg ha, if_pos hb, List.getElem?_append_left (by simp; omega)]
        · rw [if_neg ha, if_neg hb, List.getElem?_append_right (by simp; omega), ← hmem,
            slice_getElem?, length_le]
          split
          · rw [if_pos (by omega)]; congr 1; omega
          · rw [if_neg (by omega)]
  · have hc : ¬ (({ b with mem := m } : B).err = 0 ∧
        b.wpos + Width.w64.bytes ≤ ({ b with mem := m } : B).cap) := fun h => he h.1
    rw [if_neg hc]
    simp only [Res.ok_bind, markWrite, B.fail]
    rw [add64_lt (show t.length + 9 < W64 by omega), add64_lt (by omega)]
    refine ⟨_, rfl, ⟨h1, ?_, ?_, h2⟩, rfl, rfl, rfl, rfl, fun h => absurd h he,
      fun _ => or_ne_zero (by decide)⟩
    · simp only; omega
    · simp only; omega

theorem slice_splice {m bs : List α} {p : Nat} (h : p + bs.length ≤ m.length) :
    slice (splice m p bs) p bs.length = bs := by
  apply List.ext_getElem?
  intro i
  rw [slice_getElem?]
  split
  · rw [splice_getElem? h, if_neg (by omega), if_pos (by omega), Nat.add_sub_cancel_left]
  · rw [List.getElem?_eq_none (by omega)]

theorem slice_congr {m m' : List α} {n : Nat} (h : ∀ i, i < n → m'[i]? = m[i]?) :
    slice m' 0 n = slice m 0 n := by
  apply List.ext_getElem?
  intro i
  rw [slice_getElem?, slice_getElem?, Nat.zero_add]
  split
  · exact h i (by assumption)
  · rfl

theorem putFmt_spec (al : Alloc UInt8) {b : B} (r : InRange b) {t : List UInt8}
    (ht : t.length < 2147483647) :
    ∃ b', putFmt al b (some t) = .ok b' ∧ Fmt b b' (le 8 t.length ++ t ++ [0]) ∧
      (b.err = 0 → t.length + 9 ≤ b.cap - b.wpos → b'.err = 0) ∧
      (b.err = 0 → CanGrow al b (t.length + 8) → t.length + 8 ≠ b.cap - b.wpos →
        ¬ (b.wpos = b.cap ∧ (b.cap + (t.length + 8)) % 4096 = 0) → b'.err = 0) := by
  have h1 := r.mem
  have h2 := r.wpos
  have h3 := r.cap
  have hq : quota b = b.cap - b.wpos := by unfold quota sub64; omega
  -- the capacity that is offered to the first vsnprintf
  obtain ⟨q, hqd⟩ : ∃ q, q = if b.cap - b.wpos > 8 then b.cap - b.wpos - 8 else 0 := ⟨_, rfl⟩
  have hq' : (if quota b > 8 then sub64 (quota b) 8 else 0) = q := by
    rw [hq, hqd]; unfold sub64; split <;> omega
  have hq0 : q = 0 ∨ b.wpos + 8 + q ≤ b.mem.length := by rw [hqd]; split <;> omega
  obtain ⟨m1, hv1, hl1, hk1, ht1⟩ := vsnprintf_spec hq0 t
  rw [putFmt]
  simp only
  rw [hq', hv1, Res.ok_bind]
  simp only
  have r1 : InRange { b with mem := m1 } := ⟨by rw [← h1]; exact hl1, r.rpos, h2, h3⟩
  have hw1 : written { b with mem := m1 } = written b :=
    written_congr rfl (fun i hi => hk1 i (by omega))
  split
  · next hge =>
    rw [add64_lt (by omega)]
    obtain ⟨ok, b2, hr2, g⟩ := reserve_spec al r1 (len := t.length + 8) (by omega)
    rw [hr2, Res.ok_bind]
    have hno : ¬ (t.length + 9 ≤ b.cap - b.wpos) := by
      rw [hqd] at hge; split at hge <;> omega
    cases ok with
    | false =>
      have p := g.puts_false r1 (le 8 t.length ++ t ++ [0])
      refine ⟨b2, rfl, ⟨p.inr, p.rpos, p.limit, p.ref, p.grow, p.within, ?_, ?_⟩, ?_, ?_⟩
      · intro he
        refine ⟨p.inr, p.rpos, p.limit, p.ref, p.grow, p.within, ?_⟩
        have ho := p.out
        rw [hw1] at ho; exact ho
      · intro he
        rcases p.out with ⟨h, _⟩ | ⟨h, _⟩
        · exact absurd h he
        · exact h
      · intro _ h; exact absurd h hno
      · intro _ hg _ _
        obtain ⟨b', hb'⟩ := reserve_ok (al := al) r1 (len := t.length + 8)
          (Or.inr ⟨hg, by omega⟩)
        rw [hr2] at hb'; cases hb'
    | true =>
      have r2 := g.inr
      have h5 := r2.mem
      have h6 := r2.wpos
      have h7 := r2.cap
      have ho := g.out
      have h8 := g.wpos
      simp only [if_true] at ho h8
      have hq2 : sub64 (quota b2) 8 = b2.cap - b2.wpos - 8 := by unfold quota sub64; omega
      simp only [Bool.not_true, Bool.false_eq_true, if_false]
      rw [hq2]
      obtain ⟨m3, hv3, hl3, hk3, ht3⟩ := vsnprintf_spec (mem := b2.mem) (pos := b2.wpos + 8)
        (n := b2.cap - b2.wpos - 8) (by omega) t
      rw [hv3, Res.ok_bind]
      simp only
      have r3 : InRange { b2 with mem := m3 } := ⟨by rw [← h5]; exact hl3, r2.rpos, h6, h7⟩
      have hw3 : written { b2 with mem := m3 } = written b := by
        rw [written_congr (b := b2) (b' := { b2 with mem := m3 }) rfl
          (fun i hi => hk3 i (by omega)), g.written r1, hw1]
      have gcap : b2.cap ≠ b.cap → b2.cap ≤ b.limit ∧ b.ref = false := g.within
      have ggrow : b.cap ≤ b2.cap := g.grow
      have gr : b2.rpos = b.rpos := g.rpos
      have gl : b2.limit = b.limit := g.limit
      have gf : b2.ref = b.ref := g.ref
      split
      · next hbad =>
        have hE : ({ b2 with mem := m3 } : B).err ||| OOM ≠ 0 := or_ne_zero (by decide)
        refine ⟨_, rfl, ⟨r3.fail _, gr, gl, gf, ggrow, gcap, ?_, fun _ => hE⟩, ?_, ?_⟩
        · intro _
          exact ⟨r3.fail _, gr, gl, gf, ggrow, gcap,
            Or.inr ⟨hE, [], by simp, by rw [List.append_nil, ← hw3]; rfl, fun _ => rfl⟩⟩
        · intro _ h; exact absurd h hno
        · intro _ hg hne hmod
          exfalso
          -- the reserve either did nothing or rounded up
          rw [reserve] at hr2
          simp only at hr2
          rw [add64_lt (by omega)] at hr2
          split at hr2
          · next hgt =>
            rw [if_neg (by simp [hg.1])] at hr2
            rw [add64_lt (show b.cap + (t.length + 8) < W64 by omega), add64_lt (by omega)] at hr2
            have hsz : mul64 ((b.cap + (t.length + 8) + 4095) / 4096) 4096 =
                (b.cap + (t.length + 8) + 4095) / 4096 * 4096 := by unfold mul64; omega
            rw [hsz] at hr2
            split at hr2
            · cases hr2
            · rw [realloc, if_neg (by simp [hg.1]; omega), if_pos hg.2.2.2] at hr2
              cases al with
              | none => exact absurd rfl hg.2.1
              | some fill =>
                simp only [Option.map_some, Res.ok_bind, Res.ok.injEq, Prod.mk.injEq, true_and] at hr2
                have : b2.cap = (b.cap + (t.length + 8) + 4095) / 4096 * 4096 := by rw [← hr2]
                omega
          · next hle =>
            have := g.out
            simp only [if_true] at this
            simp only [Res.ok.injEq, Prod.mk.injEq, true_and] at hr2
            have : b2.cap = b.cap := by rw [← hr2]
            omega
      · next hlt =>
        obtain ⟨b4, e4, r4, hrp, hli, hrf, hcp, hok, herr⟩ := fmt_end (b := b2) (m := m3) r3
          (t := t) (by omega) (by
            rw [ht3 (by omega)]
            have := slice_splice (m := b2.mem) (bs := t ++ [0]) (p := b2.wpos + 8)
              (by simp; omega)
            simpa using this)
        rw [← h8]
        refine ⟨b4, e4, ⟨r4, by rw [hrp, gr], by rw [hli, gl], by rw [hrf, gf], by omega,
          by rw [hcp]; exact gcap, ?_, ?_⟩, ?_, ?_⟩
        · intro he
          have := hok (by rw [ho.1]; exact he)
          refine ⟨r4, by rw [hrp, gr], by rw [hli, gl], by rw [hrf, gf], by omega,
            by rw [hcp]; exact gcap, Or.inl ⟨he, this.1, ?_⟩⟩
          rw [this.2, ← hw3]; rfl
        · intro he
          exact herr (by rw [ho.1]; exact he)
        · intro he _; exact (hok (by rw [ho.1]; exact he)).1
        · intro he _ _ _; exact (hok (by rw [ho.1]; exact he)).1
  · next hlt =>
    have hroom : t.length + 9 ≤ b.cap - b.wpos := by
      rw [hqd] at hlt; split at hlt <;> omega
    obtain ⟨b4, e4, r4, hrp, hli, hrf, hcp, hok, herr⟩ := fmt_end (b := b) (m := m1) r1
      (t := t) (by omega) (by
        rw [ht1 (by omega)]
        have := slice_splice (m := b.mem) (bs := t ++ [0]) (p := b.wpos + 8)
          (by simp; omega)
        simpa using this)
    refine ⟨b4, e4, ⟨r4, hrp, hli, hrf, by omega, fun h => absurd hcp h, ?_, herr⟩, ?_, ?_⟩
    · intro he
      have := hok he
      refine ⟨r4, hrp, hli, hrf, by omega, fun h => absurd hcp h, Or.inl ⟨he, this.1, ?_⟩⟩
      rw [this.2, ← hw1]; rfl
    · intro he _; exact (hok he).1
    · intro he _ _ _; exact (hok he).1

theorem putFmt_none (al : Alloc UInt8) {b : B} :
    putFmt al b none = .ok (b.fail CORRUPT) := by
  rw [putFmt]; rfl

/-! ## `sc_buf_put_text` -/

/-- The position where `sc_buf_put_text` writes: over the terminator, if there is one. -/
def textPos (b : B) : Nat := if b.rpos < b.wpos then b.wpos - 1 else b.wpos

theorem text_end {b : B} {m : List UInt8} (r : InRange { b with mem := m }) {t : List UInt8}
    {off : Nat} (hoff : off ≤ 1) (hof : off ≤ b.wpos - b.rpos) (ht : t.length < 2147483647)
    (hm : b.wpos + (t.length + 1) ≤ b.cap) :
    textEnd { b with mem := splice m (b.wpos - off) (t ++ [0]) } t.length off =
      .ok { b with mem := splice m (b.wpos - off) (t ++ [0]),
                   wpos := b.wpos - off + (t.length + 1) } ∧
    InRange { b with mem := splice m (b.wpos - off) (t ++ [0]),
                     wpos := b.wpos - off + (t.length + 1) } ∧
    written { b with mem := splice m (b.wpos - off) (t ++ [0]),
                     wpos := b.wpos - off + (t.length + 1) } =
      slice m 0 (b.wpos - off) ++ t ++ [0] := by
  have h1 := r.mem
  have h2 := r.cap
  have h3 := r.rpos
  simp only at h1 h2 h3
  have hsp : b.wpos - off + (t ++ [0]).length ≤ m.length := by simp; omega
  refine ⟨?_, ⟨?_, ?_, ?_, h2⟩, ?_⟩
  · rw [textEnd, if_neg (by omega), markWrite, add64_lt (by simp only; omega)]
    congr 2
    simp only
    omega
  · simp only; rw [length_splice hsp]; exact h1
  · simp only; omega
  · simp only; omega
  · rw [written, slice_eq_take, slice_eq_take]
    simp only
    have := take_splice hsp
    simp only [List.length_append, List.length_singleton] at this
    rw [this, List.append_assoc]

structure Text (b b' : B) (t : List UInt8) : Prop where
  rpos : b'.rpos = b.rpos
  limit : b'.limit = b.limit
  ref : b'.ref = b.ref
  grow : b.cap ≤ b'.cap
  within : b'.cap ≠ b.cap → b'.cap ≤ b.limit ∧ b.ref = false
  out : (InRange b' ∧ b'.err = b.err ∧ written b' = slice b.mem 0 (textPos b) ++ t ++ [0]) ∨
    (InRange { b' with rpos := 0 } ∧ b'.err ≠ 0 ∧ b'.wpos = 0)

theorem putText_spec (al : Alloc UInt8) {b : B} (r : InRange b) {t : List UInt8}
    (ht : t.length < 2147483647) :
    ∃ b', putText al b (some t) = .ok b' ∧ Text b b' t ∧
      (t.length + 1 ≤ b.cap - b.wpos ∨ CanGrow al b (t.length + 1) → b'.err = b.err ∧
        InRange b' ∧ written b' = slice b.mem 0 (textPos b) ++ t ++ [0]) := by
  have h1 := r.mem
  have h2 := r.wpos
  have h3 := r.cap
  have h4 := r.rpos
  have hq : quota b = b.cap - b.wpos := by unfold quota sub64; omega
  have hs : size b = b.wpos - b.rpos := by unfold size sub64; omega
  obtain ⟨off, hod⟩ : ∃ off, off = if b.wpos - b.rpos > 0 then 1 else 0 := ⟨_, rfl⟩
  have ho1 : off ≤ 1 := by rw [hod]; split <;> omega
  have ho2 : off ≤ b.wpos - b.rpos := by rw [hod]; split <;> omega
  have htp : textPos b = b.wpos - off := by
    unfold textPos; rw [hod]; split <;> split <;> omega
  obtain ⟨m1, hv1, hl1, hk1, ht1⟩ := vsnprintf_spec (mem := b.mem) (pos := b.wpos - off)
    (n := b.cap - b.wpos) (by omega) t
  rw [putText]
  simp only
  rw [hs, ← hod, hq, hv1, Res.ok_bind]
  simp only
  have r1 : InRange { b with mem := m1 } := ⟨by rw [← h1]; exact hl1, h4, h2, h3⟩
  have hs1 : slice m1 0 (b.wpos - off) = slice b.mem 0 (textPos b) := by
    rw [htp]; exact slice_congr hk1
  split
  · next hge =>
    rw [add64_lt (by omega)]
    obtain ⟨ok, b2, hr2, g⟩ := reserve_spec al r1 (len := t.length + 1) (by omega)
    rw [hr2, Res.ok_bind]
    have gcap : b2.cap ≠ b.cap → b2.cap ≤ b.limit ∧ b.ref = false := g.within
    have ggrow : b.cap ≤ b2.cap := g.grow
    have gr : b2.rpos = b.rpos := g.rpos
    have gl : b2.limit = b.limit := g.limit
    have gf : b2.ref = b.ref := g.ref
    cases ok with
    | false =>
      have ho := g.out
      simp only [Bool.false_eq_true, if_false] at ho
      have hsw : setWpos b2 0 = { b2 with wpos := 0 } := by rw [setWpos, if_neg (by omega)]
      simp only [Bool.not_false, if_true, hsw]
      have r2 := g.inr
      refine ⟨_, rfl, ⟨gr, gl, gf, ggrow, gcap, Or.inr ⟨⟨r2.mem, Nat.zero_le _, Nat.zero_le _,
        r2.cap⟩, ?_, rfl⟩⟩, ?_⟩
      · simp only; rw [ho.1]; exact or_ne_zero (by decide)
      · intro h
        rcases h with h | h
        · omega
        · obtain ⟨b', hb'⟩ := reserve_ok (al := al) r1 (len := t.length + 1)
            (Or.inr ⟨h, by omega⟩)
          rw [hr2] at hb'; cases hb'
    | true =>
      have r2 := g.inr
      have h5 := r2.mem
      have h6 := r2.wpos
      have h7 := r2.cap
      have ho := g.out
      have h8 := g.wpos
      simp only [if_true] at ho h8
      have hq2 : quota b2 = b2.cap - b2.wpos := by unfold quota sub64; omega
      simp only [Bool.not_true, Bool.false_eq_true, if_false]
      rw [hq2]
      obtain ⟨m3, hv3, hl3, hk3, ht3⟩ := vsnprintf_spec (mem := b2.mem) (pos := b2.wpos - off)
        (n := b2.cap - b2.wpos) (by omega) t
      rw [hv3, Res.ok_bind]
      simp only
      rw [if_neg (by omega)]
      obtain ⟨e1, e2, e3⟩ := text_end (b := b2) (m := b2.mem) r2 (t := t) ho1 (by omega) ht
        (by omega)
      rw [ht3 (by omega)]
      have hs2 : slice b2.mem 0 (b2.wpos - off) = slice b.mem 0 (textPos b) := by
        rw [← hs1, h8]
        exact slice_congr (fun i hi => g.keep i (by simp only; omega))
      refine ⟨_, e1, ⟨gr, gl, gf, ggrow, gcap, Or.inl ⟨e2, ho.1, ?_⟩⟩, ?_⟩
      · rw [e3, hs2]
      · intro _; exact ⟨ho.1, e2, by rw [e3, hs2]⟩
  · next hlt =>
    obtain ⟨e1, e2, e3⟩ := text_end (b := b) (m := b.mem) r (t := t) ho1 ho2 ht
      (by omega)
    rw [ht1 (by omega)]
    refine ⟨_, e1, ⟨rfl, rfl, rfl, Nat.le_refl _, fun h => absurd rfl h, Or.inl ⟨e2, rfl, ?_⟩⟩, ?_⟩
    · rw [e3, htp]
    · intro _; exact ⟨rfl, e2, by rw [e3, htp]⟩

theorem putText_none (al : Alloc UInt8) {b : B} :
    putText al b none = .ok { b with err := b.err ||| CORRUPT, wpos := 0 } := by
  rw [putText]
  simp only [vsnprintf, Res.ok_bind]
  rw [setWpos, if_neg (by simp)]; rfl

end Verif.Buf
