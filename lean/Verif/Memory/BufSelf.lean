import Verif.Memory.Buf
import Verif.Buf.Props

/-!
# C153: bytes of a buffer that are written to the same buffer

`sc_buf_put_raw`, `sc_buf_put_str` and `sc_buf_put_blob` with a pointer into the buffer, such as `sc_buf_get_str` and `sc_buf_get_blob` return,
and `sc_buf_move` of a buffer to itself.
-/

namespace Verif.Memory.Buf

open Verif.Buf

/-- A pointer into the memory of a buffer: the block, or `none` for memory of the caller, and the offset. -/
structure Ptr where
  addr : Option Nat
  off : Nat

/-- The bytes from a pointer on, as they are now: undefined if the block was given back. -/
def Ptr.bytes (p : Ptr) (o : Obj) (st : Store (List UInt8)) : Res (List UInt8) := do
  let m ← (if o.ref then .ok o.lent else load [] p.addr st)
  if p.off ≤ m.length then .ok (m.drop p.off) else .ub

/-- What `memcpy` of `sc_buf_set_data`, buffer/sc_buf.c:506-520, reads when `len` bytes from `p` are written at `wpos`. It is not reached
if the buffer is invalid or full, or if there is nothing to copy. The two ranges must not overlap (C11 7.24.2.1). -/
def source (p : Ptr) (len : Nat) (o : Obj) (st : Store (List UInt8)) : Res (List UInt8) :=
  if o.err ≠ 0 ∨ add64 o.wpos len > o.cap ∨ len = 0 then .ok []
  else do
    cassert (p.addr ≠ o.mem ∨ p.off + len ≤ o.wpos ∨ o.wpos + len ≤ p.off)
    p.bytes o st

/-- `sc_buf_put_raw`, buffer/sc_buf.c:629-636, with a pointer into the buffer: it is read after the reservation, which may have moved the
memory. -/
def putRawFrom (al : Alloc UInt8) (p : Ptr) (len : Nat) : M Unit := fun o st => do
  let ((o, ok), st) ← reserve al len o st
  if !ok then .ok ((o, ()), st)
  else do
    let src ← source p len o st
    keep (putRawRest src len) o st

/-- `sc_buf_put_str`, buffer/sc_buf.c:687-704, with a pointer into the buffer -/
def putStrFrom (al1 al2 : Alloc UInt8) (p : Ptr) : M Unit := fun o st => do
  let str ← p.bytes o st
  let sz ← strlen str 0
  if sz ≥ BUF_MAX then .ok (({ o with err := o.err ||| CORRUPT }, ()), st)
  else do
    let ((o, _), st) ← put al1 .w64 sz o st
    putRawFrom al2 p (sz + 1) o st

/-- `sc_buf_put_blob`, buffer/sc_buf.c:816-820, with a pointer into the buffer -/
def putBlobFrom (al1 al2 : Alloc UInt8) (p : Ptr) (len : Nat) : M Unit := fun o st => do
  let ((o, _), st) ← put al1 .w64 len o st
  putRawFrom al2 p len o st

/-- `sc_buf_move(b, b)`, buffer/sc_buf.c:243-252 -/
def moveSelf (al : Alloc UInt8) : M Unit := fun o st => do
  let q := sub64 o.cap o.wpos
  let sz := sub64 o.wpos o.rpos
  let copy := if q < sz then q else sz
  let ((o, _), st) ← putRawFrom al ⟨o.mem, o.rpos⟩ copy o st
  .ok (({ o with rpos := add64 o.rpos copy }, ()), st)

/-! ## Lemmas -/

theorem keep_congr {f g : B → Res (B × ρ)} {o : Obj} {st : Store (List UInt8)} (h : ∀ m, load [] o.mem st = .ok m → f (o.view m) = g (o.view m)) :
    keep f o st = keep g o st := by
  unfold keep
  cases hm : load [] o.mem st with
  | ub => rfl
  | ok m => simp only [Res.ok_bind, h m hm]

theorem keep_mem {f : B → Res (B × ρ)} {o o' : Obj} {st st' : Store (List UInt8)} {r : ρ} (h : keep f o st = .ok ((o', r), st')) : o'.mem = o.mem := by
  unfold keep at h
  obtain ⟨m, -, h⟩ := Res.bind_eq_ok.1 h
  obtain ⟨⟨b, x⟩, -, h⟩ := Res.bind_eq_ok.1 h
  dsimp only at h
  split at h
  · split at h
    · cases h; rfl
    · cases h
  · obtain ⟨s, -, h⟩ := Res.bind_eq_ok.1 h
    cases h; rfl

/-- What a reservation does to the memory: nothing, or the old block is given back. -/
theorem reserve_mem {al : Alloc UInt8} {len : Nat} {o o1 : Obj} {st st1 : Store (List UInt8)} {ok : Bool} (hw : st.WF)
    (hv : Valid o.mem st) (h : reserve al len o st = .ok ((o1, ok), st1)) :
    o1.wpos = o.wpos ∧ o1.rpos = o.rpos ∧ o1.ref = o.ref ∧ o1.lent = o.lent ∧ (o1.mem = o.mem → st1 = st) ∧
    (ok = true → o1.err = o.err) ∧ (ok = false → o1.err ≠ 0) ∧ Moves st st1 o.mem o1.mem ∧
    (o.ref = true → o1.mem = o.mem) ∧ (add64 o.wpos len ≤ o.cap → o1 = o ∧ ok = true) ∧
    (ok = true → o1.mem = o.mem → add64 o.wpos len ≤ o.cap) := by
  have hor : o.err ||| OOM ≠ 0 := by
    intro e
    have := Nat.or_eq_zero_iff.1 e
    simp [OOM] at this
  unfold reserve at h
  by_cases h0 : add64 o.wpos len > o.cap
  · rw [if_pos h0] at h
    have n0 : ¬ add64 o.wpos len ≤ o.cap := by omega
    by_cases hf : o.ref = true
    · rw [if_pos hf] at h
      cases h
      exact ⟨rfl, rfl, rfl, rfl, fun _ => rfl, (fun h => by cases h), fun _ => hor, .refl hw hv, fun _ => rfl, fun h => absurd h n0,
        (fun h => by cases h)⟩
    · rw [if_neg hf] at h
      dsimp only at h
      generalize hsz : mul64 (add64 (add64 o.cap len) 4095 / 4096) 4096 = size at h
      by_cases hl : size > o.limit ∨ o.cap ≥ BUF_MAX - 4096
      · rw [if_pos hl] at h
        cases h
        exact ⟨rfl, rfl, rfl, rfl, fun _ => rfl, (fun h => by cases h), fun _ => hor, .refl hw hv, fun _ => rfl, fun h => absurd h n0,
        (fun h => by cases h)⟩
      · rw [if_neg hl] at h
        obtain ⟨⟨x, s2⟩, hx, h⟩ := Res.bind_eq_ok.1 h
        unfold realloc at hx
        split at hx
        · cases hx
        split at hx
        · unfold Memory.realloc at hx
          obtain ⟨old, hold, hx⟩ := Res.bind_eq_ok.1 hx
          cases al with
          | none =>
            cases hx
            cases h
            exact ⟨rfl, rfl, rfl, rfl, fun _ => rfl, (fun h => by cases h), fun _ => hor, .refl hw hv, fun _ => rfl, fun h => absurd h n0,
        (fun h => by cases h)⟩
          | some fill =>
            simp only [Option.map] at hx
            obtain ⟨s3, hfree, hx⟩ := Res.bind_eq_ok.1 hx
            obtain ⟨s4, h4, m4⟩ := free_ok hw hold
            rw [h4] at hfree
            cases hfree
            cases hx
            cases h
            have hnext : s3.next = st.next := by
              unfold free at h4
              split at h4
              · cases h4; rfl
              · split at h4
                · cases h4
                · cases h4; rfl
            have hne : o.mem ≠ some s3.next := by
              intro e
              have := hv _ e
              rw [hw _ (by omega)] at this
              cases this
            have mm : Moves st (alloc (resized old size fill) s3).2 o.mem (some s3.next) := by
              refine m4.trans ⟨?_, ?_, ?_, ?_, ?_, ?_, ?_⟩
              · intro i hi
                simp only [alloc] at hi ⊢
                rw [if_neg (by omega)]
                exact m4.wf i (by omega)
              · intro i hi
                cases hi
                simp [alloc]
              · intro i _ hi
                simp only [alloc]
                rw [if_neg (fun e => hi (by rw [e]))]
              · intro i hi _
                cases hi
                exact m4.wf _ (Nat.le_refl _)
              · intro i hi; cases hi
              · intro i hi _
                cases hi
                exact Nat.le_refl _
              · simp [alloc]
            exact ⟨rfl, rfl, rfl, rfl, fun e => absurd e.symm hne, fun _ => rfl, (fun h => by cases h), mm, fun h => absurd h hf,
              fun h => absurd h n0, fun _ e => absurd e.symm hne⟩
        · cases hx
          cases h
          exact ⟨rfl, rfl, rfl, rfl, fun _ => rfl, (fun h => by cases h), fun _ => hor, .refl hw hv, fun _ => rfl, fun h => absurd h n0,
        (fun h => by cases h)⟩
  · rw [if_neg h0] at h
    cases h
    exact ⟨rfl, rfl, rfl, rfl, fun _ => rfl, fun _ => rfl, (fun h => by cases h), .refl hw hv, fun _ => rfl, fun _ => ⟨rfl, rfl⟩,
      fun _ _ => by omega⟩

/-- Written from the buffer is as written from a copy, if the memory stays. -/
theorem putRawFrom_stays {al : Alloc UInt8} {p : Ptr} {len : Nat} {o o' : Obj} {st st' : Store (List UInt8)} {b : B} (hw : st.WF)
    (hr : Rep o st b) (hp : p.addr = o.mem) (hi : InRange b) (hoff : p.off + len ≤ b.wpos) {src : List UInt8}
    (hsrc : src = b.mem.drop p.off) (h : putRaw al src len o st = .ok ((o', ()), st')) (hm : o'.mem = o.mem) :
    putRawFrom al p len o st = .ok ((o', ()), st') := by
  subst hsrc
  obtain ⟨m, hl, hv, hinv⟩ := hr
  subst hv
  unfold putRaw at h
  obtain ⟨⟨⟨o1, ok⟩, st1⟩, h1, h⟩ := Res.bind_eq_ok.1 h
  unfold putRawFrom
  rw [h1, Res.ok_bind]
  obtain ⟨e1, -, e3, e4, e5, -, -, -, -, -, -⟩ := reserve_mem hw (load_valid hl) h1
  cases ok with
  | false => exact h
  | true =>
    have hk : keep (putRawRest ((o.view m).mem.drop p.off) len) o1 st1 = .ok ((o', ()), st') := h
    have hmem : o1.mem = o.mem := by rw [← hm, keep_mem hk]
    have hst := e5 hmem
    subst hst
    show (source p len o1 st1 >>= fun src => keep (putRawRest src len) o1 st1) = _
    unfold source
    split
    · next hc =>
      rw [Res.ok_bind, ← hk]
      refine keep_congr fun m2 _ => ?_
      unfold putRawRest setData
      by_cases hA : o1.err ≠ 0 ∨ add64 o1.wpos len > o1.cap
      · rw [if_pos (show (o1.view m2).err ≠ 0 ∨ add64 (o1.view m2).wpos len > (o1.view m2).cap from hA), if_pos (show (o1.view m2).err ≠ 0 ∨ add64 (o1.view m2).wpos len > (o1.view m2).cap from hA)]
      · have h0 : len = 0 := by
          rcases hc with hc | hc | hc
          · exact absurd (Or.inl hc) hA
          · exact absurd (Or.inr hc) hA
          · exact hc
        rw [if_neg (show ¬((o1.view m2).err ≠ 0 ∨ add64 (o1.view m2).wpos len > (o1.view m2).cap) from hA), if_pos h0, if_neg (show ¬((o1.view m2).err ≠ 0 ∨ add64 (o1.view m2).wpos len > (o1.view m2).cap) from hA), if_pos h0]
    · have hoff' : p.off + len ≤ o1.wpos := by rw [e1]; exact hoff
      rw [cassert, if_pos (by simp only [decide_eq_true_eq]; exact Or.inr (Or.inl hoff')), Res.ok_bind]
      have hlen : p.off ≤ (o.view m).mem.length := by
        have := hi.wpos
        have := hi.mem
        omega
      have hb : p.bytes o1 st1 = .ok ((o.view m).mem.drop p.off) := by
        unfold Ptr.bytes
        rw [e3, e4, hp, hl]
        by_cases hf : o.ref = true
        · have e : (o.view m).mem = o.lent := if_pos hf
          rw [if_pos hf, Res.ok_bind, if_pos (e ▸ hlen), e]
        · have e : (o.view m).mem = m := if_neg hf
          rw [if_neg hf, Res.ok_bind, if_pos (e ▸ hlen), e]
      rw [hb, Res.ok_bind]
      exact hk

/-- Written from memory that was given back: undefined, if a copy could be written. -/
theorem putRawFrom_stale {al : Alloc UInt8} {p : Ptr} {len i : Nat} {o o' : Obj} {st st' : Store (List UInt8)} {src : List UInt8} (hw : st.WF)
    (hv : Valid o.mem st) (hp : p.addr = some i) (hlen : 0 < len) (hf : o.ref = false) (hlt : i < st.next)
    (h : putRaw al src len o st = .ok ((o', ()), st')) (he : o'.err = 0) (hst : st.blk i = none ∨ (o.mem = some i ∧ o'.mem ≠ o.mem)) :
    putRawFrom al p len o st = .ub := by
  unfold putRaw at h
  obtain ⟨⟨⟨o1, ok⟩, st1⟩, h1, h⟩ := Res.bind_eq_ok.1 h
  unfold putRawFrom
  rw [h1, Res.ok_bind]
  obtain ⟨-, -, e3, -, -, -, e7, mv, -, -, -⟩ := reserve_mem hw hv h1
  cases ok with
  | false =>
    cases h
    exact absurd he (e7 rfl)
  | true =>
    have h : keep (putRawRest src len) o1 st1 = .ok ((o', ()), st') := h
    have hmem : o'.mem = o1.mem := keep_mem h
    show (source p len o1 st1 >>= fun src => keep (putRawRest src len) o1 st1) = _
    have hgone : st1.blk i = none := by
      rcases hst with hst | ⟨ho, hne⟩
      · by_cases h2 : o1.mem = some i
        · by_cases h3 : o.mem = some i
          · have := hv i h3; rw [hst] at this; cases this
          · have := mv.unused i h2 h3
            omega
        · by_cases h3 : o.mem = some i
          · exact mv.old i h3 h2
          · rw [mv.frame i h3 h2, hst]
      · exact mv.old i ho (by rw [← hmem, ← ho]; exact hne)
    have hok : ¬(o1.err ≠ 0 ∨ add64 o1.wpos len > o1.cap) := by
      intro hc
      unfold keep at h
      obtain ⟨m, -, h⟩ := Res.bind_eq_ok.1 h
      obtain ⟨⟨b, x⟩, hb, h⟩ := Res.bind_eq_ok.1 h
      unfold putRawRest setData at hb
      rw [if_pos (show (o1.view m).err ≠ 0 ∨ add64 (o1.view m).wpos len > (o1.view m).cap from hc)] at hb
      cases hb
      have hne : (o1.err ||| CORRUPT) ≠ 0 := by
        intro e
        have := Nat.or_eq_zero_iff.1 e
        simp [CORRUPT] at this
      dsimp only at h
      split at h
      · split at h
        · cases h; exact hne he
        · cases h
      · obtain ⟨s, -, h⟩ := Res.bind_eq_ok.1 h
        cases h; exact hne he
    unfold source
    rw [if_neg (fun hc => by rcases hc with hc | hc | hc; exact hok (.inl hc); exact hok (.inr hc); omega)]
    unfold cassert
    split
    · rw [Res.ok_bind]
      unfold Ptr.bytes
      rw [e3, hf, if_neg (by decide), hp]
      simp only [load, hgone]
      rfl
    · rfl

theorem putRaw_mem {al : Alloc UInt8} {len : Nat} {o o' : Obj} {st st' : Store (List UInt8)} {src : List UInt8} (hw : st.WF)
    (hv : Valid o.mem st) (h : putRaw al src len o st = .ok ((o', ()), st')) :
    (add64 o.wpos len ≤ o.cap → o'.mem = o.mem) ∧ (o'.err = 0 → o'.mem = o.mem → add64 o.wpos len ≤ o.cap) := by
  unfold putRaw at h
  obtain ⟨⟨⟨o1, ok⟩, st1⟩, h1, h⟩ := Res.bind_eq_ok.1 h
  obtain ⟨-, -, -, -, -, -, e7, -, -, e10, e11⟩ := reserve_mem hw hv h1
  cases ok with
  | false =>
    cases h
    exact ⟨(fun hc => by cases (e10 hc).2), fun he => absurd he (e7 rfl)⟩
  | true =>
    have hm : o'.mem = o1.mem := keep_mem h
    exact ⟨fun hc => by rw [hm, (e10 hc).1], fun _ e => e11 rfl (by rw [← hm]; exact e)⟩

theorem put_mem {al : Alloc UInt8} {w : Width} {v : Nat} {o o' : Obj} {st st' : Store (List UInt8)} (hw : st.WF)
    (hv : Valid o.mem st) (h : put al w v o st = .ok ((o', ()), st')) : o'.ref = o.ref ∧ (add64 o.wpos w.bytes ≤ o.cap → o'.mem = o.mem) := by
  unfold put at h
  obtain ⟨⟨⟨o1, ok⟩, st1⟩, h1, h⟩ := Res.bind_eq_ok.1 h
  obtain ⟨-, -, e3, -, -, -, -, -, -, e10, -⟩ := reserve_mem hw hv h1
  cases ok with
  | false =>
    cases h
    exact ⟨e3, (fun hc => by cases (e10 hc).2)⟩
  | true =>
    have h : keep (putRest w v) o1 st1 = .ok ((o', ()), st') := h
    refine ⟨?_, fun hc => by rw [keep_mem h, (e10 hc).1]⟩
    rw [← e3]
    unfold keep at h
    obtain ⟨m, -, h⟩ := Res.bind_eq_ok.1 h
    obtain ⟨⟨b, x⟩, hb, h⟩ := Res.bind_eq_ok.1 h
    obtain ⟨⟨b1, n⟩, h1, hb⟩ := Res.bind_eq_ok.1 hb
    cases hb
    have hk := (setPos_keeps h1).1
    dsimp only at h
    split at h
    · split at h
      · cases h; exact hk
      · cases h
    · obtain ⟨s, -, h⟩ := Res.bind_eq_ok.1 h
      cases h; exact hk

theorem bytes_own {o : Obj} {st : Store (List UInt8)} {b : B} (hr : Rep o st b) {off : Nat} (h : off ≤ b.mem.length) :
    Ptr.bytes ⟨o.mem, off⟩ o st = .ok (b.mem.drop off) := by
  obtain ⟨m, hl, hv, -⟩ := hr
  subst hv
  unfold Ptr.bytes
  by_cases hf : o.ref = true
  · have e : (o.view m).mem = o.lent := if_pos hf
    rw [if_pos hf, Res.ok_bind, if_pos (e ▸ h), e]
  · have e : (o.view m).mem = m := if_neg hf
    rw [if_neg hf, hl, Res.ok_bind, if_pos (e ▸ h), e]

theorem Rep.valid {o : Obj} {st : Store (List UInt8)} {b : B} (hr : Rep o st b) : Valid o.mem st := by
  obtain ⟨m, hl, -, -⟩ := hr
  exact load_valid hl

theorem Rep.fields {o : Obj} {st : Store (List UInt8)} {b : B} (hr : Rep o st b) :
    b.cap = o.cap ∧ b.wpos = o.wpos ∧ b.rpos = o.rpos ∧ b.err = o.err ∧ b.ref = o.ref := by
  obtain ⟨m, -, hv, -⟩ := hr
  subst hv
  exact ⟨rfl, rfl, rfl, rfl, rfl⟩

theorem slice_drop {l : List UInt8} {off len : Nat} : slice (l.drop off) 0 len = slice l off len := by
  simp [slice]

theorem cstr_drop {mem t : List UInt8} {off : Nat} (c : CStr mem off t) : CStr (mem.drop off) 0 t := by
  obtain ⟨h, hz, hn⟩ := c
  exact ⟨fun i hi => by rw [List.getElem?_drop, Nat.zero_add]; exact h i hi, hz, by rw [List.getElem?_drop, Nat.zero_add]; exact hn⟩

/-- Bytes that were written stay when others are appended. -/
theorem slice_written {b b1 : B} (hi : InRange b) {bs : List UInt8} (h : written b1 = written b ++ bs) (hle : b.wpos ≤ b1.wpos) {off len : Nat}
    (hoff : off + len ≤ b.wpos) : slice b1.mem off len = slice b.mem off len := by
  have key : ∀ k, k < b.wpos → b1.mem[k]? = b.mem[k]? := by
    intro k hk
    have e : (written b1)[k]? = (written b ++ bs)[k]? := by rw [h]
    rw [List.getElem?_append_left (by rw [length_written hi]; exact hk)] at e
    unfold written at e
    rw [slice_getElem?, slice_getElem?, if_pos (by omega), if_pos hk, Nat.zero_add] at e
    exact e
  apply List.ext_getElem?
  intro j
  rw [slice_getElem?, slice_getElem?]
  split
  · exact key _ (by omega)
  · rfl

theorem slice_cstr {mem t : List UInt8} {off : Nat} (c : CStr mem off t) : slice mem off (t.length + 1) = t ++ [0] := by
  apply List.ext_getElem?
  intro j
  rw [slice_getElem?]
  split
  · by_cases hj : j < t.length
    · rw [c.bytes j hj, List.getElem?_append_left hj, List.getElem?_eq_getElem hj]
    · have : j = t.length := by omega
      subst this
      rw [c.nul]; simp
  · rw [List.getElem?_eq_none (by simp; omega)]

/-- The block of a buffer with bytes of its own in it -/
theorem own_block {o : Obj} {st : Store (List UInt8)} {b : B} (hw : st.WF) (hr : Rep o st b) (hi : InRange b) (hf : o.ref = false) (h : 0 < b.wpos) :
    ∃ i, o.mem = some i ∧ i < st.next := by
  have hm := hi.mem
  have hwp := hi.wpos
  have hv := hr.valid
  obtain ⟨m, hld, hvw, -⟩ := hr
  cases hmm : o.mem with
  | some i =>
    refine ⟨i, rfl, ?_⟩
    rcases Nat.lt_or_ge i st.next with h | h
    · exact h
    · have := hv i hmm
      rw [hw i h] at this
      cases this
  | none =>
    rw [hmm] at hld
    cases hld
    subst hvw
    have : (o.view []).mem = [] := if_neg (by rw [hf]; decide)
    have hm' : 0 = (o.view []).cap := by rw [← hm, this]; rfl
    omega

/-! ## The property -/

/-- **C153, in part**: bytes of the buffer are appended to it if there is room for them. Missing: when the buffer has to grow. -/
theorem put_raw_own_partial (al : Alloc UInt8) {off len : Nat} {o : Obj} {st : Store (List UInt8)} {b : B} (hw : st.WF) (hr : Rep o st b)
    (hi : InRange b) (he : b.err = 0) (hoff : off + len ≤ b.wpos) (hroom : b.wpos + len ≤ b.cap) :
    ∃ o' st' b', putRawFrom al ⟨o.mem, off⟩ len o st = .ok ((o', ()), st') ∧ Rep o' st' b' ∧ Moves st st' o.mem o'.mem ∧ o'.mem = o.mem ∧
      InRange b' ∧ b'.err = 0 ∧ b'.rpos = b.rpos ∧ b'.cap = b.cap ∧ unread b' = unread b ++ slice b.mem off len := by
  have hc := hi.cap
  have hm := hi.mem
  have hl : len < OBJ_MAX := by omega
  obtain ⟨b', h1, p, he'⟩ := Verif.Buf.putRaw_ok (al := al) hi he (src := b.mem.drop off) (len := len)
    (by rw [List.length_drop]; omega) hl (.inl hroom)
  obtain ⟨o', st', h2, mv, hr'⟩ := putRaw_ok al (b.mem.drop off) len o st b b' () hw hr (by simp only [h1, Res.ok_bind])
  obtain ⟨f1, f2, -, -, -⟩ := hr.fields
  have hadd : add64 o.wpos len ≤ o.cap := by
    unfold add64
    have : OBJ_MAX ≤ 2 ^ 64 := by decide
    rw [Nat.mod_eq_of_lt (by omega)]
    omega
  have hmem := (putRaw_mem hw hr.valid h2).1 hadd
  have hcap : b'.cap = b.cap := by
    unfold Verif.Buf.putRaw Verif.Buf.reserve at h1
    rw [if_neg (by rw [f1, f2]; omega)] at h1
    obtain ⟨⟨b1, n⟩, h3, h1⟩ := Res.bind_eq_ok.1 (show (setData b b.wpos (b.mem.drop off) len >>= fun x => Res.ok { x.1 with wpos := add64 b.wpos x.2 }) = .ok b' from h1)
    cases h1
    unfold setData at h3
    split at h3
    · cases h3; rfl
    · split at h3
      · cases h3; rfl
      · obtain ⟨m, -, h3⟩ := Res.bind_eq_ok.1 h3
        cases h3; rfl
  refine ⟨o', st', b', putRawFrom_stays hw hr rfl hi hoff rfl h2 hmem, hr', mv, hmem, p.inr, he', p.rpos, hcap, ?_⟩
  rcases p.out with ⟨-, -, h⟩ | ⟨h, -⟩
  · rw [unread_append hi p.inr p.rpos h, slice_drop]
  · exact absurd he' h

/-- **C153 is violated**: whenever the buffer has to grow for its own bytes, and can, they are read after the memory was given back. -/
theorem put_raw_own_violated {al : Alloc UInt8} {off len : Nat} {o : Obj} {st : Store (List UInt8)} {b : B} (hw : st.WF) (hr : Rep o st b)
    (hi : InRange b) (he : b.err = 0) (hlen : 0 < len) (hoff : off + len ≤ b.wpos) (hfull : b.cap < b.wpos + len) (hg : CanGrow al b len) :
    putRawFrom al ⟨o.mem, off⟩ len o st = .ub := by
  have hc := hi.cap
  have hm := hi.mem
  have hwp := hi.wpos
  have hl : len < OBJ_MAX := by omega
  obtain ⟨b', h1, -, he'⟩ := Verif.Buf.putRaw_ok (al := al) hi he (src := b.mem.drop off) (len := len)
    (by rw [List.length_drop]; omega) hl (.inr hg)
  obtain ⟨o', st', h2, -, hr'⟩ := putRaw_ok al (b.mem.drop off) len o st b b' () hw hr (by simp only [h1, Res.ok_bind])
  obtain ⟨f1, f2, -, -, f5⟩ := hr.fields
  obtain ⟨-, -, -, f4', -⟩ := hr'.fields
  have he2 : o'.err = 0 := by rw [← f4']; exact he'
  have hf : o.ref = false := by rw [← f5]; exact hg.1
  have hne : o'.mem ≠ o.mem := by
    intro e
    have := (putRaw_mem hw hr.valid h2).2 he2 e
    unfold add64 at this
    have : OBJ_MAX * 2 ≤ 2 ^ 64 := by decide
    rw [Nat.mod_eq_of_lt (by omega)] at *
    omega
  obtain ⟨i, hmi, hlt⟩ := own_block hw hr hi hf (by omega)
  exact putRawFrom_stale hw hr.valid hmi hlen hf hlt h2 he2 (.inr ⟨hmi, hne⟩)

/-- **C153, in part**: a string in the buffer, such as `sc_buf_get_str` returns, is written to its end if there is room. -/
theorem put_str_own_partial (al1 al2 : Alloc UInt8) {off : Nat} {t : List UInt8} {o : Obj} {st : Store (List UInt8)} {b : B} (hw : st.WF)
    (hr : Rep o st b) (hi : InRange b) (he : b.err = 0) (ht : CStr b.mem off t) (hoff : off + (t.length + 1) ≤ b.wpos)
    (hroom : b.wpos + 8 + (t.length + 1) ≤ b.cap) :
    ∃ o' st' b', putStrFrom al1 al2 ⟨o.mem, off⟩ o st = .ok ((o', ()), st') ∧ Rep o' st' b' ∧ Moves st st' o.mem o'.mem ∧ InRange b' ∧
      b'.err = 0 ∧ unread b' = unread b ++ Val.encode (.str (some t)) := by
  have hc := hi.cap
  have hm := hi.mem
  obtain ⟨b1, h1, p, he1⟩ := Verif.Buf.put_ok (al := al1) .w64 hi he (v := t.length) (.inl (by simp only [Width.bytes]; omega))
  obtain ⟨o1, st1, h2, mv1, hr1⟩ := put_ok al1 .w64 t.length o st b b1 () hw hr (by simp only [h1, Res.ok_bind])
  obtain ⟨f1, f2, -, -, -⟩ := hr.fields
  have hadd : add64 o.wpos 8 ≤ o.cap := by
    unfold add64
    have : OBJ_MAX ≤ 2 ^ 64 := by decide
    rw [Nat.mod_eq_of_lt (by omega)]
    omega
  have hmem := (put_mem hw hr.valid h2).2 hadd
  have hwr : written b1 = written b ++ le 8 t.length := by
    rcases p.out with ⟨-, -, h⟩ | ⟨h, -⟩
    · exact h
    · exact absurd he1 h
  have hw1 : b1.wpos = b.wpos + 8 := by
    have := congrArg List.length hwr
    rw [length_written p.inr, List.length_append, length_written hi, length_le] at this
    exact this
  have hcap : b.cap ≤ b1.cap := p.grow
  obtain ⟨o', st', b', h3, hr', mv', -, hi', he', -, -, hu⟩ := put_raw_own_partial al2 (off := off) (len := t.length + 1) mv1.wf hr1 p.inr he1 (by omega) (by omega)
  refine ⟨o', st', b', ?_, hr', mv1.trans mv', hi', he', ?_⟩
  · unfold putStrFrom
    rw [bytes_own hr (by omega), Res.ok_bind, strlen_eq (cstr_drop ht), Res.ok_bind, if_neg (show ¬ t.length ≥ BUF_MAX by omega), h2, Res.ok_bind, ← hmem]
    exact h3
  · have hs : slice b1.mem off (t.length + 1) = t ++ [0] := by
      rw [slice_written hi hwr (by omega) hoff, slice_cstr ht]
    rw [hu, unread_append hi p.inr p.rpos hwr, hs]
    simp only [Val.encode, List.append_assoc]

/-- A number is written, then bytes from the buffer: undefined if the same with a copy works and moves the memory. -/
theorem after_number_stale {al1 al2 : Alloc UInt8} {off len v : Nat} {src : List UInt8} {o o' : Obj} {st st' : Store (List UInt8)} {b : B}
    (hw : st.WF) (hr : Rep o st b) (hi : InRange b) (hf : o.ref = false) (hlen : 0 < len) (hoff : off + len ≤ b.wpos)
    (h : (do let ((o, _), st) ← put al1 .w64 v o st; putRaw al2 src len o st) = .ok ((o', ()), st')) (he : o'.err = 0) (hm : o'.mem ≠ o.mem) :
    (do let ((o1, _), st1) ← put al1 .w64 v o st; putRawFrom al2 ⟨o.mem, off⟩ len o1 st1) = .ub := by
  obtain ⟨i, hmi, hlt⟩ := own_block hw hr hi hf (by omega)
  obtain ⟨b1, h1, -⟩ := put_spec al1 .w64 hi v
  obtain ⟨o1, st1, h2, mv1, hr1⟩ := put_ok al1 .w64 v o st b b1 () hw hr (by simp only [h1, Res.ok_bind])
  rw [h2, Res.ok_bind] at h ⊢
  have hf1 : o1.ref = false := by rw [(put_mem hw hr.valid h2).1]; exact hf
  refine putRawFrom_stale mv1.wf hr1.valid hmi hlen hf1 (Nat.lt_of_lt_of_le hlt mv1.mono) h he ?_
  by_cases hm1 : o1.mem = o.mem
  · exact .inr ⟨by rw [hm1]; exact hmi, by rw [hm1]; exact hm⟩
  · exact .inl (mv1.old i hmi (by rw [← hmi]; exact hm1))

/-- **C153 is violated** by strings: if writing a copy of the string moves the memory of the buffer, writing the string is undefined. -/
theorem put_str_own_violated {al1 al2 : Alloc UInt8} {off : Nat} {t : List UInt8} {o o' : Obj} {st st' : Store (List UInt8)} {b : B} (hw : st.WF)
    (hr : Rep o st b) (hi : InRange b) (hf : o.ref = false) (ht : CStr b.mem off t) (hoff : off + (t.length + 1) ≤ b.wpos)
    (h : putStr al1 al2 (some (t ++ [0])) o st = .ok ((o', ()), st')) (he : o'.err = 0) (hm : o'.mem ≠ o.mem) :
    putStrFrom al1 al2 ⟨o.mem, off⟩ o st = .ub := by
  have hc := hi.cap
  have hmem := hi.mem
  have hwp := hi.wpos
  have hsz : ¬ t.length ≥ BUF_MAX := by omega
  unfold putStr at h
  simp only [strlen_eq (CStr.self ht.nonzero), Res.ok_bind] at h
  rw [if_neg hsz] at h
  unfold putStrFrom
  rw [bytes_own hr (by omega), Res.ok_bind, strlen_eq (cstr_drop ht), Res.ok_bind, if_neg hsz]
  exact after_number_stale hw hr hi hf (Nat.succ_pos _) hoff h he hm

/-- **C153, in part**: bytes in the buffer, such as `sc_buf_get_blob` returns, are written to its end as a blob if there is room. -/
theorem put_blob_own_partial (al1 al2 : Alloc UInt8) {off len : Nat} {o : Obj} {st : Store (List UInt8)} {b : B} (hw : st.WF)
    (hr : Rep o st b) (hi : InRange b) (he : b.err = 0) (hoff : off + len ≤ b.wpos) (hroom : b.wpos + 8 + len ≤ b.cap) :
    ∃ o' st' b', putBlobFrom al1 al2 ⟨o.mem, off⟩ len o st = .ok ((o', ()), st') ∧ Rep o' st' b' ∧ Moves st st' o.mem o'.mem ∧ InRange b' ∧
      b'.err = 0 ∧ unread b' = unread b ++ Val.encode (.blob (slice b.mem off len)) := by
  have hc := hi.cap
  have hm := hi.mem
  obtain ⟨b1, h1, p, he1⟩ := Verif.Buf.put_ok (al := al1) .w64 hi he (v := len) (.inl (by simp only [Width.bytes]; omega))
  obtain ⟨o1, st1, h2, mv1, hr1⟩ := put_ok al1 .w64 len o st b b1 () hw hr (by simp only [h1, Res.ok_bind])
  obtain ⟨f1, f2, -, -, -⟩ := hr.fields
  have hadd : add64 o.wpos 8 ≤ o.cap := by
    unfold add64
    have : OBJ_MAX ≤ 2 ^ 64 := by decide
    rw [Nat.mod_eq_of_lt (by omega)]
    omega
  have hmem := (put_mem hw hr.valid h2).2 hadd
  have hwr : written b1 = written b ++ le 8 len := by
    rcases p.out with ⟨-, -, h⟩ | ⟨h, -⟩
    · exact h
    · exact absurd he1 h
  have hw1 : b1.wpos = b.wpos + 8 := by
    have := congrArg List.length hwr
    rw [length_written p.inr, List.length_append, length_written hi, length_le] at this
    exact this
  have hcap : b.cap ≤ b1.cap := p.grow
  obtain ⟨o', st', b', h3, hr', mv', -, hi', he', -, -, hu⟩ := put_raw_own_partial al2 (off := off) (len := len) mv1.wf hr1 p.inr he1 (by omega) (by omega)
  refine ⟨o', st', b', ?_, hr', mv1.trans mv', hi', he', ?_⟩
  · unfold putBlobFrom
    rw [h2, Res.ok_bind, ← hmem]
    exact h3
  · rw [hu, unread_append hi p.inr p.rpos hwr, slice_written hi hwr (by omega) hoff]
    simp only [Val.encode, List.append_assoc]
    rw [length_slice (by omega)]

/-- **C153 is violated** by blobs, in the same way. -/
theorem put_blob_own_violated {al1 al2 : Alloc UInt8} {off len : Nat} {o o' : Obj} {st st' : Store (List UInt8)} {b : B} (hw : st.WF)
    (hr : Rep o st b) (hi : InRange b) (hf : o.ref = false) (hlen : 0 < len) (hoff : off + len ≤ b.wpos)
    (h : putBlob al1 al2 (slice b.mem off len) len o st = .ok ((o', ()), st')) (he : o'.err = 0) (hm : o'.mem ≠ o.mem) :
    putBlobFrom al1 al2 ⟨o.mem, off⟩ len o st = .ub :=
  after_number_stale hw hr hi hf hlen hoff h he hm

/-- **C153, moving a buffer to itself**: the first bytes are put behind the last, as many as there is room for; the memory stays where it is. -/
theorem move_self {al : Alloc UInt8} {o : Obj} {st : Store (List UInt8)} {b : B} (hw : st.WF) (hr : Rep o st b) (hi : InRange b)
    (he : b.err = 0) {n : Nat} (hn : n = min (b.cap - b.wpos) (b.wpos - b.rpos)) :
    ∃ o' st' b', moveSelf al o st = .ok ((o', ()), st') ∧ Rep o' st' b' ∧ Moves st st' o.mem o'.mem ∧ o'.mem = o.mem ∧ InRange b' ∧ b'.err = 0 ∧
      unread b' = (unread b).drop n ++ (unread b).take n := by
  have hc := hi.cap
  have hm := hi.mem
  have hrp := hi.rpos
  have hwp := hi.wpos
  obtain ⟨f1, f2, f3, -, -⟩ := hr.fields
  have hM : OBJ_MAX ≤ 2 ^ 63 := by decide
  have hs : ∀ x y, y ≤ x → x < OBJ_MAX → sub64 x y = x - y := by
    intro x y h1 h2
    unfold sub64
    omega
  have hcopy : (if sub64 o.cap o.wpos < sub64 o.wpos o.rpos then sub64 o.cap o.wpos else sub64 o.wpos o.rpos) = n := by
    rw [hs _ _ (by omega) (by omega), hs _ _ (by omega) (by omega), hn, f1, f2, f3]
    split <;> omega
  obtain ⟨o1, st1, b1, h1, hr1, mv, hmem, hi1, he1, hrp1, -, hu⟩ := put_raw_own_partial al (off := b.rpos) (len := n) hw hr hi he (by omega) (by omega)
  obtain ⟨g1, g2, g3, -, -⟩ := hr1.fields
  have hl1 := length_unread hi1
  have hl := length_unread hi
  have hu' := congrArg List.length hu
  rw [List.length_append, hl1, hl, length_slice (by omega)] at hu'
  have hrp2 := hi1.rpos
  have hwp2 := hi1.wpos
  have hc2 := hi1.cap
  have hpos : add64 o1.rpos n = b1.rpos + n := by
    unfold add64
    rw [← g3]
    exact Nat.mod_eq_of_lt (by omega)
  refine ⟨{ o1 with rpos := add64 o1.rpos n }, st1, { b1 with rpos := b1.rpos + n }, ?_, ?_, mv, hmem, hi1.advance (by omega), he1, ?_⟩
  · unfold moveSelf
    simp only [hcopy]
    rw [f3] at h1
    rw [h1, Res.ok_bind]
  · obtain ⟨m, hld, hv, hinv⟩ := hr1
    subst hv
    exact ⟨m, hld, by rw [hpos], hinv⟩
  · rw [unread_advance hi1 (by omega), hu, List.drop_append_of_le_length (by rw [hl]; omega)]
    congr 1
    unfold unread slice
    rw [List.take_take, Nat.min_eq_left (by omega)]

/-! ## Examples -/

/-- A buffer of 32 bytes with the string "hi" in it, at the offset 8, and 21 bytes of room -/
def demo : Obj × Store (List UInt8) :=
  let (o, st) := make (.init true 32) .empty
  match putStr none none (some [104, 105, 0]) o st with
  | .ok ((o, _), st) => (o, st)
  | .ub => (o, st)

/-- The outcome of writing the string at offset 8 to the same buffer: the write position, the error and the bytes -/
def again (al : Alloc UInt8) (o : Obj) (st : Store (List UInt8)) : Option (Nat × Nat × List UInt8) :=
  match putStrFrom al al ⟨o.mem, 8⟩ o st with
  | .ok ((o, _), st) => match load [] o.mem st with
    | .ok m => some (o.wpos, o.err, m)
    | .ub => none
  | .ub => none

/-- There is room for it. -/
example : again none demo.1 demo.2 =
    some (22, 0, [2, 0, 0, 0, 0, 0, 0, 0, 104, 105, 0, 2, 0, 0, 0, 0, 0, 0, 0, 104, 105, 0] ++ List.replicate 10 0) := by decide +kernel

/-- The third time the buffer has to grow: if it cannot, that is an error, and if it can, undefined. -/
example : (match putStrFrom none none ⟨demo.1.mem, 8⟩ demo.1 demo.2 with
    | .ok ((o, _), st) => ((again none o st).map fun x => x.2.1, again (some fun _ => 0) o st)
    | .ub => (none, none)) = (some 3, none) := by decide +kernel

end Verif.Memory.Buf
