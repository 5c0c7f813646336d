import Verif.Frame.Model

/-! # Proofs about messages with a length in front -/

namespace Verif.Frame

open Buf (B Val InRange unread le leVal put putAll setAt valid size quota peek get getData getAll rbuf wbuf wpos markRead
  markWrite Keeping Puts wrap CORRUPT)
open Sock (Sock Laws)
open Sock.Io (IoEnv World send recv EOF Interrupted interrupted_or send_waits send_spec recv_waits recv_spec zero_spec Sent Received)

/-- The bytes on the wire of a message: its length in four bytes, then the message. -/
def frame (bs : List UInt8) : List UInt8 := le 4 bs.length ++ bs

theorem frame_length (bs : List UInt8) : (frame bs).length = 4 + bs.length := by simp [frame, Buf.length_le]

theorem size_eq {b : B} (r : InRange b) : size b = (unread b).length := by
  have h1 := r.rpos
  have h2 := r.wpos
  have h3 := r.cap
  rw [Buf.length_unread r]
  unfold size sub64
  omega

theorem size_zero {b : B} (r : InRange b) : size b = 0 ↔ unread b = [] := by
  rw [size_eq r, List.length_eq_zero_iff]

/-! ## The sender -/

/-- Writing over a part of what has been written. -/
theorem written_patch {b : B} {x y z bs : List UInt8} (r : InRange b) (h : Buf.written b = x ++ y ++ z) (hl : bs.length = y.length) :
    Buf.written { b with mem := splice b.mem x.length bs } = x ++ bs ++ z := by
  have hw := Buf.length_written r
  have hm : b.mem = x ++ y ++ z ++ b.mem.drop b.wpos := by
    rw [← h, Buf.written, slice, List.drop_zero, List.take_append_drop]
  have hwl : b.wpos = x.length + y.length + z.length := by rw [← hw, h]; simp; omega
  generalize b.mem.drop b.wpos = rest at hm
  simp only [Buf.written, slice, List.drop_zero]
  have h1 : b.mem.take x.length = x := by rw [hm, List.append_assoc, List.append_assoc, List.take_left' rfl]
  have h2 : b.mem.drop (x.length + bs.length) = z ++ rest := by
    rw [hm, List.append_assoc (x ++ y), List.drop_left' (by simp; omega)]
  rw [splice, h1, h2, ← List.append_assoc, List.take_left' (by simp; omega)]

/-- A message is appended with its length in front, or the buffer is invalid. -/
theorem putFrame_ok (al : Nat → Nat → Alloc UInt8) {b : B} (r : InRange b) {vs : List Val} (hv : ∀ v ∈ vs, v.Ok)
    (hlen : (bytes vs).length < 2 ^ 32) :
    ∃ b', putFrame al b vs = .ok b' ∧ InRange b' ∧ b'.rpos = b.rpos ∧
      (valid b' = true → b.err = 0 ∧ unread b' = unread b ++ frame (bytes vs)) := by
  obtain ⟨b1, h1, p1⟩ := Buf.put_spec (al 0 0) .w32 r 0
  obtain ⟨b2, h2, p2⟩ := Buf.putAll_spec al vs hv (i := 1) p1.inr
  have p := p1.trans p2
  have hpos : b.wpos ≤ OBJ_MAX := by have := r.wpos; have := r.cap; omega
  have e : putFrame al b vs = setAt .w32 b2 b.wpos (sub64 (sub64 b2.wpos b.wpos) 4 % 2 ^ 32) := by
    unfold putFrame
    simp only [wpos, h1, h2, Res.ok_bind]
  rw [e]
  unfold setAt
  rw [Buf.setPos_spec .w32 p.inr hpos]
  simp only [Res.ok_bind]
  by_cases hc : b2.err = 0 ∧ b.wpos + Buf.Width.w32.bytes ≤ b2.cap
  · rw [if_pos hc]
    have hi : InRange { b2 with mem := splice b2.mem b.wpos (le Buf.Width.w32.bytes (sub64 (sub64 b2.wpos b.wpos) 4 % 2 ^ 32)) } :=
      p.inr.mem_splice (by rw [Buf.length_le]; exact hc.2)
    refine ⟨_, rfl, hi, p.rpos, fun _ => ?_⟩
    rcases p.out with ⟨e0, -, hw⟩ | ⟨hne, -⟩
    · refine ⟨e0, Buf.unread_append r hi p.rpos ?_⟩
      have hwb := Buf.length_written r
      have hw2 := Buf.length_written p.inr
      have hl2 : b2.wpos = b.wpos + (4 + (bytes vs).length) := by
        rw [← hw2, hw, ← hwb]
        simp [Buf.length_le, bytes, Buf.Width.bytes]
      have hcap := p.inr.cap
      have hw2' := p.inr.wpos
      have hval : sub64 (sub64 b2.wpos b.wpos) 4 % 2 ^ 32 = (bytes vs).length := by
        unfold sub64
        omega
      rw [hval, ← hwb]
      have := written_patch (b := b2) (x := Buf.written b) (y := le Buf.Width.w32.bytes 0) (z := bytes vs)
        (bs := le Buf.Width.w32.bytes (bytes vs).length) p.inr (by rw [hw]; simp [bytes]) (by simp [Buf.length_le])
      rw [this]
      simp [frame, Buf.Width.bytes]
    · exact absurd hc.1 hne
  · rw [if_neg hc]
    refine ⟨_, rfl, p.inr.fail _, p.rpos, fun hval => ?_⟩
    have := Buf.fail_err b2
    simp [valid] at hval
    exact absurd hval this

/-! ## The receiver -/

theorem head_eq {b : B} {n : Nat} (h : b.rpos + n ≤ b.wpos) : slice b.mem b.rpos n = (unread b).take n := by
  unfold unread slice
  rw [List.take_take, Nat.min_eq_left (by omega)]

theorem next_invalid {b : B} (h : b.err ≠ 0) : next b = .ok (b, none) := by
  have hval : valid b = false := by simp [valid, h]
  simp [next, hval]

theorem next_short {b : B} (h : size b < 4) : next b = .ok (b, none) := by
  unfold next
  rw [if_pos h]
  split <;> rfl

/-- `next` on a valid buffer that has a length at least. -/
theorem next_eq {b : B} (r : InRange b) (he : b.err = 0) (hp : b.rpos + 4 ≤ b.wpos) {len : Nat}
    (hlen : leVal ((unread b).take 4) = len) (hl : len ≤ OBJ_MAX) :
    next b = if b.wpos - b.rpos - 4 < len then .ok (b, none)
      else .ok ({ b with rpos := b.rpos + 4 + len }, some (((unread b).drop 4).take len)) := by
  have h1 := r.rpos
  have h2 := r.wpos
  have h3 := r.cap
  have hs : size b = b.wpos - b.rpos := by rw [size_eq r, Buf.length_unread r]
  have hval : valid b = true := by simp [valid, he]
  have hhd : slice b.mem b.rpos 4 = (unread b).take 4 := head_eq hp
  have hpk : peek .w32 b = .ok (b, len) := by
    unfold peek Buf.peekAt
    rw [Buf.peekPos_eq .w32 r (by omega), if_pos ⟨he, hp⟩, Res.ok_bind]
    show Res.ok (b, leVal (slice b.mem b.rpos 4)) = _
    rw [hhd, hlen]
  have hgt : get .w32 b = .ok ({ b with rpos := b.rpos + 4 }, len) := by
    rw [Buf.get_eq .w32 r, if_pos ⟨he, hp⟩]
    show Res.ok (_, leVal (slice b.mem b.rpos 4)) = _
    rw [hhd, hlen]
    rfl
  unfold next
  rw [hval, if_neg (by simp), if_neg (by omega), hpk, Res.ok_bind]
  show (if size b - 4 < len then _ else _) = _
  rw [hs]
  by_cases hc : b.wpos - b.rpos - 4 < len
  · rw [if_pos hc, if_pos hc]
  · rw [if_neg hc, if_neg hc, hgt, Res.ok_bind]
    have r1 : InRange { b with rpos := b.rpos + 4 } := r.advance (n := b.rpos + 4) hp
    have hu1 : unread { b with rpos := b.rpos + 4 } = (unread b).drop 4 := Buf.unread_advance r hp
    have hg := Buf.getData_eq r1 (len := len) hl
    rw [if_pos ⟨he, by simp only; omega⟩] at hg
    show (getData { b with rpos := b.rpos + 4 } len >>= _) = _
    rw [hg, Res.ok_bind, ← hu1, ← head_eq (b := { b with rpos := b.rpos + 4 }) (by simp only; omega)]

/-- What `next` does, whatever is in the buffer, which may come from anyone. It takes nothing unless the
length and all the bytes it announces are there; then it takes exactly these. -/
theorem next_any {b : B} (r : InRange b) :
    (next b = .ok (b, none) ∧
      (valid b = true → ∀ bs rest, bs.length < 2 ^ 32 → unread b ≠ frame bs ++ rest)) ∨
    (valid b = true ∧ ∃ bs b', bs.length < 2 ^ 32 ∧ next b = .ok (b', some bs) ∧ InRange b' ∧ b'.err = 0 ∧
      unread b = frame bs ++ unread b') := by
  have h1 := r.rpos
  have h2 := r.wpos
  have h3 := r.cap
  have hs := size_eq r
  have hu := Buf.length_unread r
  by_cases hv : b.err = 0
  · have hval : valid b = true := by simp [valid, hv]
    by_cases hz : size b < 4
    · refine Or.inl ⟨next_short hz, fun _ bs rest _ he => ?_⟩
      have := congrArg List.length he
      rw [List.length_append, frame_length] at this
      omega
    · have hp : b.rpos + 4 ≤ b.wpos := by omega
      have h4 : ((unread b).take 4).length = 4 := by rw [List.length_take, Nat.min_eq_left (by omega)]
      have hlt := Buf.leVal_lt ((unread b).take 4)
      have hle := Buf.le_leVal ((unread b).take 4)
      rw [h4] at hlt hle
      generalize hlen : leVal ((unread b).take 4) = len at hlt hle
      have hn := next_eq r hv hp hlen (by omega)
      by_cases hc : b.wpos - b.rpos - 4 < len
      · rw [if_pos hc] at hn
        refine Or.inl ⟨hn, fun _ bs rest hb he => ?_⟩
        have hl := congrArg List.length he
        rw [List.length_append, frame_length] at hl
        have : (unread b).take 4 = le 4 bs.length := by
          rw [he, frame, List.append_assoc, List.take_left' (by simp [Buf.length_le])]
        rw [this, Buf.leVal_le, Nat.mod_eq_of_lt (by omega)] at hlen
        omega
      · rw [if_neg hc] at hn
        have hdl : (((unread b).drop 4).take len).length = len := by simp; omega
        refine Or.inr ⟨hval, _, _, ?_, hn, r.advance (n := b.rpos + 4 + len) (by omega), hv, ?_⟩
        · rw [hdl]; omega
        · have r1 : InRange { b with rpos := b.rpos + 4 } := r.advance (n := b.rpos + 4) hp
          have hu1 : unread { b with rpos := b.rpos + 4 } = (unread b).drop 4 := Buf.unread_advance r hp
          have hu2 : unread { b with rpos := b.rpos + 4 + len } = (unread { b with rpos := b.rpos + 4 }).drop len :=
            Buf.unread_advance r1 (by simp only; omega)
          rw [hu2, hu1, frame, hdl, hle, List.append_assoc, List.take_append_drop, List.take_append_drop]
  · refine Or.inl ⟨next_invalid hv, fun h => ?_⟩
    simp [valid] at h
    exact absurd h hv

theorem frame_inj {x y u v : List UInt8} (hx : x.length < 2 ^ 32) (hy : y.length < 2 ^ 32)
    (h : frame x ++ u = frame y ++ v) : x = y ∧ u = v := by
  unfold frame at h
  rw [List.append_assoc, List.append_assoc] at h
  obtain ⟨h1, h2⟩ := List.append_inj h (by simp [Buf.length_le])
  have : x.length = y.length := by
    have := congrArg leVal h1
    rwa [Buf.leVal_le, Buf.leVal_le, Nat.mod_eq_of_lt (by omega), Nat.mod_eq_of_lt (by omega)] at this
  exact List.append_inj h2 this

/-! ## The sockets -/

theorem send_effect {e : IoEnv} (he : Laws e.toEnv) {fuel : Nat} {buf : List UInt8} {len rc : Int} {w w' : World} {s s' : Sock}
    (hs : s.err.length = 128) (hb : len ≤ buf.length) (h : send e fuel buf len w s = .ok (some (rc, w', s'))) :
    w'.sent = w.sent ++ buf.take rc.toNat ∧ w'.inp = w.inp ∧ s'.err.length = 128 ∧ rc ≤ len := by
  have st := Sock.Io.streams he hs (Sock.Io.Hist.refl.send hb h)
  refine ⟨by simpa using st.1, by simpa using st.2.1, st.2.2, ?_⟩
  by_cases hz : len ≤ 0
  · rw [(zero_spec hz).1] at h
    cases h
    omega
  · rcases interrupted_or e.call w.os.n fuel with hi | ⟨k, hk, hi⟩
    · rw [send_waits (by omega) hi] at h
      cases h
    · obtain ⟨rc', w₁, s₁, k1, -, -, -, k5⟩ := send_spec he hs (len := len) (by omega) hb hk hi
      rw [k1] at h
      cases h
      unfold Sent at k5
      split at k5
      · omega
      · omega

theorem recv_effect {e : IoEnv} (he : Laws e.toEnv) {fuel : Nat} {buf buf' : List UInt8} {len rc : Int} {w w' : World}
    {s s' : Sock} (hs : s.err.length = 128) (h0 : 0 ≤ len) (hb : len ≤ buf.length)
    (h : recv e fuel buf len w s = .ok (some (rc, w', s', buf'))) :
    buf'.take rc.toNat ++ w'.inp = w.inp ∧ w'.sent = w.sent ∧ s'.err.length = 128 ∧ rc ≤ len ∧ buf'.length = buf.length ∧
      (rc = -1 → w'.os.errno = EOF → (∀ n, e.call n ≠ some EOF) → w.inp = []) := by
  have st := Sock.Io.streams he hs (Sock.Io.Hist.refl.recv hb h)
  refine ⟨by simpa using st.2.1, by simpa using st.1, st.2.2, ?_⟩
  by_cases hz : len ≤ 0
  · rw [(zero_spec hz).2] at h
    cases h
    exact ⟨by omega, rfl, by omega⟩
  · rcases interrupted_or e.call w.os.n fuel with hi | ⟨k, hk, hi⟩
    · rw [recv_waits (by omega) hi] at h
      cases h
    · obtain ⟨rc', w₁, s₁, b₁, k1, -, -, -, k5⟩ := recv_spec he hs (len := len) (by omega) hb hk hi
      rw [k1] at h
      cases h
      unfold Received at k5
      split at k5
      · split at k5
        · next hin => exact ⟨by omega, by rw [k5.2.2.2.1], fun _ _ _ => hin⟩
        · exact ⟨k5.2.1, k5.2.2.2.2.1, fun h => by omega⟩
      · next er hc =>
        refine ⟨by omega, by rw [k5.2.2.1], fun _ h2 h3 => ?_⟩
        rw [k5.2.2.2.1] at h2
        rw [h2] at hc
        exact absurd hc (h3 _)

/-- The steps of the sender take the oldest bytes of its buffer and append them to what was sent. -/
theorem sendSome_ok {e : IoEnv} (he : Laws e.toEnv) {fuel : Nat} {len rc : Int} {c c' : Conn} (r : InRange c.a)
    (hs : c.sa.err.length = 128) (hl : len ≤ size c.a) (h : sendSome e fuel len c = .ok (some (rc, c'))) :
    ∃ n, InRange c'.a ∧ c'.sa.err.length = 128 ∧ c'.wa.sent = c.wa.sent ++ (unread c.a).take n ∧ unread c'.a = (unread c.a).drop n ∧
      c'.moved = c.moved ∧ c'.closed = c.closed ∧ c'.b = c.b ∧ c'.sb = c.sb ∧ c'.wb = c.wb := by
  have h1 := r.rpos
  have h2 := r.wpos
  have h3 := r.cap
  have h4 := r.mem
  have hsz := size_eq r
  have hul := Buf.length_unread r
  unfold sendSome at h
  obtain ⟨x, hx, h⟩ := Res.bind_eq_ok.1 h
  match x, h with
  | some (n, w, s), h =>
    injection h with h
    injection h with h
    injection h with hn hc
    subst hn hc
    obtain ⟨k1, k2, k3, k4⟩ := send_effect he hs (by simp only [List.length_drop, rbuf]; omega) hx
    refine ⟨n.toNat, ?_⟩
    have htake : (c.a.mem.drop (rbuf c.a)).take n.toNat = (unread c.a).take n.toNat := by
      simp only [rbuf, unread, slice, List.take_take]
      rw [Nat.min_eq_left (by omega)]
    rw [htake] at k1
    by_cases hp : n > 0
    · have hm : markRead c.a n.toNat = { c.a with rpos := c.a.rpos + n.toNat } := by
        unfold markRead
        rw [Buf.add64_lt (by omega)]
      rw [if_pos hp, hm]
      exact ⟨r.advance (n := c.a.rpos + n.toNat) (by omega), k3, k1, Buf.unread_advance r (by omega), rfl, rfl, rfl, rfl, rfl⟩
    · rw [if_neg hp]
      refine ⟨r, k3, k1, ?_, rfl, rfl, rfl, rfl, rfl⟩
      rw [show n.toNat = 0 by omega]
      rfl

/-- The steps of the receiver append the oldest bytes that came in to its buffer. -/
theorem recvSome_ok {e : IoEnv} (he : Laws e.toEnv) {fuel : Nat} {len rc : Int} {c c' : Conn} (r : InRange c.b)
    (hs : c.sb.err.length = 128) (h0 : 0 ≤ len) (hl : len ≤ quota c.b) (h : recvSome e fuel len c = .ok (some (rc, c'))) :
    InRange c'.b ∧ c'.sb.err.length = 128 ∧ unread c'.b ++ c'.wb.inp = unread c.b ++ c.wb.inp ∧ (c.wb.inp = [] → c'.wb.inp = []) ∧
      (rc = -1 → c'.wb.os.errno = EOF → (∀ n, e.call n ≠ some EOF) → c.wb.inp = []) ∧
      c'.moved = c.moved ∧ c'.closed = c.closed ∧ c'.a = c.a ∧ c'.sa = c.sa ∧ c'.wa = c.wa := by
  have h1 := r.rpos
  have h2 := r.wpos
  have h3 := r.cap
  have h4 := r.mem
  have hq : quota c.b = c.b.cap - c.b.wpos := by unfold quota sub64; omega
  unfold recvSome at h
  obtain ⟨x, hx, h⟩ := Res.bind_eq_ok.1 h
  match x, h with
  | some (n, w, s, mem), h =>
    injection h with h
    injection h with h
    injection h with hn hc
    subst hn hc
    obtain ⟨k1, -, k3, k4, k5, k6⟩ := recv_effect he hs h0 (by simp only [List.length_drop, wbuf]; omega) hx
    simp only [wbuf, List.length_drop] at k5
    have hnil : c.wb.inp = [] → w.inp = [] := fun h => by
      rw [h] at k1
      exact (List.append_eq_nil_iff.1 k1).2
    have hml : (c.b.mem.take c.b.wpos ++ mem).length = c.b.cap := by simp; omega
    have r1 : InRange { c.b with mem := c.b.mem.take c.b.wpos ++ mem } := ⟨hml, h1, h2, h3⟩
    have hw1 : Buf.written { c.b with mem := c.b.mem.take c.b.wpos ++ mem } = Buf.written c.b := by
      simp only [Buf.written, slice, List.drop_zero]
      rw [List.take_left' (by simp; omega)]
    by_cases hp : n > 0
    · have hm : markWrite { c.b with mem := c.b.mem.take c.b.wpos ++ mem } n.toNat =
          { c.b with mem := c.b.mem.take c.b.wpos ++ mem, wpos := c.b.wpos + n.toNat } := by
        unfold markWrite
        rw [Buf.add64_lt (by simp only; omega)]
      have r2 : InRange { c.b with mem := c.b.mem.take c.b.wpos ++ mem, wpos := c.b.wpos + n.toNat } :=
        ⟨hml, by simp only; omega, by simp only; omega, h3⟩
      unfold wbuf
      rw [if_pos hp, hm]
      refine ⟨r2, k3, ?_, hnil, k6, rfl, rfl, rfl, rfl, rfl⟩
      have hu : unread { c.b with mem := c.b.mem.take c.b.wpos ++ mem, wpos := c.b.wpos + n.toNat } =
          unread c.b ++ mem.take n.toNat := by
        refine Buf.unread_append r r2 rfl ?_
        simp only [Buf.written, slice, List.drop_zero]
        rw [List.take_append, List.take_take, List.length_take, Nat.min_eq_right (by omega), Nat.min_eq_left (by omega),
          show c.b.wpos + n.toNat - c.b.wpos = n.toNat by omega]
      rw [hu, List.append_assoc, k1]
    · unfold wbuf
      rw [if_neg hp]
      refine ⟨r1, k3, ?_, hnil, k6, rfl, rfl, rfl, rfl, rfl⟩
      have hu : unread { c.b with mem := c.b.mem.take c.b.wpos ++ mem } = unread c.b := by
        have := Buf.unread_append r r1 rfl (bs := []) (by rw [hw1]; simp)
        simpa using this
      rw [show n.toNat = 0 by omega, List.take_zero, List.nil_append] at k1
      rw [hu, k1]

/-! ## The connection -/

/-- The invariant: the messages not taken out yet are, in order, in the receiver's buffer, with the
receiver's system, under way, and in the sender's buffer. -/
structure Inv (es : List Event) (c : Conn) : Prop where
  a : InRange c.a
  b : InRange c.b
  sa : c.sa.err.length = 128
  sb : c.sb.err.length = 128
  moved : c.moved ≤ c.wa.sent.length
  small : ∀ vs ∈ written es, (bytes vs).length < 2 ^ 32
  flow : ∃ more, (written es).map bytes = taken es ++ more ∧
    unread c.b ++ c.wb.inp ++ c.wa.sent.drop c.moved ++ unread c.a = more.flatMap frame
  ended : Event.eof ∈ es → c.closed = true ∧ c.moved = c.wa.sent.length ∧ c.wb.inp = []

theorem written_append (x y : List Event) : written (x ++ y) = written x ++ written y := by
  induction x with
  | nil => rfl
  | cons e x ih => cases e <;> simp [written, ih]

theorem taken_append (x y : List Event) : taken (x ++ y) = taken x ++ taken y := by
  induction x with
  | nil => rfl
  | cons e x ih => cases e <;> simp [taken, ih]

theorem Inv.other {es : List Event} {c c' : Conn} (i : Inv es c) (a : InRange c'.a) (b : InRange c'.b) (sa : c'.sa.err.length = 128)
    (sb : c'.sb.err.length = 128) (m : c'.moved ≤ c'.wa.sent.length)
    (f : unread c'.b ++ c'.wb.inp ++ c'.wa.sent.drop c'.moved ++ unread c'.a =
      unread c.b ++ c.wb.inp ++ c.wa.sent.drop c.moved ++ unread c.a)
    (en : Event.eof ∈ es → c'.closed = true ∧ c'.moved = c'.wa.sent.length ∧ c'.wb.inp = []) : Inv (es ++ [.other]) c' := by
  refine ⟨a, b, sa, sb, m, ?_, ?_, ?_⟩
  · rw [written_append]; simpa [written] using i.small
  · rw [written_append, taken_append, f]; simpa [written, taken] using i.flow
  · intro h
    exact en (by simpa using h)

theorem Inv.step {ea eb : IoEnv} (ha : Laws ea.toEnv) (hb : Laws eb.toEnv) (he : ∀ n, eb.call n ≠ some EOF) {es : List Event}
    {c c' : Conn} {ev : Event} (i : Inv es c) (h : Step ea eb c ev c') : Inv (es ++ [ev]) c' := by
  obtain ⟨more, f1, f2⟩ := i.flow
  cases h with
  | @frame al vs a hcl hv hlen hput hval =>
    obtain ⟨a', e, r, -, hu⟩ := putFrame_ok al i.a hv hlen
    rw [hput] at e
    cases e
    refine ⟨r, i.b, i.sa, i.sb, i.moved, ?_, ⟨more ++ [bytes vs], ?_, ?_⟩, ?_⟩
    · rw [written_append]
      intro x hx
      rcases List.mem_append.1 hx with hx | hx
      · exact i.small x hx
      · simp only [written, List.mem_singleton] at hx
        subst hx
        exact hlen
    · rw [written_append, taken_append, List.map_append, f1]
      simp [written, taken]
    · simp only [(hu hval).2]
      rw [← List.append_assoc, f2]
      simp
    · intro hm
      have := (i.ended (by simpa using hm)).1
      rw [hcl] at this
      cases this
  | @send fuel len rc _ hcl h0 h1 h2 hs =>
    obtain ⟨n, k1, k2, k3, k4, k5, k6, k7, k8, k9⟩ := sendSome_ok ha i.a i.sa h2 hs
    have hm := i.moved
    refine i.other k1 (by rw [k7]; exact i.b) k2 (by rw [k8]; exact i.sb) (by rw [k5, k3, List.length_append]; omega) ?_ ?_
    · rw [k7, k9, k5, k3, k4, List.drop_append_of_le_length hm]
      simp only [List.append_assoc, List.take_append_drop]
    · intro hm
      have := (i.ended hm).1
      rw [hcl] at this
      cases this
  | carry n hn =>
    refine i.other i.a i.b i.sa i.sb hn ?_ ?_
    · simp only [List.append_assoc]
      congr 2
      rw [← List.append_assoc, ← List.drop_drop, List.take_append_drop]
    · intro hm
      obtain ⟨e1, e2, e3⟩ := i.ended hm
      have hz : n = 0 := by omega
      subst hz
      exact ⟨e1, e2, by simpa using e3⟩
  | close => exact i.other i.a i.b i.sa i.sb i.moved rfl fun hm => ⟨rfl, (i.ended hm).2⟩
  | @recv fuel len rc _ h0 h1 h2 hs hn =>
    obtain ⟨k1, k2, k3, kn, -, k5, k6, k7, k8, k9⟩ := recvSome_ok hb i.b i.sb h0 h2 hs
    refine i.other (by rw [k7]; exact i.a) k1 (by rw [k8]; exact i.sa) k2 (by rw [k5, k9]; exact i.moved) ?_ ?_
    · rw [k3, k5, k9, k7]
    · intro hm
      obtain ⟨e1, e2, e3⟩ := i.ended hm
      exact ⟨by rw [k6, e1], by rw [k5, k9, e2], kn e3⟩
  | @eof fuel len rc _ h0 h1 h2 hs hn hcl hmv =>
    obtain ⟨k1, k2, k3, kn, k4, k5, k6, k7, k8, k9⟩ := recvSome_ok hb i.b i.sb h0 h2 hs
    have hin := k4 hn.1 hn.2 he
    refine ⟨by rw [k7]; exact i.a, k1, by rw [k8]; exact i.sa, k2, by rw [k5, k9]; exact i.moved, ?_, ⟨more, ?_, ?_⟩, ?_⟩
    · rw [written_append]; simpa [written] using i.small
    · rw [written_append, taken_append]; simpa [written, taken] using f1
    · rw [k3, k5, k9, k7, f2]
    · intro _
      exact ⟨by rw [k6, hcl], by rw [k5, k9, hmv], kn hin⟩
  | @next b bs hn =>
    rcases next_any i.b with ⟨e, -⟩ | ⟨-, bs', b', hl, e, r, -, hu⟩
    · rw [hn] at e; cases e
    · rw [hn] at e
      cases e
      rw [hu] at f2
      simp only [List.append_assoc] at f2
      match more, f1, f2 with
      | [], _, f2 =>
        have := congrArg List.length f2
        rw [List.length_append, frame_length] at this
        simp at this
      | m :: more, f1, f2 =>
        rw [List.flatMap_cons] at f2
        have hml : m.length < 2 ^ 32 := by
          have : m ∈ (written es).map bytes := by rw [f1]; simp
          obtain ⟨vs, hvs, rfl⟩ := List.mem_map.1 this
          exact i.small vs hvs
        obtain ⟨rfl, f3⟩ := frame_inj hl hml f2
        refine ⟨i.a, r, i.sa, i.sb, i.moved, ?_, ⟨more, ?_, ?_⟩, ?_⟩
        · rw [written_append]; simpa [written] using i.small
        · rw [written_append, taken_append]; simpa [written, taken] using f1
        · simpa [List.append_assoc] using f3
        · intro hm
          exact i.ended (by simpa using hm)
  | @sender op a hk hs =>
    obtain ⟨a', e, r, hu, -⟩ := Buf.keeping_ok i.a hk
    rw [hs] at e
    cases e
    exact i.other r i.b i.sa i.sb i.moved (by simp only [hu]) fun hm => i.ended hm
  | @receiver op b hk hs =>
    obtain ⟨b', e, r, hu, -⟩ := Buf.keeping_ok i.b hk
    rw [hs] at e
    cases e
    exact i.other i.a r i.sa i.sb i.moved (by simp only [hu]) fun hm => i.ended hm

theorem Conn.Fresh.inv {c : Conn} (f : c.Fresh) : Inv [] c := by
  refine ⟨f.a.1, f.b.1, f.sa, f.sb, by rw [f.sent.2.1]; omega, by simp [written], ⟨[], rfl, ?_⟩, by simp⟩
  have h1 : unread c.a = [] := by simp [unread, slice, f.a.2]
  have h2 : unread c.b = [] := by simp [unread, slice, f.b.2]
  rw [h1, h2, f.sent.1, f.sent.2.2]
  simp

theorem Run.inv {ea eb : IoEnv} (ha : Laws ea.toEnv) (hb : Laws eb.toEnv) (he : ∀ n, eb.call n ≠ some EOF) {es : List Event}
    {c c' : Conn} (f : c.Fresh) (h : Run ea eb c es c') : Inv es c' := by
  induction h with
  | refl => exact f.inv
  | step _ hs ih => exact ih.step ha hb he hs

/-! ## Theorems -/

/-- **C159.** However the sockets cut the stream, however calls are interrupted or fail, and whatever
compacting, reserving and shrinking happens meanwhile, the messages that the receiver takes out are the
first of those that the sender wrote, byte by byte and in order. -/
theorem in_order {ea eb : IoEnv} (ha : Laws ea.toEnv) (hb : Laws eb.toEnv) (he : ∀ n, eb.call n ≠ some EOF) {es : List Event}
    {c c' : Conn} (f : c.Fresh) (h : Run ea eb c es c') : taken es <+: (written es).map bytes := by
  obtain ⟨more, f1, -⟩ := (h.inv ha hb he f).flow
  exact ⟨more, f1.symm⟩

/-- **C159.** Nothing is held back: when all is sent, carried over and received and the receiver finds no
message in its buffer, it has had them all. -/
theorem complete {ea eb : IoEnv} (ha : Laws ea.toEnv) (hb : Laws eb.toEnv) (he : ∀ n, eb.call n ≠ some EOF) {es : List Event}
    {c c' : Conn} (f : c.Fresh) (h : Run ea eb c es c') (h1 : size c'.a = 0) (h2 : c'.moved = c'.wa.sent.length)
    (h3 : c'.wb.inp = []) (h4 : valid c'.b = true) (h5 : next c'.b = .ok (c'.b, none)) :
    taken es = (written es).map bytes ∧ size c'.b = 0 := by
  have i := h.inv ha hb he f
  obtain ⟨more, f1, f2⟩ := i.flow
  rw [(size_zero i.a).1 h1, h2, h3] at f2
  simp only [List.drop_length, List.append_nil] at f2
  match more, f1, f2 with
  | [], f1, f2 => exact ⟨by rw [f1]; simp, (size_zero i.b).2 (by simpa using f2)⟩
  | m :: more, f1, f2 =>
    exfalso
    have hml : m.length < 2 ^ 32 := by
      have : m ∈ (written es).map bytes := by rw [f1]; simp
      obtain ⟨vs, hvs, rfl⟩ := List.mem_map.1 this
      exact i.small vs hvs
    rw [List.flatMap_cons] at f2
    rcases next_any i.b with ⟨-, hno⟩ | ⟨-, bs, b', -, e, -⟩
    · exact hno h4 m _ hml f2
    · rw [h5] at e
      cases e

/-- **C159.** When the receiver has been told about the end and finds no further message, it has had every
message, if the sender had sent all it wrote before it closed its end. -/
theorem at_end {ea eb : IoEnv} (ha : Laws ea.toEnv) (hb : Laws eb.toEnv) (he : ∀ n, eb.call n ≠ some EOF) {es : List Event}
    {c c' : Conn} (f : c.Fresh) (h : Run ea eb c es c') (hm : Event.eof ∈ es) (h1 : size c'.a = 0) (h4 : valid c'.b = true)
    (h5 : next c'.b = .ok (c'.b, none)) : taken es = (written es).map bytes ∧ size c'.b = 0 := by
  obtain ⟨-, h2, h3⟩ := (h.inv ha hb he f).ended hm
  exact complete ha hb he f h h1 h2 h3 h4 h5

/-- **C159.** The values of a message are read back from the bytes that were taken out. -/
theorem read_back {vs : List Val} (hv : ∀ v ∈ vs, v.Ok) (hl : (bytes vs).length < 2 ^ 32) :
    ∃ b', getAll (wrap (bytes vs) (bytes vs).length true true) vs = .ok (b', vs) ∧ b'.err = 0 ∧ size b' = 0 := by
  have r : InRange (wrap (bytes vs) (bytes vs).length true true) := by
    refine ⟨rfl, ?_, ?_, ?_⟩
    · simp [wrap]
    · simp [wrap]
    · simp only [wrap]; omega
  have hu : unread (wrap (bytes vs) (bytes vs).length true true) = vs.flatMap Val.encode ++ [] := by
    rw [List.append_nil]
    simp only [unread, wrap, slice, List.drop_zero, if_true, Nat.sub_zero]
    exact List.take_length
  obtain ⟨b', g, r', e, u⟩ := Buf.getAll_eq vs hv r rfl hu
  exact ⟨b', g, e, (size_zero r').2 u⟩

/-- **C159.** Nothing the programs do is undefined, at any time. -/
theorem defined {ea eb : IoEnv} (ha : Laws ea.toEnv) (hb : Laws eb.toEnv) (he : ∀ n, eb.call n ≠ some EOF) {es : List Event}
    {c c' : Conn} (f : c.Fresh) (h : Run ea eb c es c') :
    (∀ al vs, (∀ v ∈ vs, v.Ok) → (bytes vs).length < 2 ^ 32 → putFrame al c'.a vs ≠ .ub) ∧
    (∀ fuel len, 0 ≤ len → len ≤ (size c'.a : Int) → sendSome ea fuel len c' ≠ .ub) ∧
    (∀ fuel len, 0 ≤ len → len ≤ (quota c'.b : Int) → recvSome eb fuel len c' ≠ .ub) ∧
    next c'.b ≠ .ub := by
  have i := h.inv ha hb he f
  refine ⟨fun al vs hv hl => ?_, fun fuel len h0 hl => ?_, fun fuel len h0 hl => ?_, ?_⟩
  · obtain ⟨b, e, -⟩ := putFrame_ok al i.a hv hl
    rw [e]
    exact fun h => by cases h
  · have hsz := size_eq i.a
    have hul := Buf.length_unread i.a
    have h1 := i.a.rpos
    have h2 := i.a.wpos
    have h4 := i.a.mem
    have : send ea fuel (c'.a.mem.drop (rbuf c'.a)) len c'.wa c'.sa ≠ .ub := by
      by_cases hz : len ≤ 0
      · rw [(zero_spec hz).1]
        exact fun h => by cases h
      · rcases interrupted_or ea.call c'.wa.os.n fuel with hi | ⟨k, hk, hi⟩
        · rw [send_waits (by omega) hi]
          exact fun h => by cases h
        · obtain ⟨rc, w, s, e, -⟩ := send_spec ha i.sa (buf := c'.a.mem.drop (rbuf c'.a)) (len := len) (w := c'.wa) (by omega)
            (by simp only [List.length_drop, rbuf]; omega) hk hi
          rw [e]
          exact fun h => by cases h
    unfold sendSome
    cases hr : send ea fuel (c'.a.mem.drop (rbuf c'.a)) len c'.wa c'.sa with
    | ub => exact absurd hr this
    | ok x =>
      rw [Res.ok_bind]
      match x with
      | none => exact fun h => by cases h
      | some (rc, w, s) => exact fun h => by cases h
  · have h1 := i.b.rpos
    have h2 := i.b.wpos
    have h3 := i.b.cap
    have h4 := i.b.mem
    have hq : quota c'.b = c'.b.cap - c'.b.wpos := by unfold quota sub64; omega
    have : recv eb fuel (c'.b.mem.drop (wbuf c'.b)) len c'.wb c'.sb ≠ .ub := by
      by_cases hz : len ≤ 0
      · rw [(zero_spec hz).2]
        exact fun h => by cases h
      · rcases interrupted_or eb.call c'.wb.os.n fuel with hi | ⟨k, hk, hi⟩
        · rw [recv_waits (by omega) hi]
          exact fun h => by cases h
        · obtain ⟨rc, w, s, m, e, -⟩ := recv_spec hb i.sb (buf := c'.b.mem.drop (wbuf c'.b)) (len := len) (w := c'.wb) (by omega)
            (by simp only [List.length_drop, wbuf]; omega) hk hi
          rw [e]
          exact fun h => by cases h
    unfold recvSome
    cases hr : recv eb fuel (c'.b.mem.drop (wbuf c'.b)) len c'.wb c'.sb with
    | ub => exact absurd hr this
    | ok x =>
      rw [Res.ok_bind]
      match x with
      | none => exact fun h => by cases h
      | some (rc, w, s, m) => exact fun h => by cases h
  · rcases next_any i.b with ⟨e, -⟩ | ⟨-, bs, b', -, e, -⟩ <;> rw [e] <;> exact fun h => by cases h

/-- **C159.** The receiver does not get stuck for lack of room: if the message that is arriving fits in the
buffer, then after compacting there is room for more of it, or it is there. -/
theorem room {b : B} (r : InRange b) (hv : valid b = true) {bs u rest : List UInt8} (hl : bs.length < 2 ^ 32)
    (hu : unread b ++ u = frame bs ++ rest) (hc : 4 + bs.length ≤ b.cap) :
    (∃ b', next b = .ok (b', some bs)) ∨ ∃ b', Buf.compact b = .ok b' ∧ 0 < quota b' ∧ next b = .ok (b, none) := by
  rcases next_any r with ⟨e, hno⟩ | ⟨-, bs', b', hl', e, -, -, hu'⟩
  · refine Or.inr ?_
    have hlt : (unread b).length < 4 + bs.length := by
      by_cases hlt : (unread b).length < 4 + bs.length
      · exact hlt
      · exfalso
        have hx : (unread b).take (4 + bs.length) = frame bs := by
          have := congrArg (List.take (4 + bs.length)) hu
          rwa [List.take_append_of_le_length (by omega), List.take_left' (frame_length bs)] at this
        refine hno hv bs ((unread b).drop (4 + bs.length)) hl ?_
        rw [← hx, List.take_append_drop]
    obtain ⟨b', e', r', -, hw, -, hcap, -⟩ := Buf.compact_spec r
    have h1 := r'.rpos
    have h2 := r'.wpos
    have h3 := r'.cap
    have hul := Buf.length_unread r
    refine ⟨b', e', ?_, e⟩
    unfold quota sub64
    omega
  · left
    rw [hu', List.append_assoc] at hu
    obtain ⟨rfl, -⟩ := frame_inj hl' hl hu
    exact ⟨b', e⟩

/-! ## Concrete cases -/

/-- The sender's calls: three bytes at a time; the first is interrupted. -/
def exA : IoEnv := Sock.Io.io [(0, 4)]

/-- The receiver's calls: three bytes at a time; the second would have to wait. -/
def exB : IoEnv := Sock.Io.io [(1, 11)]

/-- A connection that has just been made, with a buffer of 16 bytes at each end. -/
def exC : Conn where
  a := (Buf.init true 16).2
  sa := Sock.init false 2
  wa := ⟨⟨[], 0, 0, [], []⟩, [], []⟩
  moved := 0
  closed := false
  b := (Buf.init true 16).2
  sb := Sock.init false 2
  wb := ⟨⟨[], 0, 0, [], []⟩, [], []⟩

/-- Two values -/
def exVs : List Val := [.int .w8 9, .bool true]

def orElse (c : Conn) (r : Res (Option (Int × Conn))) : Conn :=
  match r with
  | .ok (some (_, c)) => c
  | _ => c

def orElseB (b : B) (r : Res B) : B :=
  match r with
  | .ok b => b
  | _ => b

/-- After the message was written -/
def exC1 : Conn := { exC with a := orElseB exC.a (putFrame (fun _ _ => none) exC.a exVs) }
/-- Three bytes were sent. -/
def exC2 : Conn := orElse exC1 (sendSome exA 5 6 exC1)
/-- And the other three. -/
def exC3 : Conn := orElse exC2 (sendSome exA 5 3 exC2)
/-- Four of them have come over. -/
def exC4 : Conn :=
  { exC3 with moved := 4, wb := { exC3.wb with inp := exC3.wb.inp ++ (exC3.wa.sent.drop 0).take 4 } }
/-- Three of them were received. -/
def exC5 : Conn := orElse exC4 (recvSome exB 5 16 exC4)
/-- The others have come over, and the sender closes its end. -/
def exC6 : Conn :=
  { exC5 with moved := 6, wb := { exC5.wb with inp := exC5.wb.inp ++ (exC5.wa.sent.drop 4).take 2 } }
def exC7 : Conn := { exC6 with closed := true }
/-- The next call would have to wait. -/
def exC8 : Conn := orElse exC7 (recvSome exB 5 13 exC7)
/-- The others were received. -/
def exC9 : Conn := orElse exC8 (recvSome exB 5 13 exC8)
/-- The end -/
def exC10 : Conn := orElse exC9 (recvSome exB 5 10 exC9)
/-- The message was taken out. -/
def exC11 : Conn := { exC10 with b := { exC10.b with rpos := 6 } }

-- a message of two values is sent in two pieces, comes over in two, is received in two, and is taken
-- out after the end was seen
example : exC.Fresh ∧ Run exA exB exC [.framed exVs, .other, .other, .other, .other, .other, .other, .other, .other, .eof, .got [9, 1]] exC11 ∧
    size exC11.a = 0 ∧ valid exC11.b = true ∧ next exC11.b = .ok (exC11.b, none) ∧ (∀ n, exB.call n ≠ some EOF) := by
  refine ⟨⟨⟨⟨rfl, by decide, by decide, by decide⟩, rfl⟩, ⟨⟨rfl, by decide, by decide, by decide⟩, rfl⟩, rfl, rfl, ⟨rfl, rfl, rfl⟩, rfl⟩, ?_,
    by decide +kernel, by decide +kernel, by decide +kernel, ?_⟩
  · have r1 : Run exA exB exC [.framed exVs] exC1 :=
      Run.refl.step (Step.frame (al := fun _ _ => none) rfl (by simp [exVs, Val.Ok, Buf.Width.bytes]) (by decide +kernel)
        (by decide +kernel) (by decide +kernel))
    have r2 := r1.step (Step.send (c' := exC2) (fuel := 5) (len := 6) (rc := 3) rfl (by decide) (by decide) (by decide +kernel) (by decide +kernel))
    have r3 := r2.step (Step.send (c' := exC3) (fuel := 5) (len := 3) (rc := 3) rfl (by decide) (by decide) (by decide +kernel) (by decide +kernel))
    have r4 : Run exA exB exC _ exC4 := r3.step (Step.carry 4 (by decide +kernel))
    have r5 := r4.step (Step.recv (c' := exC5) (fuel := 5) (len := 16) (rc := 3) (by decide) (by decide) (by decide +kernel) (by decide +kernel)
      (by decide +kernel))
    have r6 : Run exA exB exC _ exC6 := r5.step (Step.carry 2 (by decide +kernel))
    have r7 : Run exA exB exC _ exC7 := r6.step Step.close
    have r8 := r7.step (Step.recv (c' := exC8) (fuel := 5) (len := 13) (rc := -1) (by decide) (by decide) (by decide +kernel) (by decide +kernel)
      (by decide +kernel))
    have r9 := r8.step (Step.recv (c' := exC9) (fuel := 5) (len := 13) (rc := 3) (by decide) (by decide) (by decide +kernel) (by decide +kernel)
      (by decide +kernel))
    have r10 := r9.step (Step.eof (c' := exC10) (fuel := 5) (len := 10) (rc := -1) (by decide) (by decide) (by decide +kernel) (by decide +kernel)
      (by decide +kernel) rfl (by decide +kernel))
    have r11 : Run exA exB exC _ exC11 := r10.step (Step.next (bs := [9, 1]) (by decide +kernel))
    exact r11
  · intro n h
    simp only [exB, Sock.Io.io, List.find?_cons, List.find?_nil] at h
    split at h <;> simp [EOF] at h

example : Laws exA.toEnv ∧ Laws exB.toEnv := ⟨Sock.Io.io_laws _, Sock.Io.io_laws _⟩

-- a length that announces more than is there: nothing is taken
example : next (wrap [255, 255, 255, 255, 1, 2] 6 true true) = .ok (wrap [255, 255, 255, 255, 1, 2] 6 true true, none) := by
  decide +kernel

end Verif.Frame
