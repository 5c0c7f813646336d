import Verif.Buf.Props

/-!
# Data that passes through the memory of buffers

Programs hand the memory of a buffer to system calls: what arrives is written at `sc_buf_wbuf` and
`sc_buf_mark_write` tells how much it was; what leaves is read at `sc_buf_rbuf` and
`sc_buf_mark_read` tells how much was taken (buffer/sc_buf.h:172-228).
-/

namespace Verif.Buf

/-- `sc_buf_at`, buffer/sc_buf.c:89-92: the address as an offset in the memory of the buffer. -/
def at_ (_b : B) (pos : Nat) : Nat := pos

/-- `sc_buf_cap`, buffer/sc_buf.c:94-97. -/
def cap (b : B) : Nat := b.cap

/-- `sc_buf_rpos`, buffer/sc_buf.c:186-189. -/
def rpos (b : B) : Nat := b.rpos

/-- `sc_buf_wpos`, buffer/sc_buf.c:211-214. -/
def wpos (b : B) : Nat := b.wpos

/-- `sc_buf_rbuf`, buffer/sc_buf.c:216-219: the address as an offset in the memory of the buffer. -/
def rbuf (b : B) : Nat := b.rpos

/-- `sc_buf_wbuf`, buffer/sc_buf.c:221-224: the address as an offset in the memory of the buffer. -/
def wbuf (b : B) : Nat := b.wpos

/-- `n = read(fd, sc_buf_wbuf(b), ..); sc_buf_mark_write(b, n)`, for a call that stores the bytes `bs`;
buffer/sc_buf.c:181-184, 221-224. -/
def bringIn (b : B) (bs : List UInt8) : Res B := do
  let m ← memcpy b.mem (wbuf b) bs 0 bs.length
  .ok (markWrite { b with mem := m } bs.length)

/-- `n = write(fd, sc_buf_rbuf(b), ..); sc_buf_mark_read(b, n)`, for a call that takes `n` bytes;
buffer/sc_buf.c:176-179, 216-219. -/
def takeOut (b : B) (n : Nat) : Res (List UInt8 × B) :=
  if rbuf b + n ≤ b.mem.length then .ok (slice b.mem (rbuf b) n, markRead b n) else .ub

/-- Two programs with a buffer each, and the bytes under way from the first to the second, the oldest
first. -/
structure Link where
  a : B
  wire : List UInt8
  b : B
  deriving DecidableEq

/-- What the programs do: the first writes `n` bytes from its buffer, the second reads `n` into its
own, each of them may compact, reserve or shrink. System calls move as many bytes as they like, at
most as many as the callers allow: `sc_buf_size` and `sc_buf_quota`. -/
inductive Link.Op where
  | send (n : Nat)
  | recv (n : Nat)
  | sender (op : Buf.Op)
  | receiver (op : Buf.Op)

/-- The calls that only move the bytes of a buffer or change its capacity. -/
def Keeping (b : B) : Buf.Op → Prop
  | .compact => True
  | .reserve _ n => n < OBJ_MAX
  | .shrink _ n => n < OBJ_MAX ∧ b.ref = false
  | .limit _ => True
  | _ => False

/-- What callers and the system observe. -/
def Link.Ok (l : Link) : Link.Op → Prop
  | .send n => n ≤ size l.a
  | .recv n => n ≤ quota l.b ∧ n ≤ l.wire.length
  | .sender op => Keeping l.a op
  | .receiver op => Keeping l.b op

/-- One of these actions. -/
def Link.step (l : Link) : Link.Op → Res Link
  | .send n => do
    let (bs, a) ← takeOut l.a n
    .ok { l with a := a, wire := l.wire ++ bs }
  | .recv n => do
    let b ← bringIn l.b (l.wire.take n)
    .ok { l with b := b, wire := l.wire.drop n }
  | .sender op => do
    let a ← Buf.step l.a op
    .ok { l with a := a }
  | .receiver op => do
    let b ← Buf.step l.b op
    .ok { l with b := b }

/-- The history of a link. -/
inductive Link.Hist : Link → Link → Prop
  | refl {l} : Link.Hist l l
  | step {l l' l'' op} : Link.Hist l l' → l'.Ok op → l'.step op = .ok l'' → Link.Hist l l''

/-! ## Proofs -/

/-- The accessors: what is read at `sc_buf_rbuf` are the unread bytes, and they are followed by the
address that `sc_buf_wbuf` returns and by as much room as `sc_buf_quota` says. -/
theorem buf_accessors {b : B} (r : InRange b) :
    slice b.mem (rbuf b) (size b) = unread b ∧ rbuf b = at_ b (rpos b) ∧ wbuf b = at_ b (wpos b) ∧
    rbuf b + size b = wbuf b ∧ wbuf b + quota b = at_ b (cap b) ∧ b.mem.length = cap b := by
  have h1 := r.rpos
  have h2 := r.wpos
  have h3 := r.cap
  have hs : size b = b.wpos - b.rpos := by unfold size sub64; omega
  have hq : quota b = b.cap - b.wpos := by unfold quota sub64; omega
  rw [hs, hq]
  simp only [rbuf, wbuf, at_, rpos, wpos, cap]
  exact ⟨rfl, trivial, trivial, by omega, by omega, r.mem⟩

/-- **C116.** Bytes that the system stores in the free room of a buffer are appended to what is to be
read. -/
theorem bringIn_ok {b : B} (r : InRange b) {bs : List UInt8} (h : bs.length ≤ quota b) :
    ∃ b', bringIn b bs = .ok b' ∧ InRange b' ∧ unread b' = unread b ++ bs ∧ b'.err = b.err ∧
      b'.cap = b.cap ∧ b'.rpos = b.rpos ∧ b'.ref = b.ref := by
  have h1 := r.rpos
  have h2 := r.wpos
  have h3 := r.cap
  have h4 := r.mem
  have hq : quota b = b.cap - b.wpos := by unfold quota sub64; omega
  rw [hq] at h
  have hfit : b.wpos + bs.length ≤ b.mem.length := by omega
  have hm : memcpy b.mem b.wpos bs 0 bs.length = .ok (splice b.mem b.wpos bs) := by
    rw [memcpy_ok hfit (by omega), slice_self]
  have ha : add64 b.wpos bs.length = b.wpos + bs.length := by unfold add64; omega
  have hr' : InRange { b with mem := splice b.mem b.wpos bs, wpos := b.wpos + bs.length } :=
    ⟨by simp only; rw [length_splice hfit, h4], by simp only; omega, by simp only; omega, h3⟩
  refine ⟨{ b with mem := splice b.mem b.wpos bs, wpos := b.wpos + bs.length }, ?_, hr', ?_, rfl, rfl, rfl, rfl⟩
  · simp only [bringIn, wbuf, hm, Res.ok_bind, markWrite, ha]
  · refine unread_append r hr' rfl ?_
    simp only [written, slice, List.drop_zero]
    exact take_splice hfit

/-- **C116.** Bytes that the system takes at the read position are the oldest of those to be read, and are
gone then. -/
theorem takeOut_ok {b : B} (r : InRange b) {n : Nat} (h : n ≤ size b) :
    ∃ b', takeOut b n = .ok ((unread b).take n, b') ∧ InRange b' ∧ unread b' = (unread b).drop n ∧
      b'.err = b.err ∧ b'.cap = b.cap ∧ b'.ref = b.ref := by
  have h1 := r.rpos
  have h2 := r.wpos
  have h3 := r.cap
  have h4 := r.mem
  have hs : size b = b.wpos - b.rpos := by unfold size sub64; omega
  rw [hs] at h
  have ha : add64 b.rpos n = b.rpos + n := by unfold add64; omega
  refine ⟨{ b with rpos := b.rpos + n }, ?_, r.advance (n := b.rpos + n) (by omega), unread_advance r (by omega), rfl, rfl, rfl⟩
  unfold takeOut
  rw [if_pos (by simp only [rbuf]; omega)]
  simp only [markRead, ha, rbuf]
  congr 2
  simp only [unread, slice, List.take_take]
  rw [Nat.min_eq_left h]

theorem keeping_ok {b : B} (r : InRange b) {op : Op} (h : Keeping b op) :
    ∃ b', step b op = .ok b' ∧ InRange b' ∧ unread b' = unread b ∧ (b.err ≠ 0 → b'.err ≠ 0) := by
  have hall : Allowed b op ∧ Safe b op := by
    cases op <;> simp [Keeping] at h <;> simp [Allowed, Safe, h]
  obtain ⟨b', hs, hr⟩ := step_inRange r op hall.1 hall.2
  refine ⟨b', hs, hr, ?_⟩
  cases op <;> simp only [Keeping] at h
  case compact =>
    obtain ⟨b2, e, hu, -, -, he⟩ := buf_compact_keeps r
    simp only [step] at hs
    rw [e] at hs; injection hs with hs; subst hs
    exact ⟨hu, fun h => by rw [he]; exact h⟩
  case limit =>
    injection hs with hs; subst hs
    exact ⟨rfl, fun h => h⟩
  case reserve al n =>
    obtain ⟨ok, b2, e, hu, h1, h2⟩ := buf_reserve_partial al r h
    simp only [step, e, Res.ok_bind] at hs
    injection hs with hs; subst hs
    refine ⟨hu, fun hne => ?_⟩
    cases ok with
    | true => rw [(h1 rfl).2]; exact hne
    | false => exact h2 rfl
  case shrink al n =>
    obtain ⟨ok, b2, e, -, -, hu, -, -, -, he, -⟩ := shrink_spec al r n h.2
    simp only [step, e, Res.ok_bind] at hs
    injection hs with hs; subst hs
    refine ⟨hu, fun hne => ?_⟩
    rw [he]
    cases ok with
    | true => exact hne
    | false => exact or_ne_zero (by decide)

/-- **C116.** Every action of a link that keeps to the rules is defined, and the bytes to be read by the
receiver, those under way and those not sent yet remain the same, in the same order. -/
theorem link_step {l : Link} {op : Link.Op} (ra : InRange l.a) (rb : InRange l.b) (h : l.Ok op) :
    ∃ l', l.step op = .ok l' ∧ InRange l'.a ∧ InRange l'.b ∧
      unread l'.b ++ l'.wire ++ unread l'.a = unread l.b ++ l.wire ++ unread l.a := by
  cases op with
  | send n =>
    obtain ⟨a', e, r, hu, -⟩ := takeOut_ok ra h
    refine ⟨{ l with a := a', wire := l.wire ++ (unread l.a).take n }, by simp only [Link.step, e, Res.ok_bind], r, rb, ?_⟩
    simp only [hu]
    rw [List.append_assoc, List.append_assoc, List.take_append_drop, List.append_assoc]
  | recv n =>
    obtain ⟨hq, hw⟩ := h
    have hlen : (l.wire.take n).length = n := by simp; omega
    obtain ⟨b', e, r, hu, -⟩ := bringIn_ok rb (bs := l.wire.take n) (by rw [hlen]; exact hq)
    refine ⟨{ l with b := b', wire := l.wire.drop n }, by simp only [Link.step, e, Res.ok_bind], ra, r, ?_⟩
    simp only [hu]
    rw [List.append_assoc (unread l.b), List.take_append_drop]
  | sender op =>
    obtain ⟨a', e, r, hu, -⟩ := keeping_ok ra h
    exact ⟨{ l with a := a' }, by simp only [Link.step, e, Res.ok_bind], r, rb, by simp only [hu]⟩
  | receiver op =>
    obtain ⟨b', e, r, hu, -⟩ := keeping_ok rb h
    exact ⟨{ l with b := b' }, by simp only [Link.step, e, Res.ok_bind], ra, r, by simp only [hu]⟩

/-- **C116.** Whatever the system calls move at a time, and however the buffers are compacted and grow
meanwhile, no byte is lost, doubled or put out of order. -/
theorem link_stream {l l' : Link} (ra : InRange l.a) (rb : InRange l.b) (h : Link.Hist l l') :
    InRange l'.a ∧ InRange l'.b ∧
      unread l'.b ++ l'.wire ++ unread l'.a = unread l.b ++ l.wire ++ unread l.a := by
  induction h with
  | refl => exact ⟨ra, rb, rfl⟩
  | step _ hok hst ih =>
    obtain ⟨r1, r2, hu⟩ := ih
    obtain ⟨l2, e, q1, q2, hu2⟩ := link_step r1 r2 hok
    rw [e] at hst
    injection hst with hst
    subst hst
    exact ⟨q1, q2, hu2.trans hu⟩

/-- **C116.** A message that was put into an empty buffer and has been sent and received, in whatever
pieces, is what the receiver gets, if no memory ran out. -/
theorem link_message {al : Nat → Nat → Alloc UInt8} {a a' b : B} {l' : Link} {vs : List Val}
    (ra : InRange a) (rb : InRange b) (hr : a.rpos = a.wpos) (hv : ∀ v ∈ vs, v.Ok)
    (hput : putAll al a 0 vs = .ok a') (he : a'.err = 0) (hb : b.rpos = b.wpos)
    (h : Link.Hist ⟨a', [], b⟩ l') (hsent : size l'.a = 0) (hrecv : l'.wire = []) (heb : l'.b.err = 0) :
    ∃ b', getAll l'.b vs = .ok (b', vs) ∧ b'.err = 0 ∧ size b' = 0 := by
  obtain ⟨a2, h2, p⟩ := putAll_spec al vs hv (i := 0) ra
  rw [hput] at h2
  injection h2 with h2
  subst h2
  obtain ⟨r1, r2, hu⟩ := link_stream (l := ⟨a', [], b⟩) p.inr rb h
  have hua : unread a' = vs.flatMap Val.encode := by
    rcases p.out with ⟨_, _, hw⟩ | ⟨hne, _⟩
    · have := unread_append ra p.inr p.rpos hw
      have hz : unread a = [] := by simp [unread, slice, hr]
      rwa [hz, List.nil_append] at this
    · exact absurd he hne
  have hub : unread b = [] := by simp [unread, slice, hb]
  have hsz : ∀ {c : B}, InRange c → (size c = 0 ↔ unread c = []) := by
    intro c rc
    have hl := length_unread rc
    have h1 := rc.rpos
    have h2 := rc.wpos
    have h3 := rc.cap
    have hs : size c = c.wpos - c.rpos := by unfold size sub64; omega
    rw [hs, ← List.length_eq_zero_iff, hl]
  rw [(hsz r1).1 hsent, hrecv] at hu
  simp only [hua, hub, List.append_nil, List.nil_append] at hu
  obtain ⟨b', g, rb', e, hu'⟩ := getAll_eq vs hv r2 heb (rest := []) (by simpa using hu)
  exact ⟨b', g, e, (hsz rb').2 hu'⟩

/-! ## Concrete cases -/

/-- A buffer for the example below. -/
def exBuf (mem : List UInt8) (rpos wpos : Nat) : B := ⟨mem, mem.length, BUF_MAX, rpos, wpos, 0, false⟩

-- a message of a number and a string is sent in two pieces and received in two, with a compaction between
example : ∃ a' l', putAll (fun _ _ => none) (init true 16).2 0 [.int .w16 513, .str (some [104, 105])] = .ok a' ∧
    a'.err = 0 ∧ Link.Hist ⟨a', [], (init true 14).2⟩ l' ∧ size l'.a = 0 ∧ l'.wire = [] ∧ l'.b.err = 0 ∧
      l'.b = exBuf [1, 2, 2, 0, 0, 0, 0, 0, 0, 0, 104, 105, 0, 0] 0 13 := by
  let m : List UInt8 := [1, 2, 2, 0, 0, 0, 0, 0, 0, 0, 104, 105, 0, 0, 0, 0]
  let m' : List UInt8 := [2, 0, 0, 0, 0, 0, 0, 0, 104, 105, 0, 105, 0, 0, 0, 0]
  let z : List UInt8 := List.replicate 14 0
  have h0 : (init true 14).2 = exBuf z 0 0 := by decide +kernel
  rw [h0]
  have r1 : Link.Hist ⟨exBuf m 0 13, [], exBuf z 0 0⟩ ⟨exBuf m 2 13, [1, 2], exBuf z 0 0⟩ :=
    Link.Hist.refl.step (op := .send 2) (show 2 ≤ size (exBuf m 0 13) by decide +kernel) (by decide +kernel)
  have r2 : Link.Hist ⟨exBuf m 0 13, [], exBuf z 0 0⟩ ⟨exBuf m' 0 11, [1, 2], exBuf z 0 0⟩ :=
    r1.step (op := .sender .compact) trivial (by decide +kernel)
  have r3 : Link.Hist ⟨exBuf m 0 13, [], exBuf z 0 0⟩ ⟨exBuf m' 0 11, [2], exBuf (z.set 0 1) 0 1⟩ :=
    r2.step (op := .recv 1) (show 1 ≤ quota (exBuf z 0 0) ∧ 1 ≤ 2 by decide +kernel) (by decide +kernel)
  have r4 : Link.Hist ⟨exBuf m 0 13, [], exBuf z 0 0⟩
      ⟨exBuf m' 11 11, [2, 2, 0, 0, 0, 0, 0, 0, 0, 104, 105, 0], exBuf (z.set 0 1) 0 1⟩ :=
    r3.step (op := .send 11) (show 11 ≤ size (exBuf m' 0 11) by decide +kernel) (by decide +kernel)
  have r5 : Link.Hist ⟨exBuf m 0 13, [], exBuf z 0 0⟩
      ⟨exBuf m' 11 11, [], exBuf [1, 2, 2, 0, 0, 0, 0, 0, 0, 0, 104, 105, 0, 0] 0 13⟩ :=
    r4.step (op := .recv 12) (show 12 ≤ quota (exBuf (z.set 0 1) 0 1) ∧ 12 ≤ 12 by decide +kernel) (by decide +kernel)
  exact ⟨_, _, by decide +kernel, rfl, r5, by decide +kernel, rfl, rfl, rfl⟩

end Verif.Buf
