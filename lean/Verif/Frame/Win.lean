import Verif.Frame.Props
import Verif.Sock.WinTransfer

/-!
# Messages with a length in front, over a connection on Windows

What Verif/Frame/Model.lean and Props.lean say for POSIX sockets. The end of the stream is told by `errno`, which other failures leave alone.
-/

namespace Verif.Frame.Win

open Buf (B Val InRange unread valid size quota rbuf wbuf markRead markWrite Keeping)
open Sock (Sock)
open Sock.Io (EOF)
open Sock.WinTransfer (Env World send recv Sent Received Hist streams send_spec recv_spec zero_spec)

/-! ## Model -/

/-- The two ends of a connection: buffer, socket and system of each; how many of the bytes sent the
network has carried over; whether the sender has closed its end. -/
structure Conn where
  a : B
  sa : Sock
  wa : World
  moved : Nat
  closed : Bool
  b : B
  sb : Sock
  wb : World
  deriving DecidableEq

/-- `n = sc_sock_send(s, sc_buf_rbuf(b), len, 0); if (n > 0) sc_buf_mark_read(b, n);`,
buffer/sc_buf.c:176-179, 216-219, socket/sc_sock.c:617-650. `none` if the call has not returned after `fuel` interruptions. -/
def sendSome (e : Env) (fuel : Nat) (len : Int) (c : Conn) : Res (Option (Int × Conn)) := do
  let r ← send e fuel (c.a.mem.drop (rbuf c.a)) len c.wa c.sa
  match r with
  | none => .ok none
  | some (rc, w, s) =>
    .ok (some (rc, { c with wa := w, sa := s, a := if rc > 0 then markRead c.a rc.toNat else c.a }))

/-- `n = sc_sock_recv(s, sc_buf_wbuf(b), len, 0); if (n > 0) sc_buf_mark_write(b, n);`,
buffer/sc_buf.c:181-184, 221-224, socket/sc_sock.c:652-688. -/
def recvSome (e : Env) (fuel : Nat) (len : Int) (c : Conn) : Res (Option (Int × Conn)) := do
  let r ← recv e fuel (c.b.mem.drop (wbuf c.b)) len c.wb c.sb
  match r with
  | none => .ok none
  | some (rc, w, s, mem) =>
    let b := { c.b with mem := c.b.mem.take (wbuf c.b) ++ mem }
    .ok (some (rc, { c with wb := w, sb := s, b := if rc > 0 then markWrite b rc.toNat else b }))

/-- What the thread of the receiver does besides: whether it sets `errno` to 0 before each call of `sc_sock_recv`, and which values its other calls,
for other connections say, may leave there. -/
structure Prog where
  clear : Bool
  left : Int → Prop

/-- `errno = 0`, if the receiver does that -/
def ready (p : Prog) (c : Conn) : Conn :=
  { c with wb := { c.wb with err := { c.wb.err with errno := if p.clear then 0 else c.wb.err.errno } } }

/-- What can happen, in any order. Messages fit in 32 bits; one that could not be written completely is
not sent: the sender closes the connection, or leaves it. Lengths given to the sockets are at most what
is there to be sent, and the room there is. The system tells the receiver about the end, upon which
`sc_sock_recv` sets `errno`, only when the sender has closed its end and everything it sent has arrived. The receiver takes every failure with
that number in `errno` for the end, also if another call left it there. `elsewhere` is such a call. -/
inductive Step (p : Prog) (ea eb : Env) : Conn → Event → Conn → Prop
  | frame {c al vs a} : c.closed = false → (∀ v ∈ vs, v.Ok) → (vs.flatMap Val.encode).length < 2 ^ 32 →
      putFrame al c.a vs = .ok a → valid a = true → Step p ea eb c (.framed vs) { c with a := a }
  | send {c fuel len rc c'} : c.closed = false → 0 ≤ len → len ≤ INT_MAX → len ≤ size c.a →
      sendSome ea fuel len c = .ok (some (rc, c')) → Step p ea eb c .other c'
  | carry {c} (n : Nat) : c.moved + n ≤ c.wa.sent.length →
      Step p ea eb c .other { c with moved := c.moved + n, wb := { c.wb with inp := c.wb.inp ++ (c.wa.sent.drop c.moved).take n } }
  | close {c} : Step p ea eb c .other { c with closed := true }
  | recv {c fuel len rc c'} : 0 ≤ len → len ≤ INT_MAX → len ≤ quota c.b → recvSome eb fuel len (ready p c) = .ok (some (rc, c')) →
      ((ready p c).wb.err.errno ≠ EOF → c'.wb.err.errno = EOF → c.closed = true ∧ c.moved = c.wa.sent.length) →
      Step p ea eb c (if rc = -1 ∧ c'.wb.err.errno = EOF then .eof else .other) c'
  | elsewhere {c v} : p.left v → Step p ea eb c .other { c with wb := { c.wb with err := { c.wb.err with errno := v } } }
  | next {c b bs} : next c.b = .ok (b, some bs) → Step p ea eb c (.got bs) { c with b := b }
  | sender {c op a} : Keeping c.a op → Buf.step c.a op = .ok a → Step p ea eb c .other { c with a := a }
  | receiver {c op b} : Keeping c.b op → Buf.step c.b op = .ok b → Step p ea eb c .other { c with b := b }

inductive Run (p : Prog) (ea eb : Env) : Conn → List Event → Conn → Prop
  | refl {c} : Run p ea eb c [] c
  | step {c c' c'' e es} : Run p ea eb c es c' → Step p ea eb c' e c'' → Run p ea eb c (es ++ [e]) c''

/-- A connection that has just been made: nothing was written, sent or received. -/
structure Conn.Fresh (c : Conn) : Prop where
  a : Buf.InRange c.a ∧ c.a.rpos = c.a.wpos
  b : Buf.InRange c.b ∧ c.b.rpos = c.b.wpos
  sa : c.sa.err.length = 128
  sb : c.sb.err.length = 128
  sent : c.wa.sent = [] ∧ c.moved = 0 ∧ c.wb.inp = []
  closed : c.closed = false

/-! ## The sockets -/

theorem send_effect {e : Env} (he : e.texts.Ok) {fuel : Nat} {buf : List UInt8} {len rc : Int} {w w' : World} {s s' : Sock}
    (hs : s.err.length = 128) (hb : len ≤ buf.length) (h : send e fuel buf len w s = .ok (some (rc, w', s'))) :
    w'.sent = w.sent ++ buf.take rc.toNat ∧ w'.inp = w.inp ∧ s'.err.length = 128 ∧ rc ≤ len := by
  have st := streams he hs (Hist.refl.send hb h)
  refine ⟨by simpa using st.1, by simpa using st.2.1, st.2.2, ?_⟩
  by_cases hz : len ≤ 0
  · rw [(zero_spec hz).1] at h
    cases h
    omega
  · rcases send_spec he hs (w := w) (len := len) (by omega) hb fuel with ⟨k1, -⟩ | ⟨k, -, -, rc', w₁, s₁, k1, -, k3⟩
    · rw [k1] at h
      cases h
    · rw [k1] at h
      cases h
      unfold Sent at k3
      split at k3
      · exact k3.2.1
      · rw [k3.rc]; omega

theorem recv_effect {e : Env} (he : e.texts.Ok) {fuel : Nat} {buf buf' : List UInt8} {len rc : Int} {w w' : World}
    {s s' : Sock} (hs : s.err.length = 128) (_ : 0 ≤ len) (hb : len ≤ buf.length)
    (h : recv e fuel buf len w s = .ok (some (rc, w', s', buf'))) :
    buf'.take rc.toNat ++ w'.inp = w.inp ∧ w'.sent = w.sent ∧ s'.err.length = 128 ∧ rc ≤ len ∧ buf'.length = buf.length ∧
      (w.err.errno ≠ EOF → w'.err.errno = EOF → w.inp = []) := by
  have st := streams he hs (Hist.refl.recv hb h)
  refine ⟨by simpa using st.2.1, by simpa using st.1, st.2.2, ?_⟩
  by_cases hz : len ≤ 0
  · rw [(zero_spec hz).2] at h
    cases h
    exact ⟨by omega, rfl, fun h1 h2 => absurd h2 h1⟩
  · rcases recv_spec he hs (w := w) (len := len) (by omega) hb fuel with ⟨k1, -⟩ | ⟨k, -, -, rc', w₁, s₁, b₁, k1, -, k3⟩
    · rw [k1] at h
      cases h
    · rw [k1] at h
      cases h
      unfold Received at k3
      split at k3
      · obtain ⟨-, -, k6⟩ := k3
        split at k6
        · next hin => exact ⟨by rw [k6.1]; omega, by rw [k6.2.2.2], fun _ _ => hin⟩
        · exact ⟨k6.2.1, k6.2.2.2.2.1, fun h1 h2 => absurd (k6.2.2.2.2.2.symm.trans h2) h1⟩
      · refine ⟨by rw [k3.1.rc]; omega, by rw [k3.2], fun h1 h2 => ?_⟩
        rw [k3.1.errno] at h2
        split at h2
        · exact absurd h2 (by decide)
        · exact absurd h2 h1

/-- The steps of the sender take the oldest bytes of its buffer and append them to what was sent. -/
theorem sendSome_ok {e : Env} (he : e.texts.Ok) {fuel : Nat} {len rc : Int} {c c' : Conn} (r : InRange c.a)
    (hs : c.sa.err.length = 128) (hl : len ≤ size c.a) (h : sendSome e fuel len c = .ok (some (rc, c'))) :
    ∃ n, InRange c'.a ∧ c'.sa.err.length = 128 ∧ c'.wa.sent = c.wa.sent ++ (unread c.a).take n ∧ unread c'.a = (unread c.a).drop n ∧
      c'.moved = c.moved ∧ c'.closed = c.closed ∧ c'.b = c.b ∧ c'.sb = c.sb ∧ c'.wb = c.wb := by
  have h1 := r.rpos
  have h2 := r.wpos
  have h3 := r.cap
  have h4 := r.mem
  have hsz := size_eq r
  have hul := Buf.length_unread r
  unfold sendSome at h
  obtain ⟨x, hx, h⟩ := Res.bind_eq_ok.1 h
  match x, h with
  | some (n, w, s), h =>
    injection h with h
    injection h with h
    injection h with hn hc
    subst hn hc
    obtain ⟨k1, k2, k3, k4⟩ := send_effect he hs (by simp only [List.length_drop, rbuf]; omega) hx
    refine ⟨n.toNat, ?_⟩
    have htake : (c.a.mem.drop (rbuf c.a)).take n.toNat = (unread c.a).take n.toNat := by
      simp only [rbuf, unread, slice, List.take_take]
      rw [Nat.min_eq_left (by omega)]
    rw [htake] at k1
    by_cases hp : n > 0
    · have hm : markRead c.a n.toNat = { c.a with rpos := c.a.rpos + n.toNat } := by
        unfold markRead
        rw [Buf.add64_lt (by omega)]
      rw [if_pos hp, hm]
      exact ⟨r.advance (n := c.a.rpos + n.toNat) (by omega), k3, k1, Buf.unread_advance r (by omega), rfl, rfl, rfl, rfl, rfl⟩
    · rw [if_neg hp]
      refine ⟨r, k3, k1, ?_, rfl, rfl, rfl, rfl, rfl⟩
      rw [show n.toNat = 0 by omega]
      rfl

/-- The steps of the receiver append the oldest bytes that came in to its buffer. -/
theorem recvSome_ok {e : Env} (he : e.texts.Ok) {fuel : Nat} {len rc : Int} {c c' : Conn} (r : InRange c.b)
    (hs : c.sb.err.length = 128) (h0 : 0 ≤ len) (hl : len ≤ quota c.b) (h : recvSome e fuel len c = .ok (some (rc, c'))) :
    InRange c'.b ∧ c'.sb.err.length = 128 ∧ unread c'.b ++ c'.wb.inp = unread c.b ++ c.wb.inp ∧ (c.wb.inp = [] → c'.wb.inp = []) ∧
      (c.wb.err.errno ≠ EOF → c'.wb.err.errno = EOF → c.wb.inp = []) ∧
      c'.moved = c.moved ∧ c'.closed = c.closed ∧ c'.a = c.a ∧ c'.sa = c.sa ∧ c'.wa = c.wa := by
  have h1 := r.rpos
  have h2 := r.wpos
  have h3 := r.cap
  have h4 := r.mem
  have hq : quota c.b = c.b.cap - c.b.wpos := by unfold quota sub64; omega
  unfold recvSome at h
  obtain ⟨x, hx, h⟩ := Res.bind_eq_ok.1 h
  match x, h with
  | some (n, w, s, mem), h =>
    injection h with h
    injection h with h
    injection h with hn hc
    subst hn hc
    obtain ⟨k1, -, k3, k4, k5, k6⟩ := recv_effect he hs h0 (by simp only [List.length_drop, wbuf]; omega) hx
    simp only [wbuf, List.length_drop] at k5
    have hnil : c.wb.inp = [] → w.inp = [] := fun h => by
      rw [h] at k1
      exact (List.append_eq_nil_iff.1 k1).2
    have hml : (c.b.mem.take c.b.wpos ++ mem).length = c.b.cap := by simp; omega
    have r1 : InRange { c.b with mem := c.b.mem.take c.b.wpos ++ mem } := ⟨hml, h1, h2, h3⟩
    have hw1 : Buf.written { c.b with mem := c.b.mem.take c.b.wpos ++ mem } = Buf.written c.b := by
      simp only [Buf.written, slice, List.drop_zero]
      rw [List.take_left' (by simp; omega)]
    by_cases hp : n > 0
    · have hm : markWrite { c.b with mem := c.b.mem.take c.b.wpos ++ mem } n.toNat =
          { c.b with mem := c.b.mem.take c.b.wpos ++ mem, wpos := c.b.wpos + n.toNat } := by
        unfold markWrite
        rw [Buf.add64_lt (by simp only; omega)]
      have r2 : InRange { c.b with mem := c.b.mem.take c.b.wpos ++ mem, wpos := c.b.wpos + n.toNat } :=
        ⟨hml, by simp only; omega, by simp only; omega, h3⟩
      unfold wbuf
      rw [if_pos hp, hm]
      refine ⟨r2, k3, ?_, hnil, k6, rfl, rfl, rfl, rfl, rfl⟩
      have hu : unread { c.b with mem := c.b.mem.take c.b.wpos ++ mem, wpos := c.b.wpos + n.toNat } =
          unread c.b ++ mem.take n.toNat := by
        refine Buf.unread_append r r2 rfl ?_
        simp only [Buf.written, slice, List.drop_zero]
        rw [List.take_append, List.take_take, List.length_take, Nat.min_eq_right (by omega), Nat.min_eq_left (by omega),
          show c.b.wpos + n.toNat - c.b.wpos = n.toNat by omega]
      rw [hu, List.append_assoc, k1]
    · unfold wbuf
      rw [if_neg hp]
      refine ⟨r1, k3, ?_, hnil, k6, rfl, rfl, rfl, rfl, rfl⟩
      have hu : unread { c.b with mem := c.b.mem.take c.b.wpos ++ mem } = unread c.b := by
        have := Buf.unread_append r r1 rfl (bs := []) (by rw [hw1]; simp)
        simpa using this
      rw [show n.toNat = 0 by omega, List.take_zero, List.nil_append] at k1
      rw [hu, k1]

/-! ## The connection -/

/-- The invariant: the messages not taken out yet are, in order, in the receiver's buffer, with the
receiver's system, under way, and in the sender's buffer. If `q`, the number of the end in `errno` is this
connection's, or is cleared. -/
structure Inv (p : Prog) (q : Prop) (es : List Event) (c : Conn) : Prop where
  a : InRange c.a
  b : InRange c.b
  sa : c.sa.err.length = 128
  sb : c.sb.err.length = 128
  moved : c.moved ≤ c.wa.sent.length
  small : ∀ vs ∈ written es, (bytes vs).length < 2 ^ 32
  flow : ∃ more, (written es).map bytes = taken es ++ more ∧
    unread c.b ++ c.wb.inp ++ c.wa.sent.drop c.moved ++ unread c.a = more.flatMap frame
  ended : q → Event.eof ∈ es ∨ (p.clear = false ∧ c.wb.err.errno = EOF) → c.closed = true ∧ c.moved = c.wa.sent.length ∧ c.wb.inp = []

theorem Inv.other {p : Prog} {q : Prop} {es : List Event} {c c' : Conn} (i : Inv p q es c) (a : InRange c'.a) (b : InRange c'.b) (sa : c'.sa.err.length = 128)
    (sb : c'.sb.err.length = 128) (m : c'.moved ≤ c'.wa.sent.length)
    (f : unread c'.b ++ c'.wb.inp ++ c'.wa.sent.drop c'.moved ++ unread c'.a =
      unread c.b ++ c.wb.inp ++ c.wa.sent.drop c.moved ++ unread c.a)
    (en : q → Event.eof ∈ es ∨ (p.clear = false ∧ c'.wb.err.errno = EOF) → c'.closed = true ∧ c'.moved = c'.wa.sent.length ∧ c'.wb.inp = []) : Inv p q (es ++ [.other]) c' := by
  refine ⟨a, b, sa, sb, m, ?_, ?_, ?_⟩
  · rw [written_append]; simpa [written] using i.small
  · rw [written_append, taken_append, f]; simpa [written, taken] using i.flow
  · intro hq h
    exact en hq (by simpa using h)

theorem Inv.step {q : Prop} {p : Prog} {ea eb : Env} (hl : q → p.clear = true ∨ ¬ p.left EOF) (ha : ea.texts.Ok) (hb : eb.texts.Ok) {es : List Event}
    {c c' : Conn} {ev : Event} (i : Inv p q es c) (h : Step p ea eb c ev c') : Inv p q (es ++ [ev]) c' := by
  obtain ⟨more, f1, f2⟩ := i.flow
  cases h with
  | @frame al vs a hcl hv hlen hput hval =>
    obtain ⟨a', e, r, -, hu⟩ := putFrame_ok al i.a hv hlen
    rw [hput] at e
    cases e
    refine ⟨r, i.b, i.sa, i.sb, i.moved, ?_, ⟨more ++ [bytes vs], ?_, ?_⟩, ?_⟩
    · rw [written_append]
      intro x hx
      rcases List.mem_append.1 hx with hx | hx
      · exact i.small x hx
      · simp only [written, List.mem_singleton] at hx
        subst hx
        exact hlen
    · rw [written_append, taken_append, List.map_append, f1]
      simp [written, taken]
    · simp only [(hu hval).2]
      rw [← List.append_assoc, f2]
      simp
    · intro hq hm
      have := (i.ended hq (by simpa using hm)).1
      rw [hcl] at this
      cases this
  | @send fuel len rc _ hcl h0 h1 h2 hs =>
    obtain ⟨n, k1, k2, k3, k4, k5, k6, k7, k8, k9⟩ := sendSome_ok ha i.a i.sa h2 hs
    have hm := i.moved
    refine i.other k1 (by rw [k7]; exact i.b) k2 (by rw [k8]; exact i.sb) (by rw [k5, k3, List.length_append]; omega) ?_ ?_
    · rw [k7, k9, k5, k3, k4, List.drop_append_of_le_length hm]
      simp only [List.append_assoc, List.take_append_drop]
    · intro hq hm
      rw [k9] at hm
      have := (i.ended hq hm).1
      rw [hcl] at this
      cases this
  | carry n hn =>
    refine i.other i.a i.b i.sa i.sb hn ?_ ?_
    · simp only [List.append_assoc]
      congr 2
      rw [← List.append_assoc, ← List.drop_drop, List.take_append_drop]
    · intro hq hm
      obtain ⟨e1, e2, e3⟩ := i.ended hq hm
      have hz : n = 0 := by omega
      subst hz
      exact ⟨e1, e2, by simpa using e3⟩
  | close => exact i.other i.a i.b i.sa i.sb i.moved rfl fun hq hm => ⟨rfl, (i.ended hq hm).2⟩
  | @recv fuel len rc _ h0 h1 h2 hs hn =>
    obtain ⟨k1, k2, k3, kn, k4, k5, k6, k7, k8, k9⟩ := recvSome_ok (c := ready p c) hb i.b i.sb h0 h2 hs
    have hend : q → Event.eof ∈ es ∨ c'.wb.err.errno = EOF → c'.closed = true ∧ c'.moved = c'.wa.sent.length ∧ c'.wb.inp = [] := by
      intro hq hm
      have hold : c.closed = true ∧ c.moved = c.wa.sent.length ∧ c.wb.inp = [] := by
        by_cases he : (ready p c).wb.err.errno = EOF
        · refine i.ended hq (.inr ?_)
          cases hc : p.clear with
          | false => exact ⟨rfl, by simpa [ready, hc] using he⟩
          | true => simp [ready, hc, EOF] at he
        · rcases hm with hm | hm
          · exact i.ended hq (.inl hm)
          · exact ⟨(hn he hm).1, (hn he hm).2, k4 he hm⟩
      exact ⟨by rw [k6]; exact hold.1, by rw [k5, k9]; exact hold.2.1, kn hold.2.2⟩
    by_cases he : rc = -1 ∧ c'.wb.err.errno = EOF
    · rw [if_pos he]
      refine ⟨by rw [k7]; exact i.a, k1, by rw [k8]; exact i.sa, k2, by rw [k5, k9]; exact i.moved, ?_, ⟨more, ?_, ?_⟩, ?_⟩
      · rw [written_append]; simpa [written] using i.small
      · rw [written_append, taken_append]; simpa [written, taken] using f1
      · rw [k3, k5, k9, k7]; exact f2
      · exact fun hq _ => hend hq (.inr he.2)
    · rw [if_neg he]
      refine i.other (by rw [k7]; exact i.a) k1 (by rw [k8]; exact i.sa) k2 (by rw [k5, k9]; exact i.moved) ?_ ?_
      · rw [k3, k5, k9, k7]; rfl
      · exact fun hq hm => hend hq (hm.imp id And.right)
  | @elsewhere v hv =>
    refine i.other i.a i.b i.sa i.sb i.moved rfl fun hq hm => i.ended hq ?_
    rcases hm with hm | ⟨hm1, rfl⟩
    · exact .inl hm
    · rcases hl hq with h | h
      · rw [hm1] at h; cases h
      · exact absurd hv h
  | @next b bs hn =>
    rcases next_any i.b with ⟨e, -⟩ | ⟨-, bs', b', hl, e, r, -, hu⟩
    · rw [hn] at e; cases e
    · rw [hn] at e
      cases e
      rw [hu] at f2
      simp only [List.append_assoc] at f2
      match more, f1, f2 with
      | [], _, f2 =>
        have := congrArg List.length f2
        rw [List.length_append, frame_length] at this
        simp at this
      | m :: more, f1, f2 =>
        rw [List.flatMap_cons] at f2
        have hml : m.length < 2 ^ 32 := by
          have : m ∈ (written es).map bytes := by rw [f1]; simp
          obtain ⟨vs, hvs, rfl⟩ := List.mem_map.1 this
          exact i.small vs hvs
        obtain ⟨rfl, f3⟩ := frame_inj hl hml f2
        refine ⟨i.a, r, i.sa, i.sb, i.moved, ?_, ⟨more, ?_, ?_⟩, ?_⟩
        · rw [written_append]; simpa [written] using i.small
        · rw [written_append, taken_append]; simpa [written, taken] using f1
        · simpa [List.append_assoc] using f3
        · intro hq hm
          exact i.ended hq (by simpa using hm)
  | @sender op a hk hs =>
    obtain ⟨a', e, r, hu, -⟩ := Buf.keeping_ok i.a hk
    rw [hs] at e
    cases e
    exact i.other r i.b i.sa i.sb i.moved (by simp only [hu]) fun hq hm => i.ended hq hm
  | @receiver op b hk hs =>
    obtain ⟨b', e, r, hu, -⟩ := Buf.keeping_ok i.b hk
    rw [hs] at e
    cases e
    exact i.other i.a r i.sa i.sb i.moved (by simp only [hu]) fun hq hm => i.ended hq hm

theorem Conn.Fresh.inv {p : Prog} {q : Prop} {c : Conn} (f : c.Fresh) (hq : q → p.clear = true ∨ c.wb.err.errno ≠ EOF) : Inv p q [] c := by
  refine ⟨f.a.1, f.b.1, f.sa, f.sb, by rw [f.sent.2.1]; omega, by simp [written], ⟨[], rfl, ?_⟩, fun h hm => by
    rcases hm with hm | ⟨h1, h2⟩
    · simp at hm
    · rcases hq h with h | h
      · rw [h1] at h; cases h
      · exact absurd h2 h⟩
  have h1 : unread c.a = [] := by simp [unread, slice, f.a.2]
  have h2 : unread c.b = [] := by simp [unread, slice, f.b.2]
  rw [h1, h2, f.sent.1, f.sent.2.2]
  simp

theorem Run.inv {q : Prop} {p : Prog} {ea eb : Env} (ha : ea.texts.Ok) (hb : eb.texts.Ok) {es : List Event}
    {c c' : Conn} (f : c.Fresh) (hq : q → p.clear = true ∨ (c.wb.err.errno ≠ EOF ∧ ¬ p.left EOF)) (h : Run p ea eb c es c') : Inv p q es c' := by
  induction h with
  | refl => exact f.inv fun h => (hq h).imp id And.left
  | step _ hs ih => exact ih.step (fun h => (hq h).imp id And.right) ha hb hs

/-! ## Theorems -/

/-- **C165.** However the sockets cut the stream, however calls are interrupted or fail, and whatever
compacting, reserving and shrinking happens meanwhile, the messages that the receiver takes out are the
first of those that the sender wrote, byte by byte and in order. -/
theorem in_order {p : Prog} {ea eb : Env} (ha : ea.texts.Ok) (hb : eb.texts.Ok) {es : List Event}
    {c c' : Conn} (f : c.Fresh) (h : Run p ea eb c es c') : taken es <+: (written es).map bytes := by
  obtain ⟨more, f1, -⟩ := (h.inv (q := False) ha hb f False.elim).flow
  exact ⟨more, f1.symm⟩

/-- **C165.** Nothing is held back: when all is sent, carried over and received and the receiver finds no
message in its buffer, it has had them all. -/
theorem complete {p : Prog} {ea eb : Env} (ha : ea.texts.Ok) (hb : eb.texts.Ok) {es : List Event}
    {c c' : Conn} (f : c.Fresh) (h : Run p ea eb c es c') (h1 : size c'.a = 0) (h2 : c'.moved = c'.wa.sent.length)
    (h3 : c'.wb.inp = []) (h4 : valid c'.b = true) (h5 : next c'.b = .ok (c'.b, none)) :
    taken es = (written es).map bytes ∧ size c'.b = 0 := by
  have i := h.inv (q := False) ha hb f False.elim
  obtain ⟨more, f1, f2⟩ := i.flow
  rw [(size_zero i.a).1 h1, h2, h3] at f2
  simp only [List.drop_length, List.append_nil] at f2
  match more, f1, f2 with
  | [], f1, f2 => exact ⟨by rw [f1]; simp, (size_zero i.b).2 (by simpa using f2)⟩
  | m :: more, f1, f2 =>
    exfalso
    have hml : m.length < 2 ^ 32 := by
      have : m ∈ (written es).map bytes := by rw [f1]; simp
      obtain ⟨vs, hvs, rfl⟩ := List.mem_map.1 this
      exact i.small vs hvs
    rw [List.flatMap_cons] at f2
    rcases next_any i.b with ⟨-, hno⟩ | ⟨-, bs, b', -, e, -⟩
    · exact hno h4 m _ hml f2
    · rw [h5] at e
      cases e

/-- **C165, in part.** When the receiver has been told about the end and finds no further message, it has had every
message, if the sender had sent all it wrote before it closed its end, and either the receiver sets `errno` to 0 before
each call, or neither what happened before nor its other calls leave the number of the end there: for that see `at_end_violated`. -/
theorem at_end_partial {p : Prog} {ea eb : Env} (ha : ea.texts.Ok) (hb : eb.texts.Ok) {es : List Event}
    {c c' : Conn} (f : c.Fresh) (hq : p.clear = true ∨ (c.wb.err.errno ≠ EOF ∧ ¬ p.left EOF)) (h : Run p ea eb c es c') (hm : Event.eof ∈ es) (h1 : size c'.a = 0) (h4 : valid c'.b = true)
    (h5 : next c'.b = .ok (c'.b, none)) : taken es = (written es).map bytes ∧ size c'.b = 0 := by
  obtain ⟨-, h2, h3⟩ := (h.inv (q := True) ha hb f fun _ => hq).ended trivial (.inl hm)
  exact complete ha hb f h h1 h2 h3 h4 h5

/-- **C165.** Nothing the programs do is undefined, at any time. -/
theorem defined {p : Prog} {ea eb : Env} (ha : ea.texts.Ok) (hb : eb.texts.Ok) {es : List Event}
    {c c' : Conn} (f : c.Fresh) (h : Run p ea eb c es c') :
    (∀ al vs, (∀ v ∈ vs, v.Ok) → (bytes vs).length < 2 ^ 32 → putFrame al c'.a vs ≠ .ub) ∧
    (∀ fuel len, 0 ≤ len → len ≤ (size c'.a : Int) → sendSome ea fuel len c' ≠ .ub) ∧
    (∀ fuel len, 0 ≤ len → len ≤ (quota c'.b : Int) → recvSome eb fuel len (ready p c') ≠ .ub) ∧
    next c'.b ≠ .ub := by
  have i := h.inv (q := False) ha hb f False.elim
  refine ⟨fun al vs hv hl => ?_, fun fuel len h0 hl => ?_, fun fuel len h0 hl => ?_, ?_⟩
  · obtain ⟨b, e, -⟩ := putFrame_ok al i.a hv hl
    rw [e]
    exact fun h => by cases h
  · have hsz := size_eq i.a
    have hul := Buf.length_unread i.a
    have h1 := i.a.rpos
    have h2 := i.a.wpos
    have h4 := i.a.mem
    have : send ea fuel (c'.a.mem.drop (rbuf c'.a)) len c'.wa c'.sa ≠ .ub := by
      by_cases hz : len ≤ 0
      · rw [(zero_spec hz).1]
        exact fun h => by cases h
      · rcases send_spec ha i.sa (buf := c'.a.mem.drop (rbuf c'.a)) (len := len) (w := c'.wa) (by omega)
            (by simp only [List.length_drop, rbuf]; omega) fuel with ⟨e, -⟩ | ⟨k, -, -, rc, w, s, e, -⟩ <;> rw [e] <;> exact fun h => by cases h
    unfold sendSome
    cases hr : send ea fuel (c'.a.mem.drop (rbuf c'.a)) len c'.wa c'.sa with
    | ub => exact absurd hr this
    | ok x =>
      rw [Res.ok_bind]
      match x with
      | none => exact fun h => by cases h
      | some (rc, w, s) => exact fun h => by cases h
  · have h1 := i.b.rpos
    have h2 := i.b.wpos
    have h3 := i.b.cap
    have h4 := i.b.mem
    have hq : quota c'.b = c'.b.cap - c'.b.wpos := by unfold quota sub64; omega
    have : recv eb fuel (c'.b.mem.drop (wbuf c'.b)) len (ready p c').wb c'.sb ≠ .ub := by
      by_cases hz : len ≤ 0
      · rw [(zero_spec hz).2]
        exact fun h => by cases h
      · rcases recv_spec hb i.sb (buf := c'.b.mem.drop (wbuf c'.b)) (len := len) (w := (ready p c').wb) (by omega)
            (by simp only [List.length_drop, wbuf]; omega) fuel with ⟨e, -⟩ | ⟨k, -, -, rc, w, s, m, e, -⟩ <;> rw [e] <;> exact fun h => by cases h
    show ((recv eb fuel (c'.b.mem.drop (wbuf c'.b)) len (ready p c').wb c'.sb) >>= _) ≠ _
    cases hr : recv eb fuel (c'.b.mem.drop (wbuf c'.b)) len (ready p c').wb c'.sb with
    | ub => exact absurd hr this
    | ok x =>
      rw [Res.ok_bind]
      match x with
      | none => exact fun h => by cases h
      | some (rc, w, s, m) => exact fun h => by cases h
  · rcases next_any i.b with ⟨e, -⟩ | ⟨-, bs, b', -, e, -⟩ <;> rw [e] <;> exact fun h => by cases h

end Verif.Frame.Win
