import Verif.Sock.Again

/-!
# Model of socket/sc_sock.c: sending, receiving, accepting and timeouts on Windows

The functions of Windows report errors by `WSAGetLastError`; `errno` belongs to the C library and only
changes where sc_sock.c assigns to it. Allowing an event to be told again after a transfer that would
block is modelled in `Verif.Poll.Win`.
-/

namespace Verif.Sock.WinTransfer

open Win (W Texts)
open Io (EOF timeval)

def WSAEINTR : Int := 10004
def WSAEWOULDBLOCK : Int := 10035

/-- Whether and how the n-th call fails, how many bytes it moves at most, less one, and texts -/
structure Env where
  call : Nat → Option Int
  amount : Nat → Nat
  texts : Texts

/-- The errors, the number of calls so far and the two streams of a socket -/
structure World where
  err : W
  n : Nat
  sent : List UInt8
  inp : List UInt8
  deriving DecidableEq

/-- A call that has failed -/
def World.failed (w : World) (er : Int) : World := { w with n := w.n + 1, err := { w.err with last := er } }

/-- `send` of `len > 0` bytes at the start of `buf`: `SOCKET_ERROR` is -1. -/
def ksend (e : Env) (buf : List UInt8) (len : Nat) (w : World) : Res (Int × World) :=
  match e.call w.n with
  | some er => .ok (-1, w.failed er)
  | none =>
    let m := min (e.amount w.n + 1) len
    if m ≤ buf.length then .ok (m, { w with n := w.n + 1, sent := w.sent ++ slice buf 0 m }) else .ub

/-- `recv` of up to `len > 0` bytes to the start of `buf` -/
def krecv (e : Env) (buf : List UInt8) (len : Nat) (w : World) : Res (Int × World × List UInt8) :=
  match e.call w.n with
  | some er => .ok (-1, w.failed er, buf)
  | none =>
    let m := min (min (e.amount w.n + 1) len) w.inp.length
    if m ≤ buf.length then .ok (m, { w with n := w.n + 1, inp := w.inp.drop m }, splice buf 0 (w.inp.take m)) else .ub

/-- `errno = EAGAIN`, socket/sc_sock.c:641 and 679 -/
def World.again (w : World) : World := { w with err := { w.err with errno := EAGAIN } }

/-- The label `retry` of `sc_sock_send`, socket/sc_sock.c:625-649 -/
def sendLoop (e : Env) (buf : List UInt8) (len : Nat) : Nat → World → Sock → Res (Option (Int × World × Sock))
  | 0, _, _ => .ok none
  | fuel + 1, w, s => do
    let (n, w) ← ksend e buf len w
    if n = -1 then
      if w.err.last = WSAEINTR then sendLoop e buf len fuel w s
      else if w.err.last = WSAEWOULDBLOCK then .ok (some (-1, w.again, s))
      else do
        let s ← Win.errstr e.texts w.err s
        .ok (some (-1, w, s))
    else .ok (some (n, w, s))

/-- `sc_sock_send`, socket/sc_sock.c:617-650 -/
def send (e : Env) (fuel : Nat) (buf : List UInt8) (len : Int) (w : World) (s : Sock) :
    Res (Option (Int × World × Sock)) :=
  if len ≤ 0 then .ok (some (len, w, s)) else sendLoop e buf len.toNat fuel w s

/-- The label `retry` of `sc_sock_recv`, socket/sc_sock.c:660-687 -/
def recvLoop (e : Env) (len : Nat) : Nat → List UInt8 → World → Sock →
    Res (Option (Int × World × Sock × List UInt8))
  | 0, _, _, _ => .ok none
  | fuel + 1, buf, w, s => do
    let (n, w, buf) ← krecv e buf len w
    if n = 0 then .ok (some (-1, { w with err := { w.err with errno := EOF } }, s, buf))
    else if n = -1 then
      if w.err.last = WSAEINTR then recvLoop e len fuel buf w s
      else if w.err.last = WSAEWOULDBLOCK then .ok (some (-1, w.again, s, buf))
      else do
        let s ← Win.errstr e.texts w.err s
        .ok (some (-1, w, s, buf))
    else .ok (some (n, w, s, buf))

/-- `sc_sock_recv`, socket/sc_sock.c:652-688 -/
def recv (e : Env) (fuel : Nat) (buf : List UInt8) (len : Int) (w : World) (s : Sock) :
    Res (Option (Int × World × Sock × List UInt8)) :=
  if len ≤ 0 then .ok (some (len, w, s, buf)) else recvLoop e len.toNat fuel buf w s

/-- The part of `sc_sock_accept` for a call that takes no connection, socket/sc_sock.c:697-705 -/
def refuse (e : Env) (er : Int) (w : World) (s : Sock) : Res (Int × World × Sock) :=
  let w := w.failed er
  if s.blocking = false ∧ w.err.last = WSAEWOULDBLOCK then .ok (-1, w.again, s)
  else do
    let s ← Win.errstr e.texts w.err s
    .ok (-1, w, s)

/-- What is left of a failure: nothing is moved; what would block is told by `errno` and has no text,
all others leave `errno` alone and have the text of the error, if the system has one. -/
structure Refused (e : Env) (er : Int) (w : World) (s : Sock) (rc : Int) (w' : World) (s' : Sock) : Prop where
  rc : rc = -1
  sent : w'.sent = w.sent
  inp : w'.inp = w.inp
  errno : w'.err.errno = if er = WSAEWOULDBLOCK then EAGAIN else w.err.errno
  text : if er = WSAEWOULDBLOCK then s' = s else ∃ err, s' = { s with err := err } ∧
    (∀ m, e.texts.fmt er = some m → Shows err m) ∧ (e.texts.fmt er = none → err = s.err)

/-- What the caller of `sc_sock_send` gets, with `r` the outcome of the call that was not interrupted -/
def Sent (e : Env) (r : Option Int) (buf : List UInt8) (len : Int) (w : World) (s : Sock) (rc : Int) (w' : World) (s' : Sock) : Prop :=
  match r with
  | none => 1 ≤ rc ∧ rc ≤ len ∧ w'.sent = w.sent ++ buf.take rc.toNat ∧ w'.inp = w.inp ∧ s' = s ∧ w'.err.errno = w.err.errno
  | some er => Refused e er w s rc w' s'

/-- What the caller of `sc_sock_recv` gets -/
def Received (e : Env) (r : Option Int) (buf : List UInt8) (len : Int) (w : World) (s : Sock) (rc : Int) (w' : World)
    (s' : Sock) (buf' : List UInt8) : Prop :=
  match r with
  | none => w'.sent = w.sent ∧ s' = s ∧
    if w.inp = [] then rc = -1 ∧ w'.err.errno = EOF ∧ w'.inp = [] ∧ buf' = buf
    else 1 ≤ rc ∧ rc ≤ len ∧ buf'.take rc.toNat ++ w'.inp = w.inp ∧ buf'.drop rc.toNat = buf.drop rc.toNat ∧
      buf'.length = buf.length ∧ w'.err.errno = w.err.errno
  | some er => Refused e er w s rc w' s' ∧ buf' = buf

/-- From call number `n` on, `k` calls are interrupted and the next is not. -/
structure Interrupted (call : Nat → Option Int) (n k : Nat) : Prop where
  before : ∀ j < k, call (n + j) = some WSAEINTR
  then_ : call (n + k) ≠ some WSAEINTR

theorem Interrupted.step {call : Nat → Option Int} {n k : Nat} (h0 : call n = some WSAEINTR) (h : Interrupted call (n + 1) k) :
    Interrupted call n (k + 1) := by
  refine ⟨fun j hj => ?_, by have := h.then_; rwa [show n + 1 + k = n + (k + 1) by omega] at this⟩
  cases j with
  | zero => exact h0
  | succ j => have := h.before j (by omega); rwa [show n + 1 + j = n + (j + 1) by omega] at this

theorem refused {e : Env} (he : e.texts.Ok) {er : Int} {w : World} {s : Sock} (hs : s.err.length = 128)
    (h : er ≠ WSAEWOULDBLOCK) : ∃ s', Win.errstr e.texts (w.failed er).err s = .ok s' ∧ s'.err.length = 128 ∧
      Refused e er w s (-1) (w.failed er) s' := by
  obtain ⟨err, m1, m2, m3, m4⟩ := Win.errstr_ok he (w := (w.failed er).err) hs
  exact ⟨_, m1, m2, rfl, rfl, rfl, by rw [if_neg h]; rfl, by rw [if_neg h]; exact ⟨err, rfl, m3, m4⟩⟩

theorem refused_again (e : Env) (w : World) (s : Sock) :
    Refused e WSAEWOULDBLOCK w s (-1) (w.failed WSAEWOULDBLOCK).again s :=
  ⟨rfl, rfl, rfl, rfl, by rw [if_pos rfl]⟩

theorem Refused.of_failed {e : Env} {er x : Int} {w : World} {s : Sock} {rc : Int} {w' : World} {s' : Sock}
    (h : Refused e er (w.failed x) s rc w' s') : Refused e er w s rc w' s' :=
  ⟨h.rc, h.sent, h.inp, h.errno, h.text⟩

theorem sendLoop_ok {e : Env} (he : e.texts.Ok) {buf : List UInt8} {len : Nat} {s : Sock} (hs : s.err.length = 128)
    (hlen : 0 < len) (hb : len ≤ buf.length) : ∀ (fuel : Nat) (w : World),
    (sendLoop e buf len fuel w s = .ok none ∧ ∀ j < fuel, e.call (w.n + j) = some WSAEINTR) ∨
    ∃ k < fuel, Interrupted e.call w.n k ∧ ∃ rc w' s', sendLoop e buf len fuel w s = .ok (some (rc, w', s')) ∧
      s'.err.length = 128 ∧ Sent e (e.call (w.n + k)) buf len w s rc w' s' := by
  intro fuel
  induction fuel with
  | zero => intro w; exact .inl ⟨rfl, fun j hj => absurd hj (by omega)⟩
  | succ fuel ih =>
    intro w
    unfold sendLoop ksend
    cases hc : e.call w.n with
    | none =>
      simp only
      rw [if_pos (by omega)]
      simp only [Res.ok_bind]
      rw [if_neg (by omega)]
      refine .inr ⟨0, by omega, ⟨fun j hj => absurd hj (by omega), by rw [Nat.add_zero, hc]; exact fun h => by cases h⟩,
        _, _, _, rfl, hs, ?_⟩
      rw [Nat.add_zero, hc]
      refine ⟨by omega, by omega, ?_, rfl, rfl, rfl⟩
      simp [slice]
    | some er =>
      simp only [Res.ok_bind, if_true]
      by_cases hi : er = WSAEINTR
      · subst hi
        rw [if_pos (show (w.failed WSAEINTR).err.last = WSAEINTR from rfl)]
        rcases ih (w.failed WSAEINTR) with ⟨i1, i2⟩ | ⟨k, hk, i1, rc, w', s', i2, i3, i4⟩
        · refine .inl ⟨i1, fun j hj => ?_⟩
          cases j with
          | zero => exact hc
          | succ j => have := i2 j (by omega); rwa [show (w.failed WSAEINTR).n + j = w.n + (j + 1) by simp [World.failed]; omega] at this
        · refine .inr ⟨k + 1, by omega, i1.step hc, rc, w', s', i2, i3, ?_⟩
          rw [show (w.failed WSAEINTR).n + k = w.n + (k + 1) by simp [World.failed]; omega] at i4
          unfold Sent at i4 ⊢
          split at i4
          · exact i4
          · exact i4.of_failed
      · rw [if_neg (show (w.failed er).err.last ≠ WSAEINTR from hi)]
        have hI : Interrupted e.call w.n 0 := ⟨fun j hj => absurd hj (by omega), by
          rw [Nat.add_zero, hc]; exact fun h => hi (by cases h; rfl)⟩
        by_cases ha : er = WSAEWOULDBLOCK
        · subst ha
          rw [if_pos (show (w.failed WSAEWOULDBLOCK).err.last = WSAEWOULDBLOCK from rfl)]
          refine .inr ⟨0, by omega, hI, _, _, _, rfl, hs, ?_⟩
          rw [Nat.add_zero, hc]
          exact refused_again e w s
        · rw [if_neg (show (w.failed er).err.last ≠ WSAEWOULDBLOCK from ha)]
          obtain ⟨s', m1, m2, m3⟩ := refused he (w := w) hs ha
          rw [m1]
          refine .inr ⟨0, by omega, hI, _, _, _, rfl, m2, ?_⟩
          rw [Nat.add_zero, hc]
          exact m3

theorem recvLoop_ok {e : Env} (he : e.texts.Ok) {len : Nat} {s : Sock} (hs : s.err.length = 128)
    (hlen : 0 < len) : ∀ (fuel : Nat) (buf : List UInt8) (w : World), len ≤ buf.length →
    (recvLoop e len fuel buf w s = .ok none ∧ ∀ j < fuel, e.call (w.n + j) = some WSAEINTR) ∨
    ∃ k < fuel, Interrupted e.call w.n k ∧ ∃ rc w' s' buf', recvLoop e len fuel buf w s = .ok (some (rc, w', s', buf')) ∧
      s'.err.length = 128 ∧ Received e (e.call (w.n + k)) buf len w s rc w' s' buf' := by
  intro fuel
  induction fuel with
  | zero => intro buf w hb; exact .inl ⟨rfl, fun j hj => absurd hj (by omega)⟩
  | succ fuel ih =>
    intro buf w hb
    unfold recvLoop krecv
    cases hc : e.call w.n with
    | none =>
      simp only
      rw [if_pos (by omega)]
      simp only [Res.ok_bind]
      have hI : Interrupted e.call w.n 0 := ⟨fun j hj => absurd hj (by omega), by
        rw [Nat.add_zero, hc]; exact fun h => by cases h⟩
      by_cases hin : w.inp = []
      · rw [if_pos (by rw [hin]; simp)]
        refine .inr ⟨0, by omega, hI, _, _, _, _, rfl, hs, ?_⟩
        rw [Nat.add_zero, hc]
        refine ⟨rfl, rfl, ?_⟩
        rw [if_pos hin]
        exact ⟨rfl, rfl, by simp [hin], by simp [hin, splice]⟩
      · have hpos : 0 < w.inp.length := List.length_pos_iff.2 hin
        rw [if_neg (by omega), if_neg (by omega)]
        refine .inr ⟨0, by omega, hI, _, _, _, _, rfl, hs, ?_⟩
        rw [Nat.add_zero, hc]
        refine ⟨rfl, rfl, ?_⟩
        rw [if_neg hin]
        refine ⟨by omega, by omega, ?_, ?_, ?_, rfl⟩
        · have hm : min (min (e.amount w.n + 1) len) w.inp.length ≤ w.inp.length := by omega
          generalize min (min (e.amount w.n + 1) len) w.inp.length = m at hm ⊢
          simp [splice, Nat.min_eq_left hm]
        · have hm : min (min (e.amount w.n + 1) len) w.inp.length ≤ w.inp.length := by omega
          generalize min (min (e.amount w.n + 1) len) w.inp.length = m at hm ⊢
          simp [splice, Nat.min_eq_left hm]
        · rw [length_splice (by simp; omega)]
    | some er =>
      simp only [Res.ok_bind]
      rw [if_neg (by decide)]
      simp only [if_true]
      by_cases hi : er = WSAEINTR
      · subst hi
        rw [if_pos (show (w.failed WSAEINTR).err.last = WSAEINTR from rfl)]
        rcases ih buf (w.failed WSAEINTR) hb with ⟨i1, i2⟩ | ⟨k, hk, i1, rc, w', s', buf', i2, i3, i4⟩
        · refine .inl ⟨i1, fun j hj => ?_⟩
          cases j with
          | zero => exact hc
          | succ j => have := i2 j (by omega); rwa [show (w.failed WSAEINTR).n + j = w.n + (j + 1) by simp [World.failed]; omega] at this
        · refine .inr ⟨k + 1, by omega, i1.step hc, rc, w', s', buf', i2, i3, ?_⟩
          rw [show (w.failed WSAEINTR).n + k = w.n + (k + 1) by simp [World.failed]; omega] at i4
          unfold Received at i4 ⊢
          split at i4
          · exact i4
          · exact ⟨i4.1.of_failed, i4.2⟩
      · rw [if_neg (show (w.failed er).err.last ≠ WSAEINTR from hi)]
        have hI : Interrupted e.call w.n 0 := ⟨fun j hj => absurd hj (by omega), by
          rw [Nat.add_zero, hc]; exact fun h => hi (by cases h; rfl)⟩
        by_cases ha : er = WSAEWOULDBLOCK
        · subst ha
          rw [if_pos (show (w.failed WSAEWOULDBLOCK).err.last = WSAEWOULDBLOCK from rfl)]
          refine .inr ⟨0, by omega, hI, _, _, _, _, rfl, hs, ?_⟩
          rw [Nat.add_zero, hc]
          exact ⟨refused_again e w s, rfl⟩
        · rw [if_neg (show (w.failed er).err.last ≠ WSAEWOULDBLOCK from ha)]
          obtain ⟨s', m1, m2, m3⟩ := refused he (w := w) hs ha
          rw [m1]
          refine .inr ⟨0, by omega, hI, _, _, _, _, rfl, m2, ?_⟩
          rw [Nat.add_zero, hc]
          exact ⟨m3, rfl⟩

/-- **C70, sending on Windows.** However often it is interrupted, the call returns what the call that was
not interrupted returned. -/
theorem send_spec {e : Env} (he : e.texts.Ok) {buf : List UInt8} {len : Int} {w : World} {s : Sock}
    (hs : s.err.length = 128) (hlen : 0 < len) (hb : len ≤ buf.length) (fuel : Nat) :
    (send e fuel buf len w s = .ok none ∧ ∀ j < fuel, e.call (w.n + j) = some WSAEINTR) ∨
    ∃ k < fuel, Interrupted e.call w.n k ∧ ∃ rc w' s', send e fuel buf len w s = .ok (some (rc, w', s')) ∧
      s'.err.length = 128 ∧ Sent e (e.call (w.n + k)) buf len w s rc w' s' := by
  unfold send
  rw [if_neg (by omega)]
  have := sendLoop_ok he (buf := buf) hs (len := len.toNat) (by omega) (by omega) fuel w
  rwa [show (len.toNat : Int) = len by omega] at this

/-- **C70, receiving on Windows.** -/
theorem recv_spec {e : Env} (he : e.texts.Ok) {buf : List UInt8} {len : Int} {w : World} {s : Sock}
    (hs : s.err.length = 128) (hlen : 0 < len) (hb : len ≤ buf.length) (fuel : Nat) :
    (recv e fuel buf len w s = .ok none ∧ ∀ j < fuel, e.call (w.n + j) = some WSAEINTR) ∨
    ∃ k < fuel, Interrupted e.call w.n k ∧ ∃ rc w' s' buf', recv e fuel buf len w s = .ok (some (rc, w', s', buf')) ∧
      s'.err.length = 128 ∧ Received e (e.call (w.n + k)) buf len w s rc w' s' buf' := by
  unfold recv
  rw [if_neg (by omega)]
  have := recvLoop_ok he hs (len := len.toNat) (by omega) fuel buf w (by omega)
  rwa [show (len.toNat : Int) = len by omega] at this

/-- Calls with nothing to move change nothing. -/
theorem zero_spec {e : Env} {fuel : Nat} {buf : List UInt8} {len : Int} {w : World} {s : Sock} (h : len ≤ 0) :
    send e fuel buf len w s = .ok (some (len, w, s)) ∧ recv e fuel buf len w s = .ok (some (len, w, s, buf)) := by
  unfold send recv
  rw [if_pos h, if_pos h]
  exact ⟨rfl, rfl⟩

/-- A history of sends and receives on one socket: `a` are the bytes that were in the buffers of the
sends, as far as they were counted, `b` those found in the buffers of the receives. -/
inductive Hist (e : Env) (w₀ : World) (s₀ : Sock) : List UInt8 → List UInt8 → World → Sock → Prop
  | refl : Hist e w₀ s₀ [] [] w₀ s₀
  | send {a b w s fuel buf len rc w' s'} : Hist e w₀ s₀ a b w s → len ≤ (buf.length : Int) →
    send e fuel buf len w s = .ok (some (rc, w', s')) → Hist e w₀ s₀ (a ++ buf.take rc.toNat) b w' s'
  | recv {a b w s fuel buf len rc w' s' buf'} : Hist e w₀ s₀ a b w s → len ≤ (buf.length : Int) →
    recv e fuel buf len w s = .ok (some (rc, w', s', buf')) → Hist e w₀ s₀ a (b ++ buf'.take rc.toNat) w' s'

/-- **C70, streams on Windows**: what the callers counted as sent is what was sent, in order, and what
they received is the start of what came in, in order; the rest is still there. -/
theorem streams {e : Env} (he : e.texts.Ok) {w₀ w : World} {s₀ s : Sock} {a b : List UInt8} (hs : s₀.err.length = 128)
    (h : Hist e w₀ s₀ a b w s) : w.sent = w₀.sent ++ a ∧ b ++ w.inp = w₀.inp ∧ s.err.length = 128 := by
  induction h with
  | refl => simp [hs]
  | @send a b w s fuel buf len rc w' s' h hb hr ih =>
    obtain ⟨h1, h2, h3⟩ := ih
    by_cases hlen : len ≤ 0
    · rw [(zero_spec hlen).1] at hr
      cases hr
      rw [show len.toNat = 0 by omega]
      simpa using ⟨h1, h2, h3⟩
    · rcases send_spec he h3 (w := w) (len := len) (by omega) hb fuel with ⟨k1, -⟩ | ⟨k, -, -, rc', w₁, s₁, k1, k2, k3⟩
      · rw [k1] at hr
        cases hr
      · rw [k1] at hr
        cases hr
        unfold Sent at k3
        split at k3
        · exact ⟨by rw [k3.2.2.1, h1, List.append_assoc], by rw [k3.2.2.2.1]; exact h2, k2⟩
        · exact ⟨by rw [k3.sent, h1, k3.rc]; simp, by rw [k3.inp]; exact h2, k2⟩
  | @recv a b w s fuel buf len rc w' s' buf' h hb hr ih =>
    obtain ⟨h1, h2, h3⟩ := ih
    by_cases hlen : len ≤ 0
    · rw [(zero_spec hlen).2] at hr
      cases hr
      rw [show len.toNat = 0 by omega]
      simpa using ⟨h1, h2, h3⟩
    · rcases recv_spec he h3 (w := w) (len := len) (by omega) hb fuel with ⟨k1, -⟩ | ⟨k, -, -, rc', w₁, s₁, b₁, k1, k2, k3⟩
      · rw [k1] at hr
        cases hr
      · rw [k1] at hr
        cases hr
        unfold Received at k3
        split at k3
        · obtain ⟨k4, k5, k6⟩ := k3
          refine ⟨by rw [k4]; exact h1, ?_, k2⟩
          split at k6
          · next hin => rw [k6.1, k6.2.2.1, ← h2, hin]; simp
          · rw [List.append_assoc, k6.2.2.1, h2]
        · exact ⟨by rw [k3.1.sent]; exact h1, by rw [k3.1.rc, k3.1.inp, ← h2]; simp, k2⟩

/-- **C148, on Windows, in part.** A negative result of a transfer or of accepting, after a call that was
refused with `er`, has `errno = EAGAIN` exactly if the system said that it would block, provided that
`errno` was something else before. What is missing: callers that do not clear `errno`, see below. -/
theorem again_partial {e : Env} {er : Int} {w : World} {s : Sock} {rc : Int} {w' : World} {s' : Sock}
    (h : Refused e er w s rc w' s') (hw : w.err.errno ≠ EAGAIN) : w'.err.errno = EAGAIN ↔ er = WSAEWOULDBLOCK := by
  rw [h.errno]
  split
  · next h => exact ⟨fun _ => h, fun _ => rfl⟩
  · next h => exact ⟨fun h' => absurd h' hw, fun h' => absurd h' h⟩

/-- A call of `accept` that takes no connection: what would block is announced only on non-blocking
sockets. -/
theorem refuse_ok {e : Env} (he : e.texts.Ok) {er : Int} {w : World} {s : Sock} (hs : s.err.length = 128)
    (hb : s.blocking = false ∨ er ≠ WSAEWOULDBLOCK) :
    ∃ w' s', refuse e er w s = .ok (-1, w', s') ∧ s'.err.length = 128 ∧ Refused e er w s (-1) w' s' := by
  unfold refuse
  simp only
  by_cases ha : er = WSAEWOULDBLOCK
  · subst ha
    rw [if_pos ⟨by rcases hb with h | h; exact h; exact absurd rfl h, rfl⟩]
    exact ⟨_, _, rfl, hs, refused_again e w s⟩
  · rw [if_neg (fun h => ha h.2)]
    obtain ⟨s', m1, m2, m3⟩ := refused he (w := w) hs ha
    rw [m1]
    exact ⟨_, _, rfl, m2, m3⟩

/-- **C148 is violated** on Windows: once a call has left `EAGAIN` in `errno`, which is what happens
whenever there is nothing to read, every later failure of a transfer looks like another one that would
block, such as that of a connection that was reset (10054), and callers that wait for the next event
never learn of it. -/
theorem again_violated {e : Env} (he : e.texts.Ok) {buf : List UInt8} {len : Int} {w : World} {s : Sock}
    (hs : s.err.length = 128) (hlen : 0 < len) (hb : len ≤ buf.length) (fuel : Nat) {er : Int}
    (hc : e.call w.n = some er) (hi : er ≠ WSAEINTR) (ho : w.err.errno = EAGAIN) :
    (∃ w' s', send e (fuel + 1) buf len w s = .ok (some (-1, w', s')) ∧ w'.err.errno = EAGAIN) ∧
    (∃ w' s', recv e (fuel + 1) buf len w s = .ok (some (-1, w', s', buf)) ∧ w'.err.errno = EAGAIN) ∧
    (∃ w' s', refuse e er w s = .ok (-1, w', s') ∧ w'.err.errno = EAGAIN) := by
  have hk : ∀ {k}, Interrupted e.call w.n k → k = 0 := by
    intro k hk
    cases k with
    | zero => rfl
    | succ k => have := hk.before 0 (by omega); rw [Nat.add_zero, hc] at this; cases this; exact absurd rfl hi
  have hE : ∀ {rc w' s'}, Refused e er w s rc w' s' → w'.err.errno = EAGAIN := by
    intro rc w' s' h
    rw [h.errno, ho, ite_self]
  refine ⟨?_, ?_, ?_⟩
  · rcases send_spec he hs (w := w) hlen hb (fuel + 1) with ⟨-, h⟩ | ⟨k, -, h, rc, w', s', k1, -, k3⟩
    · have := h 0 (by omega); rw [Nat.add_zero, hc] at this; cases this; exact absurd rfl hi
    · rw [hk h, Nat.add_zero, hc] at k3
      have k4 := Refused.rc k3
      subst k4
      exact ⟨_, _, k1, hE k3⟩
  · rcases recv_spec he hs (w := w) hlen hb (fuel + 1) with ⟨-, h⟩ | ⟨k, -, h, rc, w', s', buf', k1, -, k3⟩
    · have := h 0 (by omega); rw [Nat.add_zero, hc] at this; cases this; exact absurd rfl hi
    · rw [hk h, Nat.add_zero, hc] at k3
      have k4 := Refused.rc k3.1
      have k5 : buf' = buf := k3.2
      subst k4 k5
      exact ⟨_, _, k1, hE k3.1⟩
  · unfold refuse
    simp only
    split
    · exact ⟨_, _, rfl, rfl⟩
    · obtain ⟨err, m1, -⟩ := Win.errstr_ok he (w := (w.failed er).err) hs
      rw [m1]
      exact ⟨_, _, rfl, ho⟩

/-! ## Timeouts -/

/-- `sc_sock_set_rcvtimeo` and `sc_sock_set_sndtimeo`, socket/sc_sock.c:278-316, on Windows: there the
option is a `DWORD` in milliseconds, 0 for no timeout, and longer values are allowed. What is passed is
a `struct timeval` of two `long`s of 32 bits, of which the system reads the first. The result is the
timeout afterwards, in milliseconds. -/
def setTimeo (e : Env) (ms : Int) (w : World) (s : Sock) (old : Option Nat) : Res (Int × World × Sock × Option Nat) :=
  match e.call w.n with
  | some er => do
    let w := w.failed er
    let s ← Win.errstr e.texts w.err s
    .ok (-1, w, s, old)
  | none =>
    let dword := ((timeval ms).1 % 2 ^ 32).toNat
    .ok (0, { w with n := w.n + 1 }, s, if dword = 0 then none else some dword)

/-- **C71 is violated** on Windows for every timeout but 0: those of less than a second are taken for no
timeout at all, so that a call that should have returned never does; the others are a thousand times too
short. -/
theorem timeo_violated {e : Env} {ms : Int} (h0 : 0 < ms) (h1 : ms < 2 ^ 31) {w : World} {s : Sock} {old : Option Nat}
    (hc : e.call w.n = none) :
    ∃ w', setTimeo e ms w s old = .ok (0, w', s, if ms < 1000 then none else some (ms.toNat / 1000)) ∧
      ms.toNat / 1000 ≠ ms.toNat := by
  unfold setTimeo timeval
  rw [hc]
  simp only
  rw [Int.tdiv_eq_ediv_of_nonneg (by omega)]
  have hd : (ms / 1000 % (2 : Int) ^ 32).toNat = ms.toNat / 1000 := by omega
  rw [hd]
  refine ⟨{ w with n := w.n + 1 }, ?_, by omega⟩
  by_cases h : ms < 1000
  · rw [if_pos h, if_pos (by omega)]
  · rw [if_neg h, if_neg (by omega)]

/-- **C71, on Windows, in part**: a timeout of 0 is none; a failed call keeps the old timeout. What is
missing: all other timeouts. -/
theorem timeo_partial {e : Env} (he : e.texts.Ok) {ms : Int} {w : World} {s : Sock} (hs : s.err.length = 128)
    {old : Option Nat} :
    (e.call w.n = none → ∃ w', setTimeo e 0 w s old = .ok (0, w', s, none)) ∧
    (∀ er, e.call w.n = some er → ∃ w' s', setTimeo e ms w s old = .ok (-1, w', s', old) ∧
      ∀ m, e.texts.fmt er = some m → Shows s'.err m) := by
  refine ⟨fun hc => ?_, fun er hc => ?_⟩ <;> unfold setTimeo <;> rw [hc]
  · exact ⟨_, rfl⟩
  · simp only
    obtain ⟨err, m1, m2, m3, m4⟩ := Win.errstr_ok he (w := (w.failed er).err) hs
    rw [m1]
    exact ⟨_, _, rfl, m3⟩

/-! ## Examples -/

/-- The first call would block, the second finds that the connection was reset (10054). -/
def reset : Env where
  call n := if n = 0 then some WSAEWOULDBLOCK else if n = 1 then some 10054 else none
  amount _ := 1
  texts := ⟨fun _ => some [120, 0]⟩

def world : World := ⟨⟨0, 0⟩, 0, [], [1, 2, 3]⟩

/-- A result without the text -/
def brief (r : Res (Option (Int × World × Sock × List UInt8))) : Option (Int × Int × World) :=
  match r with
  | .ok (some (rc, w, _, _)) => some (rc, w.err.errno, w)
  | _ => none

/-- Two reads: both end with -1 and `EAGAIN`, the second although the connection is gone. -/
example : (brief (recv reset 1 [0, 0, 0, 0] 4 world (init false 2))).map (fun r => (r.1, r.2.1)) = some (-1, EAGAIN) ∧
    ((brief (recv reset 1 [0, 0, 0, 0] 4 world (init false 2))).bind fun r =>
      (brief (recv reset 1 [0, 0, 0, 0] 4 r.2.2 (init false 2))).map fun r => (r.1, r.2.1, r.2.2.err.last)) =
      some (-1, EAGAIN, 10054) := by
  decide +kernel

/-- The third reads two bytes. -/
example : (brief (recv reset 1 [0, 0, 0, 0] 4 { world with n := 2 } (init false 2))).map (fun r => (r.1, r.2.2.inp)) =
    some (2, [3]) := by decide +kernel

end Verif.Sock.WinTransfer
