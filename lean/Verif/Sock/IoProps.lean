import Verif.Sock.IoModel
import Verif.Sock.Lemmas

/-! # Properties of transfers, timeouts, pipes and notifications -/

namespace Verif.Sock.Io

open Ini (strncpy)
open Spec (Target target notifyTarget micros Fifo)

/-! ## Sending and receiving -/

/-- From call number `n` on, `k` calls are interrupted and the next is not. -/
structure Interrupted (call : Nat → Option Int) (n k : Nat) : Prop where
  before : ∀ j < k, call (n + j) = some EINTR
  then_ : call (n + k) ≠ some EINTR

theorem interrupted_or (call : Nat → Option Int) (n fuel : Nat) :
    (∀ j < fuel, call (n + j) = some EINTR) ∨ ∃ k < fuel, Interrupted call n k := by
  induction fuel with
  | zero => left; intro j hj; omega
  | succ fuel ih =>
    rcases ih with h | ⟨k, hk, h⟩
    · by_cases hc : call (n + fuel) = some EINTR
      · left
        intro j hj
        by_cases hj' : j = fuel
        · rw [hj']; exact hc
        · exact h j (by omega)
      · exact .inr ⟨fuel, by omega, h, hc⟩
    · exact .inr ⟨k, by omega, h⟩

theorem attempt_none {e : Env} {os : Os} (h : e.call os.n = none) : attempt e os = (true, { os with n := os.n + 1 }) := by
  unfold attempt; rw [h]

theorem attempt_some {e : Env} {os : Os} {er : Int} (h : e.call os.n = some er) :
    attempt e os = (false, ({ os with n := os.n + 1 } : Os).failed e er) := by
  unfold attempt; rw [h]

/-- What the caller of `sc_sock_send` gets: with `r` the outcome of the call that was not
interrupted. -/
def Sent (e : Env) (r : Option Int) (buf : List UInt8) (len : Int) (w : World) (s : Sock) (rc : Int) (w' : World) (s' : Sock) : Prop :=
  match r with
  | none => 1 ≤ rc ∧ rc ≤ len ∧ w'.sent = w.sent ++ buf.take rc.toNat ∧ s' = s
  | some er => rc = -1 ∧ w'.sent = w.sent ∧ w'.os.errno = er ∧
      (if er = EAGAIN then s' = s else ∃ err, s' = { s with err := err } ∧ Shows err (e.strerror er))

theorem sendLoop_ok {e : IoEnv} (he : Laws e.toEnv) {buf : List UInt8} {len : Nat} {s : Sock} (hs : s.err.length = 128)
    (hlen : 0 < len) (hb : len ≤ buf.length) {k : Nat} : ∀ {fuel : Nat} {w : World}, k < fuel → Interrupted e.call w.os.n k →
    ∃ rc w' s', sendLoop e buf len fuel w s = .ok (some (rc, w', s')) ∧ w'.inp = w.inp ∧ w'.os.fds = w.os.fds ∧
      s'.err.length = 128 ∧ Sent e.toEnv (e.call (w.os.n + k)) buf len w s rc w' s' := by
  induction k with
  | zero =>
    intro fuel w hf hi
    obtain ⟨fuel, rfl⟩ : ∃ f, fuel = f + 1 := ⟨fuel - 1, by omega⟩
    unfold sendLoop ksend
    have hne := hi.then_
    simp only [Nat.add_zero] at hne ⊢
    cases hc : e.call w.os.n with
    | none =>
      rw [attempt_none hc]
      simp only
      rw [if_pos (by omega)]
      simp only [Res.ok_bind]
      rw [if_neg (by omega)]
      refine ⟨_, _, _, rfl, rfl, rfl, hs, ?_, ?_, ?_, rfl⟩
      · omega
      · omega
      · simp [slice]
    | some er =>
      rw [hc] at hne
      have hne : er ≠ EINTR := fun h => hne (by rw [h])
      rw [attempt_some hc]
      simp only [Res.ok_bind, if_true]
      rw [if_neg (by simpa [Os.failed] using hne)]
      by_cases ha : er = EAGAIN
      · rw [if_pos (by simpa [Os.failed] using ha)]
        exact ⟨_, _, _, rfl, rfl, rfl, hs, rfl, rfl, ha.symm, by rw [if_pos ha]⟩
      · rw [if_neg (by simpa [Os.failed] using ha)]
        obtain ⟨err, m1, m2, m3⟩ := errstr_ok he (g := 0) (os := ({ w.os with n := w.os.n + 1 } : Os).failed e.toEnv er) hs
        rw [m1]
        refine ⟨_, _, _, rfl, rfl, rfl, m2, rfl, rfl, rfl, ?_⟩
        rw [if_neg ha]
        exact ⟨err, rfl, by simpa [Os.failed] using m3⟩
  | succ k ih =>
    intro fuel w hf hi
    obtain ⟨fuel, rfl⟩ : ∃ f, fuel = f + 1 := ⟨fuel - 1, by omega⟩
    have h0 := hi.before 0 (by omega)
    simp only [Nat.add_zero] at h0
    unfold sendLoop ksend
    rw [attempt_some h0]
    simp only [Res.ok_bind, if_true]
    rw [if_pos (by simp [Os.failed])]
    have hi' : Interrupted e.call (w.os.n + 1) k :=
      ⟨fun j hj => by have := hi.before (j + 1) (by omega); rwa [show w.os.n + (j + 1) = w.os.n + 1 + j by omega] at this,
        by have := hi.then_; rwa [show w.os.n + (k + 1) = w.os.n + 1 + k by omega] at this⟩
    obtain ⟨rc, w', s', h1, h2, h3, h4, h5⟩ := ih (fuel := fuel)
      (w := { w with os := ({ w.os with n := w.os.n + 1 } : Os).failed e.toEnv EINTR }) (by omega) hi'
    refine ⟨rc, w', s', h1, h2, h3, h4, ?_⟩
    rw [show w.os.n + (k + 1) = w.os.n + 1 + k by omega]
    exact h5

theorem sendLoop_waits {e : IoEnv} {buf : List UInt8} {len : Nat} {s : Sock} : ∀ {fuel : Nat} {w : World},
    (∀ j < fuel, e.call (w.os.n + j) = some EINTR) → sendLoop e buf len fuel w s = .ok none := by
  intro fuel
  induction fuel with
  | zero => intro w _; rfl
  | succ fuel ih =>
    intro w h
    have h0 := h 0 (by omega)
    simp only [Nat.add_zero] at h0
    unfold sendLoop ksend
    rw [attempt_some h0]
    simp only [Res.ok_bind, if_true]
    rw [if_pos (by simp [Os.failed])]
    apply ih
    intro j hj
    have := h (j + 1) (by omega)
    rwa [show w.os.n + (j + 1) = w.os.n + 1 + j by omega] at this

/-- **C70** for sending: however often it is interrupted, the call returns what the call to the
system that was not interrupted returned: the first bytes of the buffer are sent, once, and counted,
or nothing is and `errno` says why. -/
theorem send_spec {e : IoEnv} (he : Laws e.toEnv) {buf : List UInt8} {len : Int} {w : World} {s : Sock}
    (hs : s.err.length = 128) (hlen : 0 < len) (hb : len ≤ buf.length) {k fuel : Nat} (hk : k < fuel)
    (hi : Interrupted e.call w.os.n k) :
    ∃ rc w' s', send e fuel buf len w s = .ok (some (rc, w', s')) ∧ w'.inp = w.inp ∧ w'.os.fds = w.os.fds ∧
      s'.err.length = 128 ∧ Sent e.toEnv (e.call (w.os.n + k)) buf len w s rc w' s' := by
  unfold send
  rw [if_neg (by omega)]
  have := sendLoop_ok he (buf := buf) hs (len := len.toNat) (by omega) (by omega) hk hi
  rwa [show (len.toNat : Int) = len by omega] at this

/-- Without an end of the interruptions it does not return. -/
theorem send_waits {e : IoEnv} {buf : List UInt8} {len : Int} {w : World} {s : Sock} (hlen : 0 < len) {fuel : Nat}
    (h : ∀ j < fuel, e.call (w.os.n + j) = some EINTR) : send e fuel buf len w s = .ok none := by
  unfold send
  rw [if_neg (by omega)]
  exact sendLoop_waits h

/-- What the caller of `sc_sock_recv` gets. -/
def Received (e : Env) (r : Option Int) (buf : List UInt8) (len : Int) (w : World) (s : Sock) (rc : Int) (w' : World) (s' : Sock)
    (buf' : List UInt8) : Prop :=
  match r with
  | none =>
    if w.inp = [] then rc = -1 ∧ w'.os.errno = EOF ∧ w'.inp = [] ∧ buf' = buf ∧ s' = s
    else 1 ≤ rc ∧ rc ≤ len ∧ buf'.take rc.toNat ++ w'.inp = w.inp ∧ buf'.drop rc.toNat = buf.drop rc.toNat ∧
      buf'.length = buf.length ∧ s' = s
  | some er => rc = -1 ∧ w'.inp = w.inp ∧ buf' = buf ∧ w'.os.errno = er ∧
      (if er = EAGAIN then s' = s else ∃ err, s' = { s with err := err } ∧ Shows err (e.strerror er))

theorem recvLoop_ok {e : IoEnv} (he : Laws e.toEnv) {buf : List UInt8} {len : Nat} {s : Sock} (hs : s.err.length = 128)
    (hlen : 0 < len) (hb : len ≤ buf.length) {k : Nat} : ∀ {fuel : Nat} {w : World}, k < fuel → Interrupted e.call w.os.n k →
    ∃ rc w' s' buf', recvLoop e len fuel buf w s = .ok (some (rc, w', s', buf')) ∧ w'.sent = w.sent ∧ w'.os.fds = w.os.fds ∧
      s'.err.length = 128 ∧ Received e.toEnv (e.call (w.os.n + k)) buf len w s rc w' s' buf' := by
  induction k with
  | zero =>
    intro fuel w hf hi
    obtain ⟨fuel, rfl⟩ : ∃ f, fuel = f + 1 := ⟨fuel - 1, by omega⟩
    unfold recvLoop krecv
    have hne := hi.then_
    simp only [Nat.add_zero] at hne ⊢
    cases hc : e.call w.os.n with
    | none =>
      rw [attempt_none hc]
      simp only
      rw [if_pos (by omega)]
      simp only [Res.ok_bind]
      by_cases hin : w.inp = []
      · rw [if_pos (by simp [hin])]
        refine ⟨_, _, _, _, rfl, rfl, rfl, hs, ?_⟩
        show (if w.inp = [] then _ else _)
        rw [if_pos hin]
        exact ⟨rfl, rfl, by simp [hin], by simp [hin, splice], rfl⟩
      · have hpos : 0 < w.inp.length := List.length_pos_iff.2 hin
        rw [if_neg (by omega), if_neg (by omega)]
        refine ⟨_, _, _, _, rfl, rfl, rfl, hs, ?_⟩
        show (if w.inp = [] then _ else _)
        rw [if_neg hin]
        generalize hm : min (min (e.amount w.os.n + 1) len) w.inp.length = m
        have h1 : 1 ≤ m := by omega
        have h2 : m ≤ len := by omega
        have h3 : m ≤ w.inp.length := by omega
        have hl : (w.inp.take m).length = m := by simp; omega
        refine ⟨by omega, by omega, ?_, ?_, ?_, rfl⟩
        · simp only [splice, List.take_zero, List.nil_append, Int.toNat_natCast]
          rw [List.take_left' hl, List.take_append_drop]
        · simp only [splice, List.take_zero, List.nil_append, Int.toNat_natCast, Nat.zero_add, hl]
          rw [List.drop_left' hl]
        · rw [length_splice]; omega
    | some er =>
      rw [hc] at hne
      have hne : er ≠ EINTR := fun h => hne (by rw [h])
      rw [attempt_some hc]
      simp only [Res.ok_bind]
      rw [if_neg (by omega), if_pos trivial, if_neg (by simpa [Os.failed] using hne)]
      by_cases ha : er = EAGAIN
      · rw [if_pos (by simpa [Os.failed] using ha)]
        exact ⟨_, _, _, _, rfl, rfl, rfl, hs, rfl, rfl, rfl, ha.symm, by rw [if_pos ha]⟩
      · rw [if_neg (by simpa [Os.failed] using ha)]
        obtain ⟨err, m1, m2, m3⟩ := errstr_ok he (g := 0) (os := ({ w.os with n := w.os.n + 1 } : Os).failed e.toEnv er) hs
        rw [m1]
        refine ⟨_, _, _, _, rfl, rfl, rfl, m2, rfl, rfl, rfl, rfl, ?_⟩
        rw [if_neg ha]
        exact ⟨err, rfl, by simpa [Os.failed] using m3⟩
  | succ k ih =>
    intro fuel w hf hi
    obtain ⟨fuel, rfl⟩ : ∃ f, fuel = f + 1 := ⟨fuel - 1, by omega⟩
    have h0 := hi.before 0 (by omega)
    simp only [Nat.add_zero] at h0
    unfold recvLoop krecv
    rw [attempt_some h0]
    simp only [Res.ok_bind]
    rw [if_neg (by omega), if_pos trivial, if_pos (by simp [Os.failed])]
    have hi' : Interrupted e.call (w.os.n + 1) k :=
      ⟨fun j hj => by have := hi.before (j + 1) (by omega); rwa [show w.os.n + (j + 1) = w.os.n + 1 + j by omega] at this,
        by have := hi.then_; rwa [show w.os.n + (k + 1) = w.os.n + 1 + k by omega] at this⟩
    obtain ⟨rc, w', s', buf', h1, h2, h3, h4, h5⟩ := ih (fuel := fuel)
      (w := { w with os := ({ w.os with n := w.os.n + 1 } : Os).failed e.toEnv EINTR }) (by omega) hi'
    refine ⟨rc, w', s', buf', h1, h2, h3, h4, ?_⟩
    rw [show w.os.n + (k + 1) = w.os.n + 1 + k by omega]
    exact h5

theorem recvLoop_waits {e : IoEnv} {buf : List UInt8} {len : Nat} {s : Sock} : ∀ {fuel : Nat} {w : World},
    (∀ j < fuel, e.call (w.os.n + j) = some EINTR) → recvLoop e len fuel buf w s = .ok none := by
  intro fuel
  induction fuel with
  | zero => intro w _; rfl
  | succ fuel ih =>
    intro w h
    have h0 := h 0 (by omega)
    simp only [Nat.add_zero] at h0
    unfold recvLoop krecv
    rw [attempt_some h0]
    simp only [Res.ok_bind]
    rw [if_neg (by omega), if_pos trivial, if_pos (by simp [Os.failed])]
    apply ih
    intro j hj
    have := h (j + 1) (by omega)
    rwa [show w.os.n + (j + 1) = w.os.n + 1 + j by omega] at this

/-- **C70** for receiving: however often it is interrupted, the next bytes of the stream are put at
the start of the buffer and counted, or nothing is received and `errno` says why; the end of the
stream is the error `EOF`. -/
theorem recv_spec {e : IoEnv} (he : Laws e.toEnv) {buf : List UInt8} {len : Int} {w : World} {s : Sock}
    (hs : s.err.length = 128) (hlen : 0 < len) (hb : len ≤ buf.length) {k fuel : Nat} (hk : k < fuel)
    (hi : Interrupted e.call w.os.n k) :
    ∃ rc w' s' buf', recv e fuel buf len w s = .ok (some (rc, w', s', buf')) ∧ w'.sent = w.sent ∧ w'.os.fds = w.os.fds ∧
      s'.err.length = 128 ∧ Received e.toEnv (e.call (w.os.n + k)) buf len w s rc w' s' buf' := by
  unfold recv
  rw [if_neg (by omega)]
  have := recvLoop_ok he (buf := buf) hs (len := len.toNat) (by omega) (by omega) hk hi
  rwa [show (len.toNat : Int) = len by omega] at this

theorem recv_waits {e : IoEnv} {buf : List UInt8} {len : Int} {w : World} {s : Sock} (hlen : 0 < len) {fuel : Nat}
    (h : ∀ j < fuel, e.call (w.os.n + j) = some EINTR) : recv e fuel buf len w s = .ok none := by
  unfold recv
  rw [if_neg (by omega)]
  exact recvLoop_waits h

/-- Calls with nothing to move change nothing. -/
theorem zero_spec {e : IoEnv} {fuel : Nat} {buf : List UInt8} {len : Int} {w : World} {s : Sock} (h : len ≤ 0) :
    send e fuel buf len w s = .ok (some (len, w, s)) ∧ recv e fuel buf len w s = .ok (some (len, w, s, buf)) := by
  unfold send recv
  rw [if_pos h, if_pos h]
  exact ⟨rfl, rfl⟩

/-- A history of sends and receives on one socket: `a` are the bytes that were in the buffers of the
sends, as far as they were counted, `b` those found in the buffers of the receives. -/
inductive Hist (e : IoEnv) (w₀ : World) (s₀ : Sock) : List UInt8 → List UInt8 → World → Sock → Prop
  | refl : Hist e w₀ s₀ [] [] w₀ s₀
  | send {a b w s fuel buf len rc w' s'} : Hist e w₀ s₀ a b w s → len ≤ (buf.length : Int) →
    send e fuel buf len w s = .ok (some (rc, w', s')) → Hist e w₀ s₀ (a ++ buf.take rc.toNat) b w' s'
  | recv {a b w s fuel buf len rc w' s' buf'} : Hist e w₀ s₀ a b w s → len ≤ (buf.length : Int) →
    recv e fuel buf len w s = .ok (some (rc, w', s', buf')) → Hist e w₀ s₀ a (b ++ buf'.take rc.toNat) w' s'

/-- Streams are faithful: what the callers counted as sent is what was sent, in order, and what they
received is the start of what came in, in order; the rest is still there. -/
theorem streams {e : IoEnv} (he : Laws e.toEnv) {w₀ w : World} {s₀ s : Sock} {a b : List UInt8} (hs : s₀.err.length = 128)
    (h : Hist e w₀ s₀ a b w s) : w.sent = w₀.sent ++ a ∧ b ++ w.inp = w₀.inp ∧ s.err.length = 128 := by
  induction h with
  | refl => simp [hs]
  | @send a b w s fuel buf len rc w' s' h hb hr ih =>
    obtain ⟨h1, h2, h3⟩ := ih
    by_cases hlen : len ≤ 0
    · rw [(zero_spec hlen).1] at hr
      cases hr
      rw [show len.toNat = 0 by omega]
      simpa using ⟨h1, h2, h3⟩
    · rcases interrupted_or e.call w.os.n fuel with hi | ⟨k, hk, hi⟩
      · rw [send_waits (by omega) hi] at hr
        cases hr
      · obtain ⟨rc', w₁, s₁, k1, k2, -, k4, k5⟩ := send_spec he h3 (len := len) (by omega) hb hk hi
        rw [k1] at hr
        cases hr
        refine ⟨?_, by rw [k2]; exact h2, k4⟩
        unfold Sent at k5
        split at k5
        · rw [k5.2.2.1, h1, List.append_assoc]
        · rw [k5.2.1, h1, k5.1]; simp
  | @recv a b w s fuel buf len rc w' s' buf' h hb hr ih =>
    obtain ⟨h1, h2, h3⟩ := ih
    by_cases hlen : len ≤ 0
    · rw [(zero_spec hlen).2] at hr
      cases hr
      rw [show len.toNat = 0 by omega]
      simpa using ⟨h1, h2, h3⟩
    · rcases interrupted_or e.call w.os.n fuel with hi | ⟨k, hk, hi⟩
      · rw [recv_waits (by omega) hi] at hr
        cases hr
      · obtain ⟨rc', w₁, s₁, b₁, k1, k2, -, k4, k5⟩ := recv_spec he h3 (len := len) (by omega) hb hk hi
        rw [k1] at hr
        cases hr
        refine ⟨by rw [k2]; exact h1, ?_, k4⟩
        unfold Received at k5
        split at k5
        · split at k5
          · next hin => rw [k5.1, k5.2.2.1, ← h2, hin]; simp
          · rw [List.append_assoc, k5.2.2.1, h2]
        · rw [k5.1, k5.2.1, ← h2]; simp

/-! ## Timeouts -/

/-- What a timeout of `ms` milliseconds becomes, in microseconds. -/
theorem timeo_spec {e : Env} {ms : Int} {os : Os} {s : Sock} {old : Int} (hm : 0 ≤ ms) (hc : e.call os.n = none) :
    setTimeo e ms os s old = .ok (0, { os with n := os.n + 1 }, s, ms / 1000 * 1000000 + ms % 1000) := by
  unfold setTimeo timeval micros
  rw [attempt_none hc]
  simp only
  rw [Int.tdiv_eq_ediv_of_nonneg hm, Int.tmod_eq_emod_of_nonneg hm, if_pos (by omega)]

/-- **C71**, where it holds: for whole seconds. -/
theorem timeo_partial {e : Env} {ms : Int} {os : Os} {s : Sock} {old : Int} (hm : 0 ≤ ms) (hd : 1000 ∣ ms)
    (hc : e.call os.n = none) : setTimeo e ms os s old = .ok (0, { os with n := os.n + 1 }, s, ms * 1000) := by
  rw [timeo_spec hm hc]
  rw [show ms / 1000 * 1000000 + ms % 1000 = ms * 1000 by omega]

/-- **C71** fails for all others: the timeout is shorter than asked for. -/
theorem timeo_violated {e : Env} {ms : Int} {os : Os} {s : Sock} {old : Int} (hm : 0 ≤ ms) (hd : ¬1000 ∣ ms)
    (hc : e.call os.n = none) :
    ∃ os' t, setTimeo e ms os s old = .ok (0, os', s, t) ∧ t < ms * 1000 ∧ t = ms * 1000 - 999 * (ms % 1000) := by
  refine ⟨_, _, timeo_spec hm hc, ?_, ?_⟩ <;> omega

/-- A failed call keeps the old timeout and has a text. -/
theorem timeo_failed {e : Env} (he : Laws e) {ms : Int} {os : Os} {s : Sock} {old er : Int} (hs : s.err.length = 128)
    (hc : e.call os.n = some er) :
    ∃ os' s', setTimeo e ms os s old = .ok (-1, os', s', old) ∧ Shows s'.err (e.strerror er) ∧ os'.fds = os.fds := by
  unfold setTimeo
  rw [attempt_some hc]
  simp only
  obtain ⟨err, m1, m2, m3⟩ := errstr_ok he (g := 0) (os := ({ os with n := os.n + 1 } : Os).failed e er) hs
  rw [m1]
  exact ⟨_, _, rfl, by simpa [Os.failed] using m3, rfl⟩

/-- A negative number of milliseconds that is not a whole number of seconds is refused by the
system: the old timeout stays, and the text is that of `EDOM`. -/
theorem timeo_negative {e : Env} (he : Laws e) {ms : Int} {os : Os} {s : Sock} {old : Int} (hs : s.err.length = 128)
    (hm : ms < 0) (hd : ¬1000 ∣ ms) (hc : e.call os.n = none) :
    ∃ os' s', setTimeo e ms os s old = .ok (-1, os', s', old) ∧ Shows s'.err (e.strerror EDOM) ∧ os'.fds = os.fds := by
  unfold setTimeo timeval micros
  rw [attempt_none hc]
  simp only
  rw [if_neg (by
    intro h
    have h1 := Int.tmod_add_mul_tdiv ms 1000
    have h2 : ms.tmod 1000 ≤ 0 := by
      have h3 := Int.neg_tmod (a := -ms) (b := 1000)
      rw [Int.neg_neg] at h3
      have := Int.tmod_nonneg (a := -ms) 1000 (by omega)
      omega
    omega)]
  simp only
  obtain ⟨err, m1, m2, m3⟩ := errstr_ok he (g := 0) (os := ({ os with n := os.n + 1 } : Os).failed e EDOM) hs
  rw [m1]
  exact ⟨_, _, rfl, by simpa [Os.failed] using m3, rfl⟩

/-! ## Pipes -/

/-- The text of a pipe is a string, cut to 127 bytes. -/
theorem pipeSetErr_ok {t : List UInt8} (ht : ∀ b ∈ t, b ≠ 0) {p : Pipe} (hl : p.err.length = 128) :
    ∃ err, pipeSetErr t p = .ok { p with err := err } ∧ err.length = 128 ∧ CStr err 0 (t.take 127) := by
  unfold pipeSetErr vsnprintf
  have hlen : (t.take 127 ++ [(0 : UInt8)]).length ≤ 128 := by simp; omega
  simp only [Nat.reduceSub, Nat.zero_add]
  rw [if_neg (by decide), if_pos (by rw [hl]; exact hlen)]
  simp only [Res.ok_bind]
  have h2 : (splice p.err 0 (t.take 127 ++ [0])).length = 128 := by rw [length_splice (by omega)]; exact hl
  rw [wr_lt (by omega)]
  refine ⟨_, rfl, by simpa using h2, ?_, fun b hb => ht b (List.mem_of_mem_take hb), ?_⟩
  · intro i hi
    have hi' : i < 127 := by simp at hi; omega
    rw [List.getElem?_set_ne (by omega), splice_getElem? (by omega), Nat.zero_add]
    rw [if_neg (by omega), if_pos (by simp at hi ⊢; omega), Nat.sub_zero, List.getElem?_append_left hi,
      List.getElem?_eq_getElem hi]
  · by_cases h127 : (t.take 127).length = 127
    · rw [h127]
      simp [h2]
    · have : (t.take 127).length < 127 := by simp at h127 ⊢; omega
      rw [List.getElem?_set_ne (by omega), splice_getElem? (by omega), Nat.zero_add]
      rw [if_neg (by omega), if_pos (by simp), Nat.sub_zero]
      simp

/-- Asking for the text of a pipe yields the text that was stored, and changes nothing else. -/
theorem pipeErr_ok {t : List UInt8} {p : Pipe} (hl : p.err.length = 128) (h : CStr p.err 0 t) :
    ∃ err, pipeErr p = .ok { p with err := err } ∧ err.length = 128 ∧ CStr err 0 t := by
  unfold pipeErr
  have hlt : t.length < 128 := by
    have := h.nul
    rw [Nat.zero_add] at this
    have := (List.getElem?_eq_some_iff.1 this).1
    omega
  rw [wr_lt (by omega)]
  refine ⟨_, rfl, by simpa using hl, fun i hi => ?_, h.nonzero, ?_⟩
  · rw [List.getElem?_set_ne (by omega)]; exact h.bytes i hi
  · by_cases e : t.length = 127
    · rw [e]; simp [hl]
    · rw [List.getElem?_set_ne (by omega)]; exact h.nul

/-- A pipe that has no descriptors. -/
def Pipe.Shut (p : Pipe) : Prop := p.rfd = -1 ∧ p.wfd = -1

/-- The text says that a call failed with an error that occurred in between. -/
def Says (os os' : Os) (form : List UInt8 → List UInt8) (err : List UInt8) : Prop :=
  ∃ m t, Recent os os' m ∧ CStr m 0 t ∧ CStr err 0 ((form t).take 127)

theorem initText_nonzero {t : List UInt8} (h : ∀ b ∈ t, b ≠ 0) : ∀ b ∈ initText t, b ≠ 0 := by
  intro b hb
  simp only [initText, List.mem_append] at hb
  rcases hb with (hb | hb) | hb
  · revert b; decide
  · exact h b hb
  · revert b; decide

theorem closeText_nonzero {t : List UInt8} (h : ∀ b ∈ t, b ≠ 0) : ∀ b ∈ closeText t, b ≠ 0 := by
  intro b hb
  simp only [closeText, List.mem_append] at hb
  rcases hb with (hb | hb) | hb
  · revert b; decide
  · exact h b hb
  · revert b; decide

/-- **C97.** Creating a pipe opens two descriptors or none. -/
theorem pipeInit_ok {e : Env} (he : Laws e) (os : Os) :
    ∃ rc os' p, pipeInit e os = .ok (rc, os', p) ∧ p.err.length = 128 ∧ p.op = 0 ∧
      (rc = 0 ∧ os'.fds = ⟨p.rfd, false⟩ :: ⟨p.wfd, false⟩ :: os.fds ∧ p.fd = p.rfd ∧ p.rfd ∉ os.nums ∧ p.wfd ∉ os.nums ∧
        p.rfd ≠ p.wfd ∧ 0 ≤ p.rfd ∧ 0 ≤ p.wfd ∨
       rc = -1 ∧ os'.fds = os.fds ∧ p.Shut ∧ Says os os' initText p.err) := by
  unfold pipeInit kpipe
  obtain ⟨⟨k1, k2, k3⟩, -⟩ := attempt_ok e os
  generalize attempt e os = r at k1 k2 k3 ⊢
  obtain ⟨b, os'⟩ := r
  simp only at k1 k2 k3
  cases b with
  | false =>
    simp only
    obtain ⟨t, ht⟩ := he.texts os'.errno
    rw [cstr_eq ht]
    simp only [Res.ok_bind]
    obtain ⟨err, h1, h2, h3⟩ := pipeSetErr_ok (initText_nonzero ht.nonzero)
      (p := { fd := 0, op := 0, rfd := -1, wfd := -1, err := List.replicate 128 0 }) (by simp)
    rw [h1]
    exact ⟨_, _, _, rfl, h2, rfl, .inr ⟨rfl, k1, ⟨rfl, rfl⟩, _, t, k3 rfl, ht, h3⟩⟩
  | true =>
    have hn : os'.nums = os.nums := by simp only [Os.nums]; rw [k1]
    refine ⟨_, _, _, rfl, by simp, rfl, .inl ⟨rfl, by simp only; rw [k1], rfl, ?_, ?_, ?_, he.nonneg _, he.nonneg _⟩⟩
    · simp only; rw [← hn]; exact he.unused _
    · simp only; rw [← hn]
      have := he.unused (e.newfd os'.nums :: os'.nums)
      intro hc; exact this (List.mem_cons_of_mem _ hc)
    · simp only
      have := he.unused (e.newfd os'.nums :: os'.nums)
      intro hc; exact this (by rw [← hc]; simp)

/-- One close of a pipe. -/
theorem pipeClose_ok {e : Env} (he : Laws e) {fd rc : Int} {os : Os} {p : Pipe} (hl : p.err.length = 128) (hf : fd ∈ os.nums) :
    ∃ rc' os' err, pipeClose e fd rc os p = .ok (rc', os', { p with err := err }) ∧ err.length = 128 ∧
      os'.fds = os.fds.filter (fun f => f.num ≠ fd) ∧ Grown os os' ∧
      (rc' = rc ∧ err = p.err ∨ rc' = -1 ∧ Says os os' closeText err) := by
  unfold pipeClose kclose
  rw [if_pos hf]
  simp only [Res.ok_bind]
  obtain ⟨⟨k1, k2, k3⟩, -⟩ := attempt_ok e { os with fds := os.fds.filter (fun f => f.num ≠ fd) }
  generalize attempt e { os with fds := os.fds.filter (fun f => f.num ≠ fd) } = r at k1 k2 k3 ⊢
  obtain ⟨b, os'⟩ := r
  simp only at k1 k2 k3
  have hg : Grown os os' := k2.grown
  cases b with
  | true => exact ⟨rc, os', p.err, rfl, hl, k1, hg, .inl ⟨rfl, rfl⟩⟩
  | false =>
    obtain ⟨t, ht⟩ := he.texts os'.errno
    simp only [Bool.false_eq_true, if_false]
    rw [cstr_eq ht]
    simp only [Res.ok_bind]
    obtain ⟨err, h1, h2, h3⟩ := pipeSetErr_ok (closeText_nonzero ht.nonzero) (p := p) hl
    rw [h1]
    exact ⟨-1, os', err, rfl, h2, k1, hg, .inr ⟨rfl, _, t, k3 rfl, ht, h3⟩⟩

/-- **C97.** Destroying a pipe closes its two descriptors and no other, whatever `close` returns; the
text is that of an error of this call. A second time, or after a failed creation, it does nothing. -/
theorem pipeTerm_ok {e : Env} (he : Laws e) {os : Os} {p : Pipe} (hl : p.err.length = 128)
    (hp : p.rfd = -1 ∨ p.rfd ∈ os.nums ∧ p.wfd ∈ os.nums ∧ p.rfd ≠ p.wfd) :
    ∃ rc os' p', pipeTerm e os p = .ok (rc, os', p') ∧ p'.err.length = 128 ∧
      (p.rfd = -1 → rc = 0 ∧ os' = os ∧ p' = p) ∧
      (p.rfd ≠ -1 → p'.Shut ∧ os'.fds = os.fds.filter (fun f => f.num ≠ p.rfd ∧ f.num ≠ p.wfd) ∧
        (rc = 0 ∧ p'.err = p.err ∨ rc = -1 ∧ Says os os' closeText p'.err)) := by
  unfold pipeTerm
  by_cases h : p.rfd = -1
  · rw [if_pos h]
    exact ⟨_, _, _, rfl, hl, fun _ => ⟨rfl, rfl, rfl⟩, fun hn => absurd h hn⟩
  · rw [if_neg h]
    obtain ⟨hr, hw, hne⟩ := hp.resolve_left h
    obtain ⟨rc₁, os₁, err₁, h1, h2, h3, h4, h5⟩ := pipeClose_ok he (rc := 0) hl hr
    rw [h1]
    simp only [Res.ok_bind]
    have hw' : p.wfd ∈ os₁.nums := by
      obtain ⟨f, hf1, hf2⟩ := List.mem_map.1 hw
      refine List.mem_map.2 ⟨f, ?_, hf2⟩
      rw [h3, List.mem_filter]
      refine ⟨hf1, ?_⟩
      simp only [decide_eq_true_eq, hf2]
      exact fun hc => hne hc.symm
    obtain ⟨rc₂, os₂, err₂, k1, k2, k3, k4, k5⟩ := pipeClose_ok he (rc := rc₁) (p := { p with err := err₁ }) h2 hw'
    rw [k1]
    refine ⟨_, _, _, rfl, k2, fun hn => absurd hn h, fun _ => ⟨⟨rfl, rfl⟩, ?_, ?_⟩⟩
    · rw [k3, h3, List.filter_filter]
      congr 1
      funext f
      simp only [Bool.decide_and, ne_eq, decide_not, Bool.and_comm]
    · rcases k5 with ⟨rfl, h6⟩ | ⟨rfl, m, t, h6, h7, h8⟩
      · simp only at h6
        subst h6
        rcases h5 with ⟨rfl, h5⟩ | ⟨rfl, m, t, h6, h7, h8⟩
        · exact .inl ⟨rfl, h5⟩
        · exact .inr ⟨rfl, m, t, h6.after k4, h7, h8⟩
      · exact .inr ⟨rfl, m, t, Recent.before h4 h6, h7, h8⟩

/-- Creating and destroying leaves what was open. -/
theorem pipe_no_leak {e : Env} (he : Laws e) (os : Os) :
    ∃ rc os' p rc' os'' p', pipeInit e os = .ok (rc, os', p) ∧ pipeTerm e os' p = .ok (rc', os'', p') ∧ os''.fds = os.fds := by
  obtain ⟨rc, os', p, h1, h2, -, h3⟩ := pipeInit_ok he os
  rcases h3 with ⟨-, k1, -, k2, k3, k4, k5, k6⟩ | ⟨-, k1, k2, -⟩
  · obtain ⟨rc', os'', p', m1, -, -, m2⟩ := pipeTerm_ok he (os := os') h2
      (.inr ⟨by simp [Os.nums, k1], by simp [Os.nums, k1], k4⟩)
    refine ⟨_, _, _, _, _, _, h1, m1, ?_⟩
    rw [(m2 (by omega)).2.1, k1, List.filter_cons_of_neg (by simp), List.filter_cons_of_neg (by simp)]
    apply List.filter_eq_self.2
    intro f hf
    simp only [decide_eq_true_eq]
    exact ⟨fun hc => k2 (hc ▸ List.mem_map.2 ⟨f, hf, rfl⟩), fun hc => k3 (hc ▸ List.mem_map.2 ⟨f, hf, rfl⟩)⟩
  · obtain ⟨rc', os'', p', m1, -, m2, -⟩ := pipeTerm_ok he (os := os') h2 (.inl k2.1)
    exact ⟨_, _, _, _, _, _, h1, m1, by rw [(m2 k2.1).2.1, k1]⟩

/-- What the caller of `sc_sock_pipe_write` gets, with `r` the outcome of the call that was not
interrupted. -/
def Wrote (r : Option Int) (buf : List UInt8) (len : Nat) (q : List UInt8) (rc : Int) (os' : Os) (q' : List UInt8) : Prop :=
  match r with
  | none => 0 ≤ rc ∧ rc ≤ len ∧ (0 < len → 0 < rc) ∧ q' = q ++ buf.take rc.toNat
  | some er => rc = -1 ∧ q' = q ∧ os'.errno = er

theorem pipeWrite_ok {e : IoEnv} {buf : List UInt8} {len : Nat} (hb : len ≤ buf.length) (hl : len < 2 ^ 31) {q : List UInt8}
    {k : Nat} : ∀ {fuel : Nat} {os : Os}, k < fuel → Interrupted e.call os.n k →
    ∃ rc os' q', pipeWrite e buf len fuel os q = .ok (some (rc, os', q')) ∧ os'.fds = os.fds ∧
      Wrote (e.call (os.n + k)) buf len q rc os' q' := by
  induction k with
  | zero =>
    intro fuel os hf hi
    obtain ⟨fuel, rfl⟩ : ∃ f, fuel = f + 1 := ⟨fuel - 1, by omega⟩
    unfold pipeWrite kwrite
    have hne := hi.then_
    simp only [Nat.add_zero] at hne ⊢
    cases hc : e.call os.n with
    | none =>
      rw [attempt_none hc]
      simp only
      rw [if_pos (by omega)]
      simp only [Res.ok_bind]
      rw [toInt32_small (by omega)]
      refine ⟨_, _, _, rfl, rfl, by omega, by omega, by omega, ?_⟩
      simp [slice]
    | some er =>
      rw [hc] at hne
      have hne : er ≠ EINTR := fun h => hne (by rw [h])
      rw [attempt_some hc]
      simp only [Res.ok_bind]
      rw [if_neg (by simpa [Os.failed] using hne)]
      exact ⟨_, _, _, rfl, rfl, rfl, rfl, rfl⟩
  | succ k ih =>
    intro fuel os hf hi
    obtain ⟨fuel, rfl⟩ : ∃ f, fuel = f + 1 := ⟨fuel - 1, by omega⟩
    have h0 := hi.before 0 (by omega)
    simp only [Nat.add_zero] at h0
    unfold pipeWrite kwrite
    rw [attempt_some h0]
    simp only [Res.ok_bind]
    rw [if_pos (by simp [Os.failed])]
    have hi' : Interrupted e.call (os.n + 1) k :=
      ⟨fun j hj => by have := hi.before (j + 1) (by omega); rwa [show os.n + (j + 1) = os.n + 1 + j by omega] at this,
        by have := hi.then_; rwa [show os.n + (k + 1) = os.n + 1 + k by omega] at this⟩
    obtain ⟨rc, os', q', h1, h2, h3⟩ := ih (fuel := fuel)
      (os := ({ os with n := os.n + 1 } : Os).failed e.toEnv EINTR) (by omega) hi'
    refine ⟨rc, os', q', h1, h2, ?_⟩
    rw [show os.n + (k + 1) = os.n + 1 + k by omega]
    exact h3

theorem pipeWrite_waits {e : IoEnv} {buf : List UInt8} {len : Nat} {q : List UInt8} : ∀ {fuel : Nat} {os : Os},
    (∀ j < fuel, e.call (os.n + j) = some EINTR) → pipeWrite e buf len fuel os q = .ok none := by
  intro fuel
  induction fuel with
  | zero => intro os _; rfl
  | succ fuel ih =>
    intro os h
    have h0 := h 0 (by omega)
    simp only [Nat.add_zero] at h0
    unfold pipeWrite kwrite
    rw [attempt_some h0]
    simp only [Res.ok_bind]
    rw [if_pos (by simp [Os.failed])]
    apply ih
    intro j hj
    have := h (j + 1) (by omega)
    rwa [show os.n + (j + 1) = os.n + 1 + j by omega] at this

/-- What the caller of `sc_sock_pipe_read` gets. -/
def Read (r : Option Int) (buf : List UInt8) (len : Nat) (q : List UInt8) (rc : Int) (os' : Os) (q' buf' : List UInt8) : Prop :=
  match r with
  | none => 0 ≤ rc ∧ rc ≤ len ∧ (0 < len → q ≠ [] → 0 < rc) ∧ buf'.take rc.toNat ++ q' = q ∧
      buf'.drop rc.toNat = buf.drop rc.toNat ∧ buf'.length = buf.length
  | some er => rc = -1 ∧ q' = q ∧ buf' = buf ∧ os'.errno = er

theorem pipeRead_ok {e : IoEnv} {buf : List UInt8} {len : Nat} (hb : len ≤ buf.length) (hl : len < 2 ^ 31) {q : List UInt8}
    {k : Nat} : ∀ {fuel : Nat} {os : Os}, k < fuel → Interrupted e.call os.n k →
    ∃ rc os' q' buf', pipeRead e len fuel buf os q = .ok (some (rc, os', q', buf')) ∧ os'.fds = os.fds ∧
      Read (e.call (os.n + k)) buf len q rc os' q' buf' := by
  induction k with
  | zero =>
    intro fuel os hf hi
    obtain ⟨fuel, rfl⟩ : ∃ f, fuel = f + 1 := ⟨fuel - 1, by omega⟩
    unfold pipeRead kread
    have hne := hi.then_
    simp only [Nat.add_zero] at hne ⊢
    cases hc : e.call os.n with
    | none =>
      rw [attempt_none hc]
      simp only
      generalize hm : min (min (e.amount os.n + 1) len) q.length = m
      rw [if_pos (by omega)]
      simp only [Res.ok_bind]
      rw [toInt32_small (by omega)]
      have hl' : (q.take m).length = m := by simp; omega
      refine ⟨_, _, _, _, rfl, rfl, by omega, by omega, ?_, ?_, ?_, ?_⟩
      · intro h1 h2
        have := List.length_pos_iff.2 h2
        omega
      · simp only [splice, List.take_zero, List.nil_append, Int.toNat_natCast]
        rw [List.take_left' hl', List.take_append_drop]
      · simp only [splice, List.take_zero, List.nil_append, Int.toNat_natCast, Nat.zero_add, hl']
        rw [List.drop_left' hl']
      · rw [length_splice]; omega
    | some er =>
      rw [hc] at hne
      have hne : er ≠ EINTR := fun h => hne (by rw [h])
      rw [attempt_some hc]
      simp only [Res.ok_bind]
      rw [if_neg (by simpa [Os.failed] using hne)]
      exact ⟨_, _, _, _, rfl, rfl, rfl, rfl, rfl, rfl⟩
  | succ k ih =>
    intro fuel os hf hi
    obtain ⟨fuel, rfl⟩ : ∃ f, fuel = f + 1 := ⟨fuel - 1, by omega⟩
    have h0 := hi.before 0 (by omega)
    simp only [Nat.add_zero] at h0
    unfold pipeRead kread
    rw [attempt_some h0]
    simp only [Res.ok_bind]
    rw [if_pos (by simp [Os.failed])]
    have hi' : Interrupted e.call (os.n + 1) k :=
      ⟨fun j hj => by have := hi.before (j + 1) (by omega); rwa [show os.n + (j + 1) = os.n + 1 + j by omega] at this,
        by have := hi.then_; rwa [show os.n + (k + 1) = os.n + 1 + k by omega] at this⟩
    obtain ⟨rc, os', q', buf', h1, h2, h3⟩ := ih (fuel := fuel)
      (os := ({ os with n := os.n + 1 } : Os).failed e.toEnv EINTR) (by omega) hi'
    refine ⟨rc, os', q', buf', h1, h2, ?_⟩
    rw [show os.n + (k + 1) = os.n + 1 + k by omega]
    exact h3

theorem pipeRead_waits {e : IoEnv} {buf : List UInt8} {len : Nat} {q : List UInt8} : ∀ {fuel : Nat} {os : Os},
    (∀ j < fuel, e.call (os.n + j) = some EINTR) → pipeRead e len fuel buf os q = .ok none := by
  intro fuel
  induction fuel with
  | zero => intro os _; rfl
  | succ fuel ih =>
    intro os h
    have h0 := h 0 (by omega)
    simp only [Nat.add_zero] at h0
    unfold pipeRead kread
    rw [attempt_some h0]
    simp only [Res.ok_bind]
    rw [if_pos (by simp [Os.failed])]
    apply ih
    intro j hj
    have := h (j + 1) (by omega)
    rwa [show os.n + (j + 1) = os.n + 1 + j by omega] at this

/-- A history of writes and reads on one pipe that is empty at first, as their callers see it -/
inductive PipeHist (e : IoEnv) (os₀ : Os) : Fifo → Os → Prop
  | refl : PipeHist e os₀ ⟨[], [], []⟩ os₀
  | write {f os fuel buf len rc os' q'} : PipeHist e os₀ f os → len ≤ buf.length → len < 2 ^ 31 →
    pipeWrite e buf len fuel os f.queue = .ok (some (rc, os', q')) →
    PipeHist e os₀ ⟨f.written ++ buf.take rc.toNat, f.read, q'⟩ os'
  | read {f os fuel buf len rc os' q' buf'} : PipeHist e os₀ f os → len ≤ buf.length → len < 2 ^ 31 →
    pipeRead e len fuel buf os f.queue = .ok (some (rc, os', q', buf')) →
    PipeHist e os₀ ⟨f.written, f.read ++ buf'.take rc.toNat, q'⟩ os'

/-- **C97**, where it holds: calls of less than 2 GiB make the pipe a queue, whatever is interrupted
or fails. -/
theorem pipe_fifo_partial {e : IoEnv} {os₀ os : Os} {f : Fifo} (h : PipeHist e os₀ f os) : f.Faithful := by
  induction h with
  | refl => rfl
  | @write f os fuel buf len rc os' q' h hb hl hr ih =>
    rcases interrupted_or e.call os.n fuel with hi | ⟨k, hk, hi⟩
    · rw [pipeWrite_waits hi] at hr
      cases hr
    · obtain ⟨_, _, _, k1, -, k2⟩ := pipeWrite_ok (e := e) (q := f.queue) hb hl hk hi
      rw [k1] at hr
      cases hr
      unfold Fifo.Faithful at ih ⊢
      unfold Wrote at k2
      split at k2
      · simp only; rw [k2.2.2.2, ← ih, List.append_assoc]
      · simp only; rw [k2.2.1, k2.1, ← ih]; simp
  | @read f os fuel buf len rc os' q' buf' h hb hl hr ih =>
    rcases interrupted_or e.call os.n fuel with hi | ⟨k, hk, hi⟩
    · rw [pipeRead_waits hi] at hr
      cases hr
    · obtain ⟨_, _, _, _, k1, -, k2⟩ := pipeRead_ok (e := e) (q := f.queue) hb hl hk hi
      rw [k1] at hr
      cases hr
      unfold Fifo.Faithful at ih ⊢
      unfold Read at k2
      split at k2
      · simp only; rw [List.append_assoc, k2.2.2.2.1, ih]
      · simp only; rw [k2.2.1, k2.1, ← ih]; simp

/-- **C97** fails for longer ones, if the system moves as much in one call: 2 GiB are written, and the
result is negative, as if the call had failed. -/
theorem pipe_count_violated {e : IoEnv} {os : Os} (hc : e.call os.n = none) (ha : e.amount os.n + 1 = 2 ^ 31) (fuel : Nat) :
    ∃ os' q, pipeWrite e (List.replicate (2 ^ 31) 0) (2 ^ 31) (fuel + 1) os [] = .ok (some (-2 ^ 31, os', q)) ∧
      q.length = 2 ^ 31 := by
  unfold pipeWrite kwrite
  rw [attempt_none hc]
  simp only
  rw [ha, Nat.min_self, if_pos (by rw [List.length_replicate]; exact Nat.le_refl _)]
  simp only [Res.ok_bind]
  rw [show toInt32 (2 ^ 31) = -2 ^ 31 by decide]
  refine ⟨_, _, rfl, ?_⟩
  rw [List.nil_append, length_slice (by rw [List.length_replicate]; omega)]

/-! ## Notifications -/

theorem head_cstr {var s : List UInt8} (h : CStr var 0 s) : rd var 0 = .ok (s[0]?.getD 0) := by
  have := h.rd (i := 0) (by omega)
  simpa using this

theorem takeWhile_nonzero {s : List UInt8} (hs : ∀ b ∈ s, b ≠ 0) : s.takeWhile (· ≠ 0) = s := by
  induction s with
  | nil => rfl
  | cons b s ih =>
    rw [List.takeWhile_cons_of_pos (by simpa using hs b (by simp)), ih (fun c hc => hs c (List.mem_cons_of_mem _ hc))]

/-- The path and its length as they are passed to the system -/
theorem notify_target {s : List UInt8} (hs : ∀ b ∈ s, b ≠ 0) (hl : s.length ≤ 107) {t : Target} (ht : notifyTarget s = some t)
    {path : List UInt8} (hp : path.length = 108) (ht' : path.take s.length = s) :
    target (if path[0]? = some 64 then path.set 0 0 else path) (2 + s.length) = t := by
  match s, ht with
  | b :: c :: rest, ht =>
    simp only [notifyTarget] at ht
    match path, hp with
    | x :: path, hp =>
      simp only [List.length_cons, List.take_succ_cons, List.cons.injEq] at ht'
      obtain ⟨rfl, ht'⟩ := ht'
      split at ht
      · next hb =>
        subst hb
        cases ht
        simp only [target, List.getElem?_cons_zero, if_true, List.set_cons_zero, List.length_cons]
        rw [show 2 + (rest.length + 1 + 1) - 2 = rest.length + 1 + 1 by omega]
        simp only [List.take_succ_cons, if_true]
        rw [ht']
      · next hb =>
        split at ht
        · next hb' =>
          subst hb'
          cases ht
          simp only [target, List.getElem?_cons_zero, List.length_cons]
          rw [if_neg (by decide), show 2 + (rest.length + 1 + 1) - 2 = rest.length + 1 + 1 by omega]
          simp only [List.take_succ_cons]
          rw [if_neg (by decide), ht']
          congr 1
          exact takeWhile_nonzero hs
        · cases ht

/-- A name that is too long is cut, and so another. -/
theorem notify_cut {s : List UInt8} (hs : ∀ b ∈ s, b ≠ 0) (hl : 108 ≤ s.length) {t : Target} (ht : notifyTarget s = some t)
    {path : List UInt8} (hp : path.length = 108) (ht' : path.take 107 = s.take 107) (h0 : path[107]? = some 0) :
    target (if path[0]? = some 64 then path.set 0 0 else path) 110 ≠ t := by
  match s, ht with
  | b :: c :: rest, ht =>
    simp only [notifyTarget] at ht
    match path, hp with
    | x :: path, hp =>
      simp only [List.take_succ_cons, List.cons.injEq] at ht'
      obtain ⟨rfl, ht'⟩ := ht'
      simp only [List.getElem?_cons_succ] at h0
      simp only [List.length_cons] at hp hl
      split at ht
      · next hb =>
        subst hb
        cases ht
        simp only [target, List.getElem?_cons_zero, if_true, List.set_cons_zero, Nat.reduceSub, List.take_succ_cons]
        intro hc
        injection hc with hc
        have : (path.take 107)[106]? = some 0 := by rw [List.getElem?_take_of_lt (by omega)]; exact h0
        rw [hc] at this
        exact hs 0 (List.mem_cons_of_mem _ (List.mem_of_getElem? this)) rfl
      · next hb =>
        split at ht
        · next hb' =>
          subst hb'
          cases ht
          simp only [target, List.getElem?_cons_zero]
          rw [if_neg (by decide)]
          simp only [Nat.reduceSub, List.take_succ_cons]
          rw [if_neg (by decide)]
          intro hc
          injection hc with hc
          have h1 : ((47 :: path.take 107).takeWhile (· ≠ 0)) <+: (47 :: path.take 107) := List.takeWhile_prefix _
          rw [hc] at h1
          have h2 := h1.length_le
          simp only [List.length_cons, List.length_take] at h2
          have h3 : rest.length + 1 = 107 := by omega
          have h4 : (c :: rest) <+: path.take 107 := by simpa using h1
          have h5 : c :: rest = path.take 107 := h4.eq_of_length (by simp; omega)
          have : (path.take 107)[106]? = some 0 := by rw [List.getElem?_take_of_lt (by omega)]; exact h0
          rw [← h5] at this
          exact hs 0 (List.mem_cons_of_mem _ (List.mem_of_getElem? this)) rfl
        · cases ht

/-- What `sc_sock_notify_systemd` does: its socket is closed in every case, and a message is sent,
all of it, only if it returns 0. -/
theorem notify_spec {e : Env} (he : Laws e) {msg var m s : List UInt8} (hm : CStr msg 0 m) (hv : CStr var 0 s) (os : Os) :
    ∃ rc os' d, notify e msg (some var) os = .ok (rc, os', d) ∧ os'.fds = os.fds ∧
      (rc = -1 ∧ d = none ∨
       rc = 0 ∧ ∃ to t, notifyTarget s = some t ∧ d = some ⟨to, m⟩ ∧ (to = t ↔ s.length ≤ 107)) := by
  unfold notify
  simp only
  rw [head_cstr hv]
  simp only [Res.ok_bind]
  have h1 : s ≠ [] → rd var 1 = .ok (s[1]?.getD 0) := by
    intro hne
    have := hv.rd (i := 1) (by have := List.length_pos_iff.2 hne; omega)
    simpa using this
  obtain ⟨invalid, hinv, hval⟩ : ∃ invalid, (if s[0]?.getD 0 ≠ 64 ∧ s[0]?.getD 0 ≠ 47 then Res.ok true else do
      let c ← rd var 1
      Res.ok (c == 0)) = .ok invalid ∧ (invalid = false → ∃ t, notifyTarget s = some t) := by
    match s, hv, h1 with
    | [], hv, h1 => exact ⟨true, by simp, by simp⟩
    | [b], hv, h1 =>
      rw [h1 (by simp)]
      by_cases hb : b ≠ 64 ∧ b ≠ 47
      · exact ⟨true, by simp [hb], by simp⟩
      · exact ⟨true, by simp [hb], by simp⟩
    | b :: c :: rest, hv, h1 =>
      rw [h1 (by simp)]
      have hc := hv.nonzero c (by simp)
      by_cases hb : b ≠ 64 ∧ b ≠ 47
      · exact ⟨true, by simp [hb], by simp⟩
      · refine ⟨false, by simp [hb, hc], fun _ => ?_⟩
        simp only [notifyTarget]
        by_cases h64 : b = 64
        · rw [if_pos h64]; exact ⟨_, rfl⟩
        · rw [if_neg h64, if_pos (by grind)]; exact ⟨_, rfl⟩
  rw [hinv]
  simp only [Res.ok_bind]
  cases invalid with
  | true => exact ⟨_, _, _, rfl, rfl, .inl ⟨rfl, rfl⟩⟩
  | false =>
    obtain ⟨t, ht⟩ := hval rfl
    simp only [Bool.false_eq_true, if_false]
    obtain ⟨r, os₁, k1, -, -, k3, k4⟩ := socket_ok he AF_UNIX 2 0 os
    rw [k1]
    cases r with
    | none => exact ⟨_, _, _, rfl, (k3 rfl).1, .inl ⟨rfl, rfl⟩⟩
    | some fd =>
      obtain ⟨hop, hfds⟩ := k4 fd rfl
      simp only
      unfold notifyOn
      obtain ⟨path, hp1, hp2, hp3, hp4⟩ : ∃ path, strncpy (List.replicate 108 0) var 0 (108 - 1) = .ok path ∧ path.length = 108 ∧
          path.take (min s.length 107) = s.take 107 ∧ path[107]? = some 0 := by
        unfold strncpy
        rw [cstr_eq hv]
        simp only [Res.ok_bind, Nat.reduceSub]
        have hl : (s.take 107 ++ List.replicate (107 - s.length) (0 : UInt8)).length = 107 := by simp; omega
        rw [if_pos (by rw [hl]; simp)]
        refine ⟨_, rfl, ?_, ?_, ?_⟩
        · rw [length_splice (by rw [hl]; simp)]; simp
        · simp only [splice, List.take_zero, List.nil_append, List.append_assoc]
          rw [List.take_left' (by simp; omega)]
        · rw [splice_getElem? (by rw [hl]; simp)]
          rw [if_neg (by omega), if_neg (by rw [hl]; omega)]
          simp
      rw [hp1]
      simp only [Res.ok_bind]
      have hb : ∃ b, path[0]? = some b := ⟨_, List.getElem?_eq_getElem (by omega)⟩
      obtain ⟨b, hb⟩ := hb
      have hrd : rd path 0 = .ok b := by rw [rd_eq_ok]; exact hb
      rw [hrd]
      simp only [Res.ok_bind]
      have hpath : (if b = 64 then wr path 0 0 else Res.ok path) = .ok (if path[0]? = some 64 then path.set 0 0 else path) := by
        rw [hb]
        by_cases h64 : b = 64
        · rw [if_pos h64, wr_lt (by omega), if_pos (by rw [h64])]
        · rw [if_neg h64, if_neg (by simpa using h64)]
      rw [hpath]
      simp only [Res.ok_bind]
      rw [strlen_eq hv]
      simp only [Res.ok_bind]
      rw [strlen_eq hm]
      simp only [Res.ok_bind]
      rw [hm.slice]
      generalize hpp : (if path[0]? = some 64 then path.set 0 0 else path) = path'
      generalize hnl : (if 2 + s.length > 110 then 110 else 2 + s.length) = namelen
      unfold ksendmsg
      obtain ⟨⟨a1, a2, a3⟩, -⟩ := attempt_ok e os₁
      generalize attempt e os₁ = r at a1 a2 a3 ⊢
      obtain ⟨ok, os₂⟩ := r
      simp only at a1 a2 a3
      have hin : fd ∈ os₂.nums := by simp [Os.nums, a1, hfds]
      have hclose : ∃ b os₃, kclose e fd os₂ = .ok (b, os₃) ∧ os₃.fds = os.fds := by
        unfold kclose
        rw [if_pos hin]
        obtain ⟨⟨c1, -, -⟩, -⟩ := attempt_ok e { os₂ with fds := os₂.fds.filter (fun f => f.num ≠ fd) }
        refine ⟨(attempt e { os₂ with fds := os₂.fds.filter (fun f => f.num ≠ fd) }).1,
          (attempt e { os₂ with fds := os₂.fds.filter (fun f => f.num ≠ fd) }).2, rfl, ?_⟩
        rw [c1]
        simp only
        rw [a1, hfds, List.filter_cons_of_neg (by simp)]
        apply List.filter_eq_self.2
        intro f hf
        simp only [decide_eq_true_eq]
        exact fun hc => hop.new (hc ▸ List.mem_map.2 ⟨f, hf, rfl⟩)
      obtain ⟨bb, os₃, hc1, hc2⟩ := hclose
      cases ok with
      | false =>
        simp only
        rw [hc1]
        exact ⟨_, _, _, rfl, hc2, .inl ⟨by simp, rfl⟩⟩
      | true =>
        simp only
        rw [hc1]
        refine ⟨_, _, _, rfl, hc2, .inr ⟨by simp, _, t, ht, rfl, ?_⟩⟩
        constructor
        · intro heq
          apply Classical.byContradiction
          intro hlen
          have h110 : (if 2 + s.length > 110 then 110 else 2 + s.length) = 110 := by split <;> omega
          rw [← hpp, ← hnl, h110] at heq
          rw [Nat.min_eq_right (by omega)] at hp3
          exact notify_cut hv.nonzero (by omega) ht hp2 hp3 hp4 heq
        · intro hlen
          have h109 : (if 2 + s.length > 110 then 110 else 2 + s.length) = 2 + s.length := by split <;> omega
          rw [← hpp, ← hnl, h109]
          rw [Nat.min_eq_left hlen] at hp3
          rw [List.take_of_length_le hlen] at hp3
          exact notify_target hv.nonzero hlen ht hp2 hp3

/-- Without the variable nothing is sent. -/
theorem notify_unset (e : Env) (msg : List UInt8) (os : Os) :
    ∃ os', notify e msg none os = .ok (-1, os', none) ∧ os'.fds = os.fds ∧ os'.errno = EINVAL := ⟨_, rfl, rfl, rfl⟩

/-- **C98**, where it holds. -/
theorem notify_partial {e : Env} (he : Laws e) {msg var m s : List UInt8} (hm : CStr msg 0 m) (hv : CStr var 0 s)
    (hl : s.length ≤ 107) {os os' : Os} {d : Option Datagram} (h : notify e msg (some var) os = .ok (0, os', d)) :
    ∃ t, notifyTarget s = some t ∧ d = some ⟨t, m⟩ := by
  obtain ⟨_, _, _, h1, -, h2⟩ := notify_spec he hm hv os
  rw [h1] at h
  cases h
  rcases h2 with ⟨h2, -⟩ | ⟨-, to, t, h3, h4, h5⟩
  · cases h2
  · rw [h5.2 hl] at h4
    exact ⟨t, h3, h4⟩

/-- **C98** fails for every longer name: a message that is sent goes elsewhere. -/
theorem notify_violated {e : Env} (he : Laws e) {msg var m s : List UInt8} (hm : CStr msg 0 m) (hv : CStr var 0 s)
    (hl : 107 < s.length) {os os' : Os} {d : Option Datagram} (h : notify e msg (some var) os = .ok (0, os', d)) :
    ∃ to t, notifyTarget s = some t ∧ d = some ⟨to, m⟩ ∧ to ≠ t := by
  obtain ⟨_, _, _, h1, -, h2⟩ := notify_spec he hm hv os
  rw [h1] at h
  cases h
  rcases h2 with ⟨h2, -⟩ | ⟨-, to, t, h3, h4, h5⟩
  · cases h2
  · exact ⟨to, t, h3, h4, fun hc => by have := h5.1 hc; omega⟩

/-! ## Cases -/

/-- The environment in which the calls with the given numbers fail, and the others move up to three
bytes -/
def io (l : List (Nat × Int)) : IoEnv where
  strerror _ := [69, 0]
  gaiStr _ := [71, 0]
  call n := (l.find? (fun p => p.1 = n)).map Prod.snd
  gai _ _ _ _ := .error 1
  newfd l := l.foldl (fun a b => max a (b + 1)) 0
  inherits _ := false
  pending _ := 0
  amount _ := 2

theorem foldl_ge (l : List Int) : ∀ a : Int, a ≤ l.foldl (fun a b => max a (b + 1)) a ∧
    ∀ b ∈ l, b < l.foldl (fun a b => max a (b + 1)) a := by
  induction l with
  | nil => intro a; simp
  | cons x xs ih =>
    intro a
    simp only [List.foldl_cons]
    obtain ⟨h1, h2⟩ := ih (max a (x + 1))
    refine ⟨by omega, ?_⟩
    intro b hb
    rcases List.mem_cons.1 hb with rfl | hb
    · omega
    · exact h2 b hb

theorem io_laws (l : List (Nat × Int)) : Laws (io l).toEnv where
  texts _ := ⟨[69], CStr.self (s := [69]) (by decide)⟩
  gtexts _ := ⟨[71], CStr.self (s := [71]) (by decide)⟩
  unused l h := by have := (foldl_ge l 0).2 _ h; simp only [io] at this; omega
  nonneg l := (foldl_ge l 0).1
  gaiErr h p f n rc hh := by simp [io] at hh; omega
  gaiOk h p f n hh := by simp [io] at hh

def world : World := ⟨⟨[⟨3, true⟩], 0, 0, [], []⟩, [1], [7, 8, 9, 10]⟩

/-- A result without the socket -/
def view (r : Res (Option (Int × World × Sock))) : Option (Int × List UInt8 × Int) :=
  match r with
  | .ok (some (rc, w, _)) => some (rc, w.sent, w.os.errno)
  | _ => none

/-- Two interruptions, then three bytes -/
example : view (send (io [(0, 4), (1, 4)]) 5 [2, 3, 4, 5] 4 world (init false 2)) = some (3, [1, 2, 3, 4], 4) := by
  decide +kernel

/-- An interruption, then an error -/
example : view (send (io [(0, 4), (1, 32)]) 5 [2, 3, 4, 5] 4 world (init false 2)) = some (-1, [1], 32) := by
  decide +kernel

example : Interrupted (io [(0, 4), (1, 4)]).call 0 2 := ⟨by decide, by decide⟩

/-- What is received -/
def viewIn (r : Res (Option (Int × World × Sock × List UInt8))) : Option (Int × List UInt8 × List UInt8 × Int) :=
  match r with
  | .ok (some (rc, w, _, b)) => some (rc, b, w.inp, w.os.errno)
  | _ => none

example : viewIn (recv (io [(0, 4)]) 5 [0, 0, 0, 0, 0] 4 world (init false 2)) = some (3, [7, 8, 9, 0, 0], [10], 4) := by
  decide +kernel

/-- The end of the stream -/
example : viewIn (recv (io []) 5 [0, 0] 2 { world with inp := [] } (init false 2)) = some (-1, [0, 0], [], EOF) := by
  decide +kernel

/-- Half a second becomes half a millisecond. -/
example : ∃ os s, setTimeo (io []).toEnv 1500 world.os (init false 2) 0 = .ok (0, os, s, 1000500) :=
  ⟨_, _, timeo_spec (by decide) rfl⟩

/-- A message to an abstract name -/
example : (match notify (io []).toEnv [82, 0] (some [64, 115, 0]) world.os with
    | .ok (rc, os, d) => some (rc, os.fds, d)
    | .ub => none) = some (0, [⟨3, true⟩], some ⟨.abstract [115], [82]⟩) := by decide +kernel

/-- One that is too long for the address loses its last byte and has a null byte in its place. -/
example : (match notify (io []).toEnv [82, 0] (some (64 :: List.replicate 107 115 ++ [0])) world.os with
    | .ok (rc, _, d) => some (rc, d)
    | .ub => none) = some (0, some ⟨.abstract (List.replicate 106 115 ++ [0]), [82]⟩) := by decide +kernel

/-- A pipe from creation to destruction -/
example : (match pipeInit (io []).toEnv world.os with
    | .ok (rc, os, p) => some (rc, os.fds, p.fd, p.rfd, p.wfd)
    | .ub => none) = some (0, [⟨4, false⟩, ⟨5, false⟩, ⟨3, true⟩], 4, 4, 5) := by decide +kernel

end Verif.Sock.Io
