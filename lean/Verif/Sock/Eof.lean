import Verif.Sock.WinTransfer

/-!
# The end of a stream

`sc_sock_recv` returns −1 and sets `errno` to `EOF` when the other side has closed its end and everything was received,
socket/sc_sock.c:662-664. A program takes what it has got for complete then, so it must not see this after a failure.
-/

namespace Verif.Sock.Io

/-- **C160, POSIX**: after any number of interruptions that are over, −1 with `errno = EOF` means the end of the stream, and
the end of the stream is told that way. No call of the system fails with the number of `EOF`, which is negative. -/
theorem eof_ok {e : IoEnv} (he : Laws e.toEnv) (hn : ∀ n, e.call n ≠ some EOF) {buf : List UInt8} {len : Int} {w : World} {s : Sock}
    (hs : s.err.length = 128) (hlen : 0 < len) (hb : len ≤ buf.length) {k fuel : Nat} (hk : k < fuel)
    (hi : Interrupted e.call w.os.n k) :
    ∃ rc w' s' buf', recv e fuel buf len w s = .ok (some (rc, w', s', buf')) ∧
      (rc < 0 ∧ w'.os.errno = EOF ↔ e.call (w.os.n + k) = none ∧ w.inp = []) := by
  obtain ⟨rc, w', s', buf', g1, -, -, -, g2⟩ := recv_spec he hs hlen hb hk hi
  refine ⟨rc, w', s', buf', g1, ?_⟩
  unfold Received at g2
  cases hc : e.call (w.os.n + k) with
  | none =>
    rw [hc] at g2
    simp only at g2
    split at g2
    · next hin => exact ⟨fun _ => ⟨rfl, hin⟩, fun _ => ⟨by omega, g2.2.1⟩⟩
    · next hin => exact ⟨fun h => absurd h.1 (by omega), fun h => absurd h.2 hin⟩
  | some er =>
    rw [hc] at g2
    simp only at g2
    refine ⟨fun h => ?_, fun h => by cases h.1⟩
    have := h.2
    rw [g2.2.2.2.1] at this
    rw [this] at hc
    exact absurd hc (hn _)

end Verif.Sock.Io

namespace Verif.Sock.WinTransfer

open Io (EOF)

/-- What −1 with `errno = EOF` means on Windows, exactly: the end of the stream, or any failure but one that would block if
`errno` was `EOF` before, from the end of another stream. -/
theorem eof_iff {e : Env} (he : e.texts.Ok) {buf : List UInt8} {len : Int} {w : World} {s : Sock}
    (hs : s.err.length = 128) (hlen : 0 < len) (hb : len ≤ buf.length) {k fuel : Nat} (hk : k < fuel)
    (hi : Interrupted e.call w.n k) :
    ∃ rc w' s' buf', recv e fuel buf len w s = .ok (some (rc, w', s', buf')) ∧
      (rc < 0 ∧ w'.err.errno = EOF ↔ (e.call (w.n + k) = none ∧ w.inp = []) ∨
        (∃ er, e.call (w.n + k) = some er ∧ er ≠ WSAEWOULDBLOCK) ∧ w.err.errno = EOF) := by
  rcases recv_spec he hs (w := w) hlen hb fuel with ⟨-, h⟩ | ⟨k', hk', hi', rc, w', s', buf', k1, -, k3⟩
  · exact absurd (h k hk) hi.then_
  · have hkk : k' = k := by
      rcases Nat.lt_trichotomy k' k with h | h | h
      · exact absurd (hi.before k' h) hi'.then_
      · exact h
      · exact absurd (hi'.before k h) hi.then_
    subst hkk
    refine ⟨rc, w', s', buf', k1, ?_⟩
    unfold Received at k3
    cases hc : e.call (w.n + k') with
    | none =>
      rw [hc] at k3
      simp only at k3
      have h3 := k3.2.2
      split at h3
      · next hin => exact ⟨fun _ => .inl ⟨rfl, hin⟩, fun _ => ⟨by omega, h3.2.1⟩⟩
      · next hin =>
        refine ⟨fun h => absurd h.1 (by omega), fun h => ?_⟩
        rcases h with h | ⟨⟨er, h, -⟩, -⟩
        · exact absurd h.2 hin
        · cases h
    | some er =>
      rw [hc] at k3
      simp only at k3
      have h1 := k3.1.rc
      have h2 := k3.1.errno
      refine ⟨fun h => .inr ?_, fun h => ⟨by omega, ?_⟩⟩
      · have h4 := h.2
        rw [h2] at h4
        split at h4
        · exact absurd h4 (by decide)
        · next hne => exact ⟨⟨er, rfl, hne⟩, h4⟩
      · rcases h with h | ⟨⟨er', h, hne⟩, ho⟩
        · cases h.1
        · cases h
          rw [h2, if_neg hne, ho]

/-- **C160, on Windows, in part**: if `errno` was not `EOF` before. What is missing: programs that do not clear it, see `eof_violated`. -/
theorem eof_partial {e : Env} (he : e.texts.Ok) {buf : List UInt8} {len : Int} {w : World} {s : Sock}
    (hs : s.err.length = 128) (hlen : 0 < len) (hb : len ≤ buf.length) {k fuel : Nat} (hk : k < fuel)
    (hi : Interrupted e.call w.n k) (ho : w.err.errno ≠ EOF) :
    ∃ rc w' s' buf', recv e fuel buf len w s = .ok (some (rc, w', s', buf')) ∧
      (rc < 0 ∧ w'.err.errno = EOF ↔ e.call (w.n + k) = none ∧ w.inp = []) := by
  obtain ⟨rc, w', s', buf', h1, h2⟩ := eof_iff he hs hlen hb hk hi
  refine ⟨rc, w', s', buf', h1, h2.trans ⟨fun h => ?_, .inl⟩⟩
  rcases h with h | h
  · exact h
  · exact absurd h.2 ho

/-- **C160 is violated** on Windows: once the end of a stream was told to a thread, which is how every connection is meant to
end, a connection that is reset or times out afterwards, bytes of which are still to come, is told as one that has ended
properly. `w` and `w₂` are the streams of the two sockets; `errno` is the thread's. -/
theorem eof_violated {e : Env} (he : e.texts.Ok) {buf : List UInt8} {len : Int} {w w₂ : World} {s s₂ : Sock}
    (hs : s.err.length = 128) (hs₂ : s₂.err.length = 128) (hlen : 0 < len) (hb : len ≤ buf.length) (fuel : Nat) {er : Int}
    (h1 : e.call w.n = none) (h2 : w.inp = [])
    (hc : e.call w₂.n = some er) (hi : er ≠ WSAEINTR) (ha : er ≠ WSAEWOULDBLOCK) :
    ∃ w' s' b', recv e (fuel + 1) buf len w s = .ok (some (-1, w', s', b')) ∧ w'.err.errno = EOF ∧
      ∃ w'' s'' b'', recv e (fuel + 1) buf len { w₂ with err := w'.err } s₂ = .ok (some (-1, w'', s'', b'')) ∧
        w''.err.errno = EOF ∧ w''.inp = w₂.inp := by
  have i1 : Interrupted e.call w.n 0 := ⟨fun j hj => absurd hj (by omega), by rw [Nat.add_zero, h1]; exact fun h => by cases h⟩
  rcases recv_spec he hs (w := w) hlen hb (fuel + 1) with ⟨-, h⟩ | ⟨k, -, i, rc, w', s', b', k1, -, k3⟩
  · have := h 0 (by omega); rw [Nat.add_zero, h1] at this; cases this
  have hk : k = 0 := by
    cases k with
    | zero => rfl
    | succ k => have := i.before 0 (by omega); rw [Nat.add_zero, h1] at this; cases this
  subst hk
  rw [Nat.add_zero, h1] at k3
  unfold Received at k3
  simp only [h2, if_true] at k3
  obtain ⟨-, -, r1, r2, -, -⟩ := k3
  subst r1
  refine ⟨w', s', b', k1, r2, ?_⟩
  rcases recv_spec he hs₂ (w := { w₂ with err := w'.err }) hlen hb (fuel + 1) with ⟨-, h⟩ | ⟨k, -, i, rc, w'', s'', b'', g1, -, g3⟩
  · have := h 0 (by omega); rw [Nat.add_zero, hc] at this; cases this; exact absurd rfl hi
  have hk : k = 0 := by
    cases k with
    | zero => rfl
    | succ k => have := i.before 0 (by omega); rw [Nat.add_zero, hc] at this; cases this; exact absurd rfl hi
  subst hk
  rw [Nat.add_zero, hc] at g3
  have h3 := g3.1.rc
  subst h3
  exact ⟨w'', s'', b'', g1, by rw [g3.1.errno, if_neg ha]; exact r2, g3.1.inp⟩

/-! ## Example -/

/-- The first call finds the end of a stream, the second that another connection was reset (10054). -/
def endThenReset : Env where
  call n := if n = 0 then none else some 10054
  amount _ := 1
  texts := ⟨fun _ => some [120, 0]⟩

/-- Two reads of two sockets: both say that the stream has ended, the second although three bytes are missing. -/
example : (brief (recv endThenReset 1 [0, 0, 0, 0] 4 { world with inp := [] } (init false 2))).map (fun r => (r.1, r.2.1)) =
      some (-1, Io.EOF) ∧
    ((brief (recv endThenReset 1 [0, 0, 0, 0] 4 { world with inp := [] } (init false 2))).bind fun r =>
      (brief (recv endThenReset 1 [0, 0, 0, 0] 4 { r.2.2 with inp := [1, 2, 3] } (init false 2))).map fun r =>
        (r.1, r.2.1, r.2.2.err.last, r.2.2.inp)) = some (-1, Io.EOF, 10054, [1, 2, 3]) := by
  decide +kernel

example : Interrupted endThenReset.call 0 0 := ⟨fun j hj => absurd hj (by omega), by decide⟩

end Verif.Sock.WinTransfer
