import Verif.Sock.IoProps

/-!
# Model of socket/sc_sock.c: moving bytes through pipes, and starting and stopping, on Windows
-/

namespace Verif.Sock.WinIo

open Spec (Fifo)
open Io (Pipe pipeSetErr pipeSetErr_ok)

/-! ## Pipes -/

/-- How the n-th call fails, if it does, and how many bytes it is ready to move, less one -/
structure Env where
  call : Nat → Option Nat
  amount : Nat → Nat

/-- What a call for `len` bytes does: an error, also if the length is negative, or a number of bytes. -/
def moves (e : Env) (n : Nat) (len : Int) (avail : Nat) : Except Nat Nat :=
  match e.call n with
  | some er => .error er
  | none => if len < 0 then .error 10014 else .ok (min (min (e.amount n + 1) len.toNat) avail)

/-- `"pipe send() : err(%d) "` -/
def sendText (er : Nat) : List UInt8 :=
  [112, 105, 112, 101, 32, 115, 101, 110, 100, 40, 41, 32, 58, 32, 101, 114, 114, 40] ++ dec er ++ [41, 32]

/-- `"pipe recv() : err(%d) "` -/
def recvText (er : Nat) : List UInt8 :=
  [112, 105, 112, 101, 32, 114, 101, 99, 118, 40, 41, 32, 58, 32, 101, 114, 114, 40] ++ dec er ++ [41, 32]

/-- `sc_sock_pipe_write`, socket/sc_sock.c:984-995: `buf` is in the memory of the caller, `len` an
unsigned number of 32 bits, `n` the number of calls so far and `q` the bytes on their way. -/
def write (e : Env) (buf : List UInt8) (len : Nat) (p : Pipe) (n : Nat) (q : List UInt8) :
    Res (Int × Pipe × List UInt8) :=
  match moves e n (toInt32 len) len with
  | .error er => do
    let p ← pipeSetErr (sendText er) p
    .ok (-1, p, q)
  | .ok m => if m ≤ buf.length then .ok (m, p, q ++ slice buf 0 m) else .ub

/-- `sc_sock_pipe_read`, socket/sc_sock.c:997-1008 -/
def read (e : Env) (buf : List UInt8) (len : Nat) (p : Pipe) (n : Nat) (q : List UInt8) :
    Res (Int × Pipe × List UInt8 × List UInt8) :=
  match moves e n (toInt32 len) q.length with
  | .error er => do
    let p ← pipeSetErr (recvText er) p
    .ok (-1, p, q, buf)
  | .ok m => if m ≤ buf.length then .ok (m, p, q.drop m, splice buf 0 (q.take m)) else .ub

theorem dec_nonzero (n : Nat) : ∀ b ∈ dec n, b ≠ 0 := by
  intro b hb h
  have := (dec_spec n).2.1 b hb
  subst h
  revert this
  decide

theorem sendText_nonzero (er : Nat) : ∀ b ∈ sendText er, b ≠ 0 := by
  intro b hb
  unfold sendText at hb
  rcases List.mem_append.1 hb with hb' | hb'
  · clear hb
    rcases List.mem_append.1 hb' with hb | hb
    · clear hb'; revert b; decide
    · exact dec_nonzero er b hb
  · clear hb; revert b; decide

theorem recvText_nonzero (er : Nat) : ∀ b ∈ recvText er, b ≠ 0 := by
  intro b hb
  unfold recvText at hb
  rcases List.mem_append.1 hb with hb' | hb'
  · clear hb
    rcases List.mem_append.1 hb' with hb | hb
    · clear hb'; revert b; decide
    · exact dec_nonzero er b hb
  · clear hb; revert b; decide

theorem toInt32_lt (len : Nat) (h : len < 2 ^ 32) : toInt32 len = len ∨ toInt32 len < 0 := by
  unfold toInt32
  have : W32 = 2 ^ 32 := by decide
  simp only [this, Nat.mod_eq_of_lt h]
  split <;> omega

theorem moves_ok {e : Env} {n len avail m : Nat} (h : len < 2 ^ 32) (hm : moves e n (toInt32 len) avail = .ok m) :
    m ≤ len ∧ m ≤ avail ∧ (0 < len → 0 < avail → 0 < m) := by
  unfold moves at hm
  split at hm
  · cases hm
  · split at hm
    · cases hm
    · next hneg =>
      cases hm
      rcases toInt32_lt len h with h' | h'
      · rw [h', Int.toNat_natCast]; omega
      · exact absurd h' hneg

/-- **C97, on Windows.** Writing into a pipe: some bytes of the buffer, in order, at least one if
there are any, or -1, and then nothing is written and the text is a string that names the error. -/
theorem write_ok {e : Env} {buf : List UInt8} {len : Nat} (hb : len ≤ buf.length) (hl : len < 2 ^ 32) {p : Pipe}
    (hp : p.err.length = 128) {n : Nat} {q : List UInt8} :
    ∃ rc p' q', write e buf len p n q = .ok (rc, p', q') ∧ p'.err.length = 128 ∧
      ((∃ m : Nat, rc = m ∧ m ≤ len ∧ (0 < len → 0 < m) ∧ q' = q ++ buf.take m ∧ p' = p) ∨
       rc = -1 ∧ q' = q ∧ ∃ er, CStr p'.err 0 ((sendText er).take 127) ∧ (∀ er', e.call n = some er' → er = er')) := by
  unfold write
  cases hm : moves e n (toInt32 len) len with
  | error er =>
    obtain ⟨err, h1, h2, h3⟩ := pipeSetErr_ok (sendText_nonzero er) hp
    simp only [h1, Res.ok_bind]
    refine ⟨_, _, _, rfl, h2, .inr ⟨rfl, rfl, er, h3, ?_⟩⟩
    intro er' hc
    unfold moves at hm
    rw [hc] at hm
    cases hm
    rfl
  | ok m =>
    obtain ⟨h1, h2, h3⟩ := moves_ok hl hm
    simp only
    rw [if_pos (by omega)]
    refine ⟨_, _, _, rfl, hp, .inl ⟨m, rfl, h1, fun h => h3 h h, ?_, rfl⟩⟩
    simp [slice]

/-- **C97, on Windows.** Reading from a pipe: some bytes, the first ones, at least one if there are
any, into the beginning of the buffer, or -1, and then nothing is read. -/
theorem read_ok {e : Env} {buf : List UInt8} {len : Nat} (hb : len ≤ buf.length) (hl : len < 2 ^ 32) {p : Pipe}
    (hp : p.err.length = 128) {n : Nat} {q : List UInt8} :
    ∃ rc p' q' buf', read e buf len p n q = .ok (rc, p', q', buf') ∧ p'.err.length = 128 ∧
      ((∃ m : Nat, rc = m ∧ m ≤ len ∧ (0 < len → q ≠ [] → 0 < m) ∧ buf'.take m ++ q' = q ∧
          buf'.drop m = buf.drop m ∧ buf'.length = buf.length ∧ p' = p) ∨
       rc = -1 ∧ q' = q ∧ buf' = buf ∧
        ∃ er, CStr p'.err 0 ((recvText er).take 127) ∧ (∀ er', e.call n = some er' → er = er')) := by
  unfold read
  cases hm : moves e n (toInt32 len) q.length with
  | error er =>
    obtain ⟨err, h1, h2, h3⟩ := pipeSetErr_ok (recvText_nonzero er) hp
    simp only [h1, Res.ok_bind]
    refine ⟨_, _, _, _, rfl, h2, .inr ⟨rfl, rfl, rfl, er, h3, ?_⟩⟩
    intro er' hc
    unfold moves at hm
    rw [hc] at hm
    cases hm
    rfl
  | ok m =>
    obtain ⟨h1, h2, h3⟩ := moves_ok hl hm
    simp only
    rw [if_pos (by omega)]
    have hl' : (q.take m).length = m := by simp; omega
    refine ⟨_, _, _, _, rfl, hp, .inl ⟨m, rfl, h1, fun h hq => h3 h (List.length_pos_iff.2 hq), ?_, ?_, ?_, rfl⟩⟩
    · simp only [splice, List.take_zero, List.nil_append]
      rw [List.take_left' hl', List.take_append_drop]
    · simp only [splice, List.take_zero, List.nil_append, Nat.zero_add, hl']
      rw [List.drop_left' hl']
    · rw [length_splice]; omega

/-- A history of writes and reads on one pipe that is empty at first, as their callers see it; between
them the system may be called any number of times. -/
inductive Hist (e : Env) : Fifo → Pipe → Prop
  | refl {p} : p.err.length = 128 → Hist e ⟨[], [], []⟩ p
  | write {f p n buf len rc p' q'} : Hist e f p → len ≤ buf.length → len < 2 ^ 32 →
    WinIo.write e buf len p n f.queue = .ok (rc, p', q') → Hist e ⟨f.written ++ buf.take rc.toNat, f.read, q'⟩ p'
  | read {f p n buf len rc p' q' buf'} : Hist e f p → len ≤ buf.length → len < 2 ^ 32 →
    WinIo.read e buf len p n f.queue = .ok (rc, p', q', buf') → Hist e ⟨f.written, f.read ++ buf'.take rc.toNat, q'⟩ p'

/-- **C97, on Windows.** A pipe is a queue: nothing is lost, doubled or reordered, whatever fails, for
requests of any length. -/
theorem pipe_fifo {e : Env} {f : Fifo} {p : Pipe} (h : Hist e f p) : f.Faithful ∧ p.err.length = 128 := by
  induction h with
  | refl hp => exact ⟨rfl, hp⟩
  | @write f p n buf len rc p' q' h hb hl hr ih =>
    obtain ⟨_, _, _, h1, h2, h3⟩ := write_ok (e := e) hb hl ih.2 (n := n) (q := f.queue)
    rw [h1] at hr
    cases hr
    refine ⟨?_, h2⟩
    have ih := ih.1
    unfold Fifo.Faithful at ih ⊢
    rcases h3 with ⟨m, rfl, -, -, h3, -⟩ | ⟨rfl, h3, -⟩
    · simp only [Int.toNat_natCast]; rw [h3, ← ih, List.append_assoc]
    · simp only; rw [h3, ← ih]; simp
  | @read f p n buf len rc p' q' buf' h hb hl hr ih =>
    obtain ⟨_, _, _, _, h1, h2, h3⟩ := read_ok (e := e) hb hl ih.2 (n := n) (q := f.queue)
    rw [h1] at hr
    cases hr
    refine ⟨?_, h2⟩
    have ih := ih.1
    unfold Fifo.Faithful at ih ⊢
    rcases h3 with ⟨m, rfl, -, -, h3, -⟩ | ⟨rfl, h3, -⟩
    · simp only [Int.toNat_natCast]; rw [List.append_assoc, h3, ih]
    · simp only; rw [h3, ← ih]; simp

/-! ## Starting and stopping -/

/-- The socket library of the system: how often it is held by this process, and the number of calls -/
structure Wsa where
  refs : Nat
  n : Nat
  deriving DecidableEq

/-- What the n-th call of `WSAStartup` does: it fails, or grants a version; whether the n-th call of
`WSACleanup` fails though the library is held (`WSAENETDOWN`) -/
structure Sys where
  start : Nat → Option (Nat × Nat)
  stuck : Nat → Bool

/-- `sc_sock_startup`, socket/sc_sock.c:101-113; a granted version counts as held (documentation of
`WSAStartup`: each successful call wants a call of `WSACleanup`). -/
def startup (y : Sys) (w : Wsa) : Int × Wsa :=
  match y.start w.n with
  | none => (-1, { w with n := w.n + 1 })
  | some (lo, hi) => if lo ≠ 2 ∨ hi ≠ 2 then (-1, ⟨w.refs + 1, w.n + 1⟩) else (0, ⟨w.refs + 1, w.n + 1⟩)

/-- `sc_sock_cleanup`, socket/sc_sock.c:115-121 -/
def cleanup (y : Sys) (w : Wsa) : Int × Wsa :=
  if w.refs = 0 ∨ y.stuck w.n then (-1, { w with n := w.n + 1 }) else (0, ⟨w.refs - 1, w.n + 1⟩)

/-- `sc_sock_startup`, socket/sc_sock.c:202-205, elsewhere -/
def startupPosix : Int := 0

/-- `sc_sock_cleanup`, socket/sc_sock.c:207-210, elsewhere -/
def cleanupPosix : Int := 0

/-- `sc_sock_notify_systemd`, socket/sc_sock.c:123-127: there is no systemd on Windows -/
def notifySystemd : Int := -1

/-- **C112**, elsewhere: both calls do nothing and succeed; and on Windows, telling systemd always fails. -/
theorem posix_ok : startupPosix = 0 ∧ cleanupPosix = 0 ∧ notifySystemd = -1 := ⟨rfl, rfl, rfl⟩

/-- What a program does, and how many of its calls have succeeded more often at starting than at
stopping, as it sees it -/
inductive Prog (y : Sys) : Int → Wsa → Prop
  | init {n} : Prog y 0 ⟨0, n⟩
  | start {k w rc w'} : Prog y k w → startup y w = (rc, w') → Prog y (if rc = 0 then k + 1 else k) w'
  | stop {k w rc w'} : Prog y k w → cleanup y w = (rc, w') → Prog y (if rc = 0 then k - 1 else k) w'

/-- **C112**, where it holds: if the system grants version 2.2 or fails, the library is held exactly as often
as the program was told; a program that has stopped it as often as it has started it holds nothing. -/
theorem balanced_partial {y : Sys} (hy : ∀ n v, y.start n = some v → v = (2, 2)) {k : Int} {w : Wsa} (h : Prog y k w) :
    (w.refs : Int) = k := by
  induction h with
  | init => rfl
  | @start k w rc w' h hs ih =>
    unfold startup at hs
    cases hv : y.start w.n with
    | none => rw [hv] at hs; cases hs; simpa using ih
    | some v =>
      rw [hv, hy _ _ hv] at hs
      simp only at hs
      rw [if_neg (by omega)] at hs
      cases hs
      simp [ih]
  | @stop k w rc w' h hs ih =>
    unfold cleanup at hs
    split at hs
    · cases hs; simpa using ih
    · next hn =>
      cases hs
      have : w.refs ≠ 0 := fun h0 => hn (.inl h0)
      simp only [if_pos]
      omega

/-- **C112 is violated** where an older version is granted: the program is told that starting has
failed, and the library stays held, once more for each try. -/
theorem startup_violated {y : Sys} {lo hi : Nat} (hy : ∀ n, y.start n = some (lo, hi)) (hv : (lo, hi) ≠ (2, 2)) (m : Nat) :
    Prog y 0 ⟨m, m⟩ ∧ (∀ w, (startup y w).1 = -1) := by
  have hne : lo ≠ 2 ∨ hi ≠ 2 := by
    by_cases h : lo = 2
    · exact .inr (fun h' => hv (by rw [h, h']))
    · exact .inl h
  have hs : ∀ w : Wsa, startup y w = (-1, ⟨w.refs + 1, w.n + 1⟩) := by
    intro w
    unfold startup
    rw [hy]
    simp only
    rw [if_pos hne]
  refine ⟨?_, fun w => by rw [hs]⟩
  induction m with
  | zero => exact .init
  | succ m ih => exact .start ih (hs _)

/-! ## Examples -/

/-- The second call fails, calls move up to two bytes. -/
def jerky : Env where
  call n := if n = 1 then some 10054 else none
  amount _ := 1

def pipe0 : Pipe := ⟨0, 0, 0, 1, List.replicate 128 0⟩

/-- A result without the text -/
def brief (r : Res (Int × Pipe × List UInt8)) : Option (Int × List UInt8) :=
  match r with
  | .ok (rc, _, q) => some (rc, q)
  | .ub => none

example : brief (write jerky [1, 2, 3] 3 pipe0 0 [9]) = some (2, [9, 1, 2]) := by decide +kernel
example : brief (write jerky [1, 2, 3] 3 pipe0 1 [9]) = some (-1, [9]) := by decide +kernel

/-- A process that starts the library, stops it, and cannot stop it again. -/
def good : Sys := ⟨fun _ => some (2, 2), fun _ => false⟩

example : Prog good 0 ⟨0, 3⟩ := .stop (.stop (.start .init rfl) rfl) rfl

end Verif.Sock.WinIo
