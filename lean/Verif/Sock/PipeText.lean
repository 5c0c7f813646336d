import Verif.Sock.WinIo
import Verif.Sock.WinPipe

/-!
# The error text of a pipe

Specification, model and properties of `sc_sock_pipe_err` after any history of calls for a pipe, on
Windows and elsewhere.
-/

namespace Verif.Sock.PipeText

open Io (Pipe IoEnv pipeSetErr pipeSetErr_ok pipeInit pipeClose pipeTerm pipeWrite pipeRead pipeErr initText closeText)

/-! ## Specification -/

/-- What matters for the text: a pipe is made anew, or a call of the system failed, of which a text tells. -/
inductive Ev where
  | made
  | failed (text : List UInt8)
  deriving DecidableEq

/-- The text that is due: that of the last failure since the pipe was made, nothing if there was none. -/
def due (es : List Ev) : List UInt8 :=
  es.foldl (fun t e => match e with
    | .made => []
    | .failed t' => t') []

/-- The object holds a text, of which it has room for 127 bytes. -/
def Holds (p : Pipe) (t : List UInt8) : Prop := p.err.length = 128 ∧ CStr p.err 0 (t.take 127)

theorem due_append (es fs : List Ev) : due (es ++ fs) = fs.foldl (fun t e => match e with
    | .made => []
    | .failed t' => t') (due es) := List.foldl_append ..

/-- Asking for the text yields it. -/
theorem asked {p : Pipe} {t : List UInt8} (h : Holds p t) :
    ∃ err, pipeErr p = .ok { p with err := err } ∧ CStr err 0 (t.take 127) := by
  obtain ⟨err, h1, -, h3⟩ := Io.pipeErr_ok h.1 h.2
  exact ⟨err, h1, h3⟩

theorem cstr_empty : CStr (List.replicate 128 (0 : UInt8)) 0 [] :=
  ⟨fun i hi => by simp at hi, by simp, by simp⟩

/-! ## Windows: model -/

/-- How the n-th call fails, if it does, how many bytes it is ready to move, less one, and the descriptor it gives out -/
structure Env extends WinIo.Env where
  fd : Nat → List Nat → Nat

/-- The part that decides on descriptors -/
def Env.toPipe (e : Env) : WinPipe.Env := ⟨fun n => (e.call n).isNone, e.fd⟩

/-- `WSAGetLastError` after `n` calls: the error of the last that failed -/
def Env.last (e : Env) : Nat → Nat
  | 0 => 0
  | n + 1 => match e.call n with
    | some er => er
    | none => e.last n

/-- `"sc_sock_pipe_init() : %d "` -/
def winInitText (er : Nat) : List UInt8 :=
  [115, 99, 95, 115, 111, 99, 107, 95, 112, 105, 112, 101, 95, 105, 110, 105, 116, 40, 41, 32, 58, 32] ++ dec er ++ [32]

/-- `"closesocket() : err(%d) "` -/
def winCloseText (er : Nat) : List UInt8 :=
  [99, 108, 111, 115, 101, 115, 111, 99, 107, 101, 116, 40, 41, 32, 58, 32, 101, 114, 114, 40] ++ dec er ++ [41, 32]

/-- A descriptor, or `SC_INVALID` -/
def toFd : Option Nat → Int
  | none => -1
  | some d => d

/-- `sc_sock_pipe_init`, socket/sc_sock.c:878-954, with the text: the label `wsafail` is at lines 951-953. -/
def init (e : Env) (s : WinPipe.World) : Res (Int × Pipe × WinPipe.World) :=
  let (rc, fds, s) := WinPipe.init e.toPipe s
  let p : Pipe := { fd := 0, op := 0, rfd := toFd fds.r, wfd := toFd fds.w, err := List.replicate 128 0 }
  if rc = 0 then .ok (0, { p with fd := p.rfd }, s)
  else do
    let p ← pipeSetErr (winInitText (e.last s.n)) p
    .ok (-1, p, s)

/-- One `closesocket` of `sc_sock_pipe_term` with what follows, socket/sc_sock.c:964-969, 971-976. The
descriptors do not matter here. -/
def close1 (e : Env) (n : Nat) (rc : Int) (p : Pipe) : Res (Int × Nat × Pipe) :=
  if (e.call n).isNone then .ok (rc, n + 1, p)
  else do
    let p ← pipeSetErr (winCloseText (e.last (n + 1))) p
    .ok (-1, n + 1, p)

/-- `sc_sock_pipe_term`, socket/sc_sock.c:956-982, with the text. -/
def term (e : Env) (n : Nat) (p : Pipe) : Res (Int × Nat × Pipe) :=
  if p.rfd = -1 then .ok (0, n, p)
  else do
    let (rc, n, p) ← close1 e n 0 p
    let (rc, n, p) ← close1 e n rc p
    .ok (rc, n, { p with rfd := -1, wfd := -1 })

/-! ## Windows: properties -/

/-- What the n-th call does to the text if it fails. -/
def evOf (form : Nat → List UInt8) : Option Nat → List Ev
  | none => []
  | some er => [.failed (form er)]

/-- The first failure among `k` calls. -/
def firstOf (e : Env) : (k n : Nat) → Option Nat
  | 0, _ => none
  | k + 1, n => match e.call n with
    | some er => some er
    | none => firstOf e k (n + 1)

/-- How `send` and `recv` fail -/
def errOf : Except Nat Nat → Option Nat
  | .error er => some er
  | .ok _ => none

/-- A history of calls for one pipe object, with what happened. Nine calls of the system make a pipe; the tenth, which
closes the listening socket, does not matter. Whatever happened to the object before it is made does not matter either.
Between the calls the system may be called by others. -/
inductive Hist (e : Env) : List Ev → Pipe → Prop
  | init {es s rc p' s'} : PipeText.init e s = .ok (rc, p', s') →
    Hist e (es ++ [.made] ++ evOf winInitText (firstOf e 9 s.n)) p'
  | write {es p n buf len q rc p' q'} : Hist e es p → len ≤ buf.length → len < 2 ^ 32 →
    WinIo.write e.toEnv buf len p n q = .ok (rc, p', q') →
    Hist e (es ++ evOf WinIo.sendText (errOf (WinIo.moves e.toEnv n (toInt32 len) len))) p'
  | read {es p n buf len q rc p' q' buf'} : Hist e es p → len ≤ buf.length → len < 2 ^ 32 →
    WinIo.read e.toEnv buf len p n q = .ok (rc, p', q', buf') →
    Hist e (es ++ evOf WinIo.recvText (errOf (WinIo.moves e.toEnv n (toInt32 len) q.length))) p'
  | term {es p n rc n' p'} : Hist e es p → p.rfd ≠ -1 → PipeText.term e n p = .ok (rc, n', p') →
    Hist e (es ++ evOf winCloseText (e.call n) ++ evOf winCloseText (e.call (n + 1))) p'
  | again {es p n rc n' p'} : Hist e es p → p.rfd = -1 → PipeText.term e n p = .ok (rc, n', p') → Hist e es p'

theorem winInitText_nonzero (er : Nat) : ∀ b ∈ winInitText er, b ≠ 0 := by
  intro b hb
  unfold winInitText at hb
  rcases List.mem_append.1 hb with hb' | hb'
  · clear hb
    rcases List.mem_append.1 hb' with hb | hb
    · clear hb'; revert b; decide
    · exact WinIo.dec_nonzero er b hb
  · clear hb; revert b; decide

theorem winCloseText_nonzero (er : Nat) : ∀ b ∈ winCloseText er, b ≠ 0 := by
  intro b hb
  unfold winCloseText at hb
  rcases List.mem_append.1 hb with hb' | hb'
  · clear hb
    rcases List.mem_append.1 hb' with hb | hb
    · clear hb'; revert b; decide
    · exact WinIo.dec_nonzero er b hb
  · clear hb; revert b; decide

/-- `k` calls of which the first failure ends the sequence: how it ends. -/
theorem calls_first (e : Env) : ∀ k s, ∃ s', WinPipe.calls e.toPipe k s = ((firstOf e k s.n).isNone, s') ∧
    (∀ er, firstOf e k s.n = some er → e.last s'.n = er) ∧ (firstOf e k s.n = none → s'.n = s.n + k) := by
  intro k
  induction k with
  | zero => intro s; exact ⟨s, rfl, (fun er h => by cases h), fun _ => rfl⟩
  | succ k ih =>
    intro s
    unfold WinPipe.calls WinPipe.call firstOf
    cases hc : e.call s.n with
    | some er =>
      refine ⟨{ s with n := s.n + 1 }, by simp [Env.toPipe, hc], ?_, by simp⟩
      intro er' h
      simp only [Env.last, hc]
      simpa using h
    | none =>
      obtain ⟨s', h1, h2, h3⟩ := ih { s with n := s.n + 1 }
      refine ⟨s', ?_, h2, fun h => by rw [h3 h]; simp only; omega⟩
      simp only [Env.toPipe, hc, Option.isNone_none, if_true]
      exact h1

theorem firstOf_add (e : Env) (j : Nat) : ∀ k n, firstOf e (k + j) n = match firstOf e k n with
    | some er => some er
    | none => firstOf e j (n + k) := by
  intro k
  induction k with
  | zero => intro n; simp [firstOf]
  | succ k ih =>
    intro n
    rw [Nat.add_right_comm, firstOf, firstOf]
    cases e.call n with
    | some er => rfl
    | none =>
      simp only
      rw [ih, Nat.add_right_comm n 1 k, Nat.add_assoc n k 1]

theorem make_first (e : Env) (s : WinPipe.World) : ∃ o s', WinPipe.make e.toPipe s = (o, s') ∧
    o.isSome = (firstOf e 1 s.n).isNone ∧ s'.n = s.n + 1 ∧ (∀ er, firstOf e 1 s.n = some er → e.last s'.n = er) := by
  unfold WinPipe.make firstOf firstOf
  cases hc : e.call s.n with
  | some er =>
    refine ⟨none, { s with n := s.n + 1 }, by simp [Env.toPipe, hc], rfl, rfl, ?_⟩
    intro er' h
    simp only [Env.last, hc]
    simpa using h
  | none =>
    refine ⟨some (e.fd s.n s.opened), ⟨e.fd s.n s.opened :: s.opened, s.n + 1⟩, by simp [Env.toPipe, hc], rfl, rfl, ?_⟩
    intro er' h
    simp at h

/-- Making a pipe fails exactly if one of the nine calls does, and the error is that of the first of them, which is also the
last. -/
theorem init_first (e : Env) (s : WinPipe.World) : ∃ rc fds s', WinPipe.init e.toPipe s = (rc, fds, s') ∧
    (rc = 0 ↔ firstOf e 9 s.n = none) ∧ (∀ er, firstOf e 9 s.n = some er → e.last s'.n = er) := by
  have e1 : firstOf e 9 s.n = _ := firstOf_add e 8 1 s.n
  have e2 : firstOf e 8 (s.n + 1) = _ := firstOf_add e 4 4 (s.n + 1)
  have e3 : firstOf e 4 (s.n + 1 + 4) = _ := firstOf_add e 3 1 (s.n + 1 + 4)
  have e4 : firstOf e 3 (s.n + 1 + 4 + 1) = _ := firstOf_add e 1 2 (s.n + 1 + 4 + 1)
  rw [e1, e2, e3, e4]
  clear e1 e2 e3 e4
  unfold WinPipe.init
  obtain ⟨o, s1, h1, h2, h3, h4⟩ := make_first e s
  rw [h1]
  cases hf : firstOf e 1 s.n with
  | some er =>
    rw [hf] at h2 h4
    cases o with
    | some _ => cases h2
    | none => exact ⟨_, _, _, rfl, by simp, h4⟩
  | none =>
    rw [hf] at h2
    cases o with
    | none => cases h2
    | some l =>
    simp only
    clear h1 h2 hf h4
    obtain ⟨s2, h1, h2, h4⟩ := calls_first e 4 s1
    rw [h1]
    rw [h3] at h2 h4 ⊢
    cases hf : firstOf e 4 (s.n + 1) with
    | some er =>
      rw [hf] at h2
      exact ⟨_, _, _, rfl, by simp, h2⟩
    | none =>
      have h5 := h4 hf
      simp only [Option.isNone_none]
      clear h1 h2 h4 hf h3
      obtain ⟨o, s3, h1, h2, h3, h4⟩ := make_first e s2
      rw [h1]
      rw [h5] at h2 h3 h4
      cases hf : firstOf e 1 (s.n + 1 + 4) with
      | some er =>
        rw [hf] at h2 h4
        cases o with
        | some _ => cases h2
        | none => exact ⟨_, _, _, rfl, by simp, h4⟩
      | none =>
        rw [hf] at h2
        cases o with
        | none => cases h2
        | some w =>
        simp only
        clear h1 h2 hf h4 h5
        obtain ⟨s4, h1, h2, h4⟩ := calls_first e 2 s3
        rw [h1]
        rw [h3] at h2 h4 ⊢
        cases hf : firstOf e 2 (s.n + 1 + 4 + 1) with
        | some er =>
          rw [hf] at h2
          exact ⟨_, _, _, rfl, by simp, h2⟩
        | none =>
          have h5 := h4 hf
          simp only [Option.isNone_none]
          clear h1 h2 h4 hf h3
          obtain ⟨o, s5, h1, h2, h3, h4⟩ := make_first e s4
          rw [h1]
          rw [h5] at h2 h3 h4
          cases hf : firstOf e 1 (s.n + 1 + 4 + 1 + 2) with
          | some er =>
            rw [hf] at h2 h4
            cases o with
            | some _ => cases h2
            | none => exact ⟨_, _, _, rfl, by simp, h4⟩
          | none =>
            rw [hf] at h2
            cases o with
            | none => cases h2
            | some r => exact ⟨_, _, _, rfl, by simp, fun er h => by cases h⟩

theorem holds_set {p : Pipe} (hl : p.err.length = 128) {t : List UInt8} (ht : ∀ b ∈ t, b ≠ 0) :
    ∃ p', pipeSetErr t p = .ok p' ∧ Holds p' t ∧ p'.rfd = p.rfd := by
  obtain ⟨err, h1, h2, h3⟩ := pipeSetErr_ok ht hl
  exact ⟨_, h1, ⟨h2, h3⟩, rfl⟩

theorem close1_ok {e : Env} {n : Nat} {rc : Int} {p : Pipe} {es : List Ev} (h : Holds p (due es)) {rc' : Int} {n' : Nat}
    {p' : Pipe} (hc : close1 e n rc p = .ok (rc', n', p')) :
    Holds p' (due (es ++ evOf winCloseText (e.call n))) ∧ n' = n + 1 := by
  unfold close1 at hc
  cases hn : e.call n with
  | none =>
    rw [hn] at hc
    cases hc
    exact ⟨by simpa [evOf] using h, rfl⟩
  | some er =>
    rw [hn, if_neg (by simp)] at hc
    obtain ⟨p1, h1, h2, -⟩ := holds_set h.1 (winCloseText_nonzero (e.last (n + 1)))
    rw [h1] at hc
    cases hc
    refine ⟨?_, rfl⟩
    simp only [Env.last, hn] at h2
    rw [due_append]
    exact h2

/-- **C163, on Windows.** After any history the text of a pipe is that of the last call that failed since it was made. -/
theorem windows_text {e : Env} {es : List Ev} {p : Pipe} (h : Hist e es p) : Holds p (due es) := by
  induction h with
  | @init es s rc p' s' h =>
    obtain ⟨rc0, fds, s1, h1, h2, h3⟩ := init_first e s
    unfold PipeText.init at h
    rw [h1] at h
    simp only at h
    rw [due_append, due_append]
    cases hf : firstOf e 9 s.n with
    | none =>
      rw [if_pos (h2.2 hf)] at h
      cases h
      exact ⟨by simp, by simpa [evOf] using cstr_empty⟩
    | some er =>
      rw [if_neg (fun hc => by rw [h2.1 hc] at hf; cases hf), h3 er hf] at h
      obtain ⟨p1, k1, k2, -⟩ := holds_set (p := ⟨0, 0, toFd fds.r, toFd fds.w, List.replicate 128 0⟩) (by simp) (winInitText_nonzero er)
      rw [k1] at h
      cases h
      exact k2
  | @write es p n buf len q rc p' q' _ hb hl hr ih =>
    unfold WinIo.write at hr
    rw [due_append]
    cases hm : WinIo.moves e.toEnv n (toInt32 len) len with
    | error er =>
      obtain ⟨p1, k1, k2, -⟩ := holds_set ih.1 (WinIo.sendText_nonzero er)
      rw [hm] at hr
      simp only [k1, Res.ok_bind] at hr
      cases hr
      exact k2
    | ok m =>
      rw [hm] at hr
      simp only at hr
      split at hr
      · cases hr; exact ih
      · cases hr
  | @read es p n buf len q rc p' q' buf' _ hb hl hr ih =>
    unfold WinIo.read at hr
    rw [due_append]
    cases hm : WinIo.moves e.toEnv n (toInt32 len) q.length with
    | error er =>
      obtain ⟨p1, k1, k2, -⟩ := holds_set ih.1 (WinIo.recvText_nonzero er)
      rw [hm] at hr
      simp only [k1, Res.ok_bind] at hr
      cases hr
      exact k2
    | ok m =>
      rw [hm] at hr
      simp only at hr
      split at hr
      · cases hr; exact ih
      · cases hr
  | @term es p n rc n' p' _ hp ht ih =>
    unfold PipeText.term at ht
    rw [if_neg hp] at ht
    obtain ⟨⟨rc1, n1, p1⟩, k1, ht⟩ := Res.bind_eq_ok.1 ht
    obtain ⟨⟨rc2, n2, p2⟩, k2, ht⟩ := Res.bind_eq_ok.1 ht
    cases ht
    obtain ⟨m1, rfl⟩ := close1_ok ih k1
    obtain ⟨m2, -⟩ := close1_ok m1 k2
    exact m2
  | @again es p n rc n' p' _ hp ht ih =>
    unfold PipeText.term at ht
    rw [if_pos hp] at ht
    cases ht
    exact ih

theorem close1_total (e : Env) (n : Nat) (rc : Int) {p : Pipe} (hl : p.err.length = 128) :
    ∃ p', close1 e n rc p = .ok (if e.call n = none then rc else -1, n + 1, p') ∧ p'.err.length = 128 := by
  unfold close1
  cases hn : e.call n with
  | none => exact ⟨p, by simp, hl⟩
  | some er =>
    obtain ⟨p1, h1, h2, -⟩ := holds_set hl (winCloseText_nonzero (e.last (n + 1)))
    rw [if_neg (by simp), h1]
    exact ⟨p1, by simp, h2.1⟩

/-- Making a pipe always ends, with 0 exactly if none of the nine calls failed. -/
theorem windows_init (e : Env) (s : WinPipe.World) :
    ∃ rc p s', init e s = .ok (rc, p, s') ∧ (rc = if firstOf e 9 s.n = none then 0 else -1) := by
  obtain ⟨rc0, fds, s1, h1, h2, h3⟩ := init_first e s
  unfold init
  rw [h1]
  simp only
  by_cases hf : firstOf e 9 s.n = none
  · rw [if_pos (h2.2 hf)]
    exact ⟨_, _, _, rfl, by rw [if_pos hf]⟩
  · rw [if_neg fun h => hf (h2.1 h)]
    obtain ⟨p1, k1, -, -⟩ := holds_set (p := ⟨0, 0, toFd fds.r, toFd fds.w, List.replicate 128 0⟩) (by simp)
      (winInitText_nonzero (e.last s1.n))
    rw [k1]
    exact ⟨_, _, _, rfl, by rw [if_neg hf]⟩

/-- Destroying a pipe always ends, with 0 exactly if both ends could be closed; it has none then. -/
theorem windows_term (e : Env) (n : Nat) {p : Pipe} {t : List UInt8} (h : Holds p t) (hp : p.rfd ≠ -1) :
    ∃ p', term e n p = .ok (if e.call n = none ∧ e.call (n + 1) = none then 0 else -1, n + 2, p') ∧ p'.Shut := by
  obtain ⟨p1, h1, h2⟩ := close1_total e n 0 h.1
  obtain ⟨p2, h3, h4⟩ := close1_total e (n + 1) (if e.call n = none then 0 else -1) h2
  unfold term
  rw [if_neg hp, h1, Res.ok_bind]
  simp only
  rw [h3, Res.ok_bind]
  refine ⟨{ p2 with rfd := -1, wfd := -1 }, ?_, rfl, rfl⟩
  by_cases ha : e.call n = none <;> by_cases hb : e.call (n + 1) = none <;> simp [ha, hb]

/-! ## POSIX -/

/-- The text of an error -/
def str (e : IoEnv) (er : Int) : List UInt8 := (e.strerror er).takeWhile (· ≠ 0)

/-- What a call that can fail does to the text if it fails. -/
def evP (e : IoEnv) (form : List UInt8 → List UInt8) : Option Int → List Ev
  | none => []
  | some er => [.failed (form (str e er))]

/-- A history of calls for one pipe object, with what happened. Failures of `write` and `read` are left out. -/
inductive HistP (e : IoEnv) : List Ev → Pipe → Prop
  | init {es os rc os' p'} : pipeInit e.toEnv os = .ok (rc, os', p') →
    HistP e (es ++ [.made] ++ evP e initText (e.call os.n)) p'
  | write {es p buf len fuel os q rc os' q'} : HistP e es p → pipeWrite e buf len fuel os q = .ok (some (rc, os', q')) →
    HistP e es p
  | read {es p buf len fuel os q rc os' q' buf'} : HistP e es p →
    pipeRead e len fuel buf os q = .ok (some (rc, os', q', buf')) → HistP e es p
  | term {es p os rc os' p'} : HistP e es p → p.rfd ≠ -1 → pipeTerm e.toEnv os p = .ok (rc, os', p') →
    HistP e (es ++ evP e closeText (e.call os.n) ++ evP e closeText (e.call (os.n + 1))) p'
  | again {es p os rc os' p'} : HistP e es p → p.rfd = -1 → pipeTerm e.toEnv os p = .ok (rc, os', p') → HistP e es p'

theorem attempt_some {e : Sock.Env} {os : Os} {er : Int} (h : e.call os.n = some er) :
    ∃ os', attempt e os = (false, os') ∧ os'.errno = er ∧ os'.n = os.n + 1 := by
  unfold attempt
  rw [h]
  exact ⟨_, rfl, rfl, rfl⟩

theorem str_eq {e : IoEnv} (he : ∀ er, ∃ t, CStr (e.strerror er) 0 t) (er : Int) : CStr (e.strerror er) 0 (str e er) := by
  obtain ⟨t, ht⟩ := he er
  have : str e er = t := by
    unfold str
    obtain ⟨h1, h2, h3⟩ := ht
    have hl : t.length < (e.strerror er).length := by
      have := (List.getElem?_eq_some_iff.1 h3).1
      omega
    have e1 : e.strerror er = t ++ 0 :: (e.strerror er).drop (t.length + 1) := by
      apply List.ext_getElem?
      intro i
      by_cases hi : i < t.length
      · rw [List.getElem?_append_left hi]
        have := h1 i hi
        rw [Nat.zero_add] at this
        rw [this, List.getElem?_eq_getElem hi]
      · rw [List.getElem?_append_right (by omega)]
        by_cases hi' : i = t.length
        · subst hi'; rw [Nat.sub_self]; rw [Nat.zero_add] at h3; simpa using h3
        · obtain ⟨j, rfl⟩ : ∃ j, i = t.length + 1 + j := ⟨i - (t.length + 1), by omega⟩
          rw [show t.length + 1 + j - t.length = j + 1 by omega, List.getElem?_cons_succ, List.getElem?_drop]
    rw [e1, List.takeWhile_append_of_pos (by simpa using h2)]
    simp
  rwa [this]

theorem pipeClose_text {e : IoEnv} (he : ∀ er, ∃ t, CStr (e.strerror er) 0 t) {fd rc : Int} {os : Os} {p : Pipe} {es : List Ev}
    (h : Holds p (due es)) {rc' : Int} {os' : Os} {p' : Pipe} (hc : pipeClose e.toEnv fd rc os p = .ok (rc', os', p')) :
    Holds p' (due (es ++ evP e closeText (e.call os.n))) ∧ os'.n = os.n + 1 := by
  unfold pipeClose at hc
  obtain ⟨⟨ok, os1⟩, hk, hc⟩ := Res.bind_eq_ok.1 hc
  unfold kclose at hk
  split at hk
  · cases hn : e.call os.n with
    | none =>
      unfold attempt at hk
      simp only [hn] at hk
      cases hk
      cases hc
      exact ⟨by simpa [evP] using h, rfl⟩
    | some er =>
      obtain ⟨os2, k1, k2, k3⟩ := attempt_some (e := e.toEnv)
        (os := { os with fds := os.fds.filter (fun f => f.num ≠ fd) }) hn
      rw [k1] at hk
      cases hk
      simp only [Bool.false_eq_true, if_false, k2] at hc
      rw [cstr_eq (str_eq he er), Res.ok_bind] at hc
      obtain ⟨p1, m1, m2, -⟩ := holds_set h.1 (Io.closeText_nonzero (str_eq he er).nonzero)
      rw [m1] at hc
      cases hc
      rw [due_append]
      exact ⟨m2, k3⟩
  · cases hk

/-- **C163** on other systems, but for failures of `sc_sock_pipe_write` and `sc_sock_pipe_read`, which store no text and are
not counted here: the text of a pipe is that of the last call to make or close it that failed. -/
theorem posix_text_partial {e : IoEnv} (he : ∀ er, ∃ t, CStr (e.strerror er) 0 t) {es : List Ev} {p : Pipe} (h : HistP e es p) :
    Holds p (due es) := by
  induction h with
  | @init es os rc os' p' h =>
    unfold pipeInit Io.kpipe at h
    rw [due_append, due_append]
    cases hn : e.call os.n with
    | none =>
      unfold attempt at h
      simp only [hn] at h
      cases h
      exact ⟨by simp, by simpa [evP] using cstr_empty⟩
    | some er =>
      obtain ⟨os2, k1, k2, -⟩ := attempt_some (e := e.toEnv) hn
      rw [k1] at h
      simp only [k2] at h
      rw [cstr_eq (str_eq he er), Res.ok_bind] at h
      obtain ⟨p1, m1, m2, -⟩ := holds_set (p := ⟨0, 0, -1, -1, List.replicate 128 0⟩) (by simp) (Io.initText_nonzero (str_eq he er).nonzero)
      rw [m1] at h
      cases h
      exact m2
  | write _ _ ih => exact ih
  | read _ _ ih => exact ih
  | @term es p os rc os' p' _ hp ht ih =>
    unfold pipeTerm at ht
    rw [if_neg hp] at ht
    obtain ⟨⟨rc1, n1, p1⟩, k1, ht⟩ := Res.bind_eq_ok.1 ht
    obtain ⟨⟨rc2, n2, p2⟩, k2, ht⟩ := Res.bind_eq_ok.1 ht
    cases ht
    obtain ⟨m1, hn⟩ := pipeClose_text he ih k1
    obtain ⟨m2, -⟩ := pipeClose_text he m1 k2
    rw [hn] at m2
    exact m2
  | @again es p os rc os' p' _ hp ht ih =>
    unfold pipeTerm at ht
    rw [if_pos hp] at ht
    cases ht
    exact ih

/-- **C163 is violated** on other systems: whatever the error, writing and reading fail without storing a text, so that
the text of a new pipe is empty. -/
theorem posix_text_violated {e : IoEnv} {os os1 : Os} {p : Pipe} (hi : pipeInit e.toEnv os = .ok (0, os1, p)) {os2 : Os}
    {er : Int} (hc : e.call os2.n = some er) (hne : er ≠ Io.EINTR) (buf : List UInt8) (len : Nat) (q : List UInt8) (es : List Ev) :
    HistP e (es ++ [.made]) p ∧ CStr p.err 0 [] ∧
    (∃ os', pipeWrite e buf len 1 os2 q = .ok (some (-1, os', q)) ∧ os'.errno = er) ∧
    ∃ os', pipeRead e len 1 buf os2 q = .ok (some (-1, os', q, buf)) ∧ os'.errno = er := by
  obtain ⟨os', k1, k2, -⟩ := attempt_some (e := e.toEnv) hc
  have hn : e.call os.n = none ∧ p.err = List.replicate 128 0 := by
    unfold pipeInit Io.kpipe at hi
    cases hn : e.call os.n with
    | none =>
      unfold attempt at hi
      simp only [hn] at hi
      cases hi
      exact ⟨rfl, rfl⟩
    | some er =>
      obtain ⟨os2, k1, k2, -⟩ := attempt_some (e := e.toEnv) hn
      rw [k1] at hi
      simp only at hi
      obtain ⟨_, _, hi⟩ := Res.bind_eq_ok.1 hi
      obtain ⟨_, _, hi⟩ := Res.bind_eq_ok.1 hi
      cases hi
  refine ⟨?_, by rw [hn.2]; exact cstr_empty, ⟨os', ?_, k2⟩, ⟨os', ?_, k2⟩⟩
  · have := HistP.init (es := es) hi
    rw [hn.1] at this
    simpa [evP] using this
  · unfold pipeWrite Io.kwrite
    rw [k1]
    simp only [Res.ok_bind]
    rw [if_neg (by rw [k2]; exact hne)]
  · unfold pipeRead Io.kread
    rw [k1]
    simp only [Res.ok_bind]
    rw [if_neg (by rw [k2]; exact hne)]

/-! ## Examples -/

/-- Closing the reading end fails with 10038, writing with 10054, and nothing else. -/
def sys1 : Env := ⟨⟨fun n => if n = 12 then some 10038 else if n = 11 then some 10054 else none, fun _ => 7⟩, fun n _ => n + 3⟩

-- A pipe is made, writing fails, then closing
example : (match init sys1 ⟨[], 0⟩ with
    | .ok (0, p, s) => match WinIo.write sys1.toEnv [1, 2] 2 p 11 [] with
      | .ok (rc, p, _) => decide (s.n = 10 ∧ rc = -1 ∧ p.err.take 26 = WinIo.sendText 10054 ++ [0]) &&
        (match term sys1 12 p with
        | .ok (rc, _, p) => decide (rc = -1) && decide (p.err.take 28 = winCloseText 10038 ++ [0])
        | .ub => false)
      | .ub => false
    | _ => false) = true := by decide +kernel

-- The fourth call fails
example : (match init ⟨⟨fun n => if n = 3 then some 10048 else none, fun _ => 0⟩, fun n _ => n⟩ ⟨[], 0⟩ with
    | .ok (rc, p, _) => decide (rc = -1) && decide (p.err.take 29 = winInitText 10048 ++ [0])
    | .ub => false) = true := by decide +kernel

end Verif.Sock.PipeText
