import Verif.Poll.WinCall
import Verif.Poll.WinLife
import Verif.Poll.Text
import Verif.Sock.PipeText
import Verif.Sock.Text

/-!
# The text of the errors of pollers on Windows

The calls of Verif/Poll/Win.lean, WinCall.lean and WinLife.lean with the text that `sc_sock_poll_err` gives afterwards. The
text belongs to the thread that makes the call.
-/

namespace Verif.Poll.WinText

open Poll.Win
open Sock.PipeText (Holds winInitText winCloseText)
open Sock.Win (Texts Ended pollErrFromCode)

/-- `"Out of memory."` -/
def oom : List UInt8 :=
  [79, 117, 116, 32, 111, 102, 32, 109, 101, 109, 111, 114, 121, 46]

/-- `"poll : sc_sock_poll is not initialized or already terminated"` -/
def closedText : List UInt8 :=
  [112, 111, 108, 108, 32, 58, 32, 115, 99, 95, 115, 111, 99, 107, 95, 112, 111, 108, 108, 32, 105, 115, 32, 110,
    111, 116, 32, 105, 110, 105, 116, 105, 97, 108, 105, 122, 101, 100, 32, 111, 114, 32, 97, 108, 114, 101, 97,
    100, 121, 32, 116, 101, 114, 109, 105, 110, 97, 116, 101, 100]

/-- `"poll : polling is already in progress in a parallel thread"` -/
def busyText : List UInt8 :=
  [112, 111, 108, 108, 32, 58, 32, 112, 111, 108, 108, 105, 110, 103, 32, 105, 115, 32, 97, 108, 114, 101, 97, 100,
    121, 32, 105, 110, 32, 112, 114, 111, 103, 114, 101, 115, 115, 32, 105, 110, 32, 97, 32, 112, 97, 114, 97, 108,
    108, 101, 108, 32, 116, 104, 114, 101, 97, 100]

/-- `"poll wakeup : "` -/
def wakeupText : List UInt8 :=
  [112, 111, 108, 108, 32, 119, 97, 107, 101, 117, 112, 32, 58, 32]

/-- `"poll term : "` -/
def termText : List UInt8 :=
  [112, 111, 108, 108, 32, 116, 101, 114, 109, 32, 58, 32]

/-! ## Model -/

/-- `sc_sock_poll_add` while nobody polls, socket/sc_sock.c:1808-1873, with the text: only `sc_sock_poll_expand` fails, and sets the
text at line 1670; line 1822 sets it again. -/
def addNowT (e : Poll.Win.Env) (evs : Bits) (data : Nat) (f : Fdt) (p : P) (err : List UInt8) : Res (Int × Fdt × P × List UInt8) := do
  let (rc, f, p) ← addNow e evs data f p
  if rc = 0 then .ok (rc, f, p, err)
  else do
    let err ← pollErr oom err
    let err ← pollErr oom err
    .ok (rc, f, p, err)

/-- `sc_sock_poll_submit`, socket/sc_sock.c:1674-1761, with the text: line 1700 if there is no memory, line 1757 if the byte could not be
written; `wrote` is then the wakeup pipe that `sc_sock_pipe_write` leaves. -/
def submitT (e : Poll.Win.Env) (wrote : Option Sock.Io.Pipe) (add : Bool) (evs : Bits) (data i : Nat) (s : Sys) (err : List UInt8) :
    Res (Int × Sys × List UInt8) := do
  let (rc, wake, s) ← submit e add evs data i s
  if rc ≠ 0 then do
    let err ← pollErr oom err
    .ok (-1, s, err)
  else if wake then
    match wrote with
    | none => .ok (0, s, err)
    | some q => do
      let q ← Sock.Io.pipeErr q
      let m ← cstr q.err 0
      let err ← pollErr (wakeupText ++ m) err
      .ok (-1, s, err)
  else .ok (0, s, err)

/-- `sc_sock_poll_add`, socket/sc_sock.c:1792-1873, with the text -/
def addT (e : Poll.Win.Env) (wrote : Option Sock.Io.Pipe) (evs : Bits) (data i : Nat) (s : Sys) (err : List UInt8) : Res (Int × Sys × List UInt8) :=
  if s.p.polling then submitT e wrote true evs data i s err
  else do
    let (rc, f, p, err) ← addNowT e evs data (s.obj i) s.p err
    .ok (rc, s.set i f p, err)

/-- `sc_sock_poll_del`, socket/sc_sock.c:1883-1931, with the text -/
def delT (e : Poll.Win.Env) (wrote : Option Sock.Io.Pipe) (evs : Bits) (data i : Nat) (s : Sys) (err : List UInt8) : Res (Int × Sys × List UInt8) :=
  if s.p.polling then submitT e wrote false evs data i s err
  else do
    let (rc, f, p) ← delNow evs data (s.obj i) s.p
    .ok (rc, s.set i f p, err)

/-- The first part of one operation, socket/sc_sock.c:2118-2120, with the text -/
def applyAddT (e : Poll.Win.Env) (o : Op) (i : Nat) (s : Sys) (err : List UInt8) : Res (Int × Sys × List UInt8) :=
  if o.add ≠ 0 then do
    let (rc, f, p, err) ← addNowT e o.add o.data (s.obj i) s.p err
    .ok (rc, s.set i f p, err)
  else .ok (0, s, err)

/-- One operation, socket/sc_sock.c:2112-2126, with the text -/
def applyOpT (e : Poll.Win.Env) (o : Op) (s : Sys) (err : List UInt8) : Res (Int × Sys × List UInt8) :=
  if o.full then do
    let p ← delFull o.pd s.p
    .ok (0, { s with p := p }, err)
  else
    match o.fdt with
    | none => .ub
    | some i => do
      let s := s.set i { s.obj i with opIndex := none } s.p
      let (rc, s, err) ← applyAddT e o i s err
      if rc ≠ 0 then .ok (-1, s, err)
      else if o.del ≠ 0 then do
        let (rc, f, p) ← delNow o.del o.data (s.obj i) s.p
        .ok (if rc ≠ 0 then -1 else 0, s.set i f p, err)
      else .ok (0, s, err)

/-- The operations in order, socket/sc_sock.c:2109-2127, with the text -/
def applyOpsT (e : Poll.Win.Env) : List Op → Int → Sys → List UInt8 → Res (Int × Sys × List UInt8)
  | [], rc, s, err => .ok (rc, s, err)
  | o :: os, rc, s, err => do
    let (r, s, err) ← applyOpT e o s err
    applyOpsT e os (if r ≠ 0 then -1 else rc) s err

/-- The end of `sc_sock_poll_wait`, socket/sc_sock.c:2089-2140, with the text -/
def finishT (e : Poll.Win.Env) (s : Sys) (err : List UInt8) : Res (Int × List (Bits × Nat) × Sys × List UInt8) := do
  let (rc, s, err) ← applyOpsT e s.p.ops 0 { s with p := { s.p with polling := false } } err
  let p := { s.p with ops := [], offset := 1 }
  if rc = 0 then do
    let (res, p) ← fill p
    .ok (res.length, res, { s with p := p }, err)
  else .ok (-1, [], { s with p := p }, err)

/-- `sc_sock_poll_wait` up to `WSAPoll`, socket/sc_sock.c:2023-2045, with the text -/
def beginWaitT (s : Sys) (err : List UInt8) : Res (Began × List UInt8) :=
  if s.p.events = none then do
    let err ← pollErr closedText err
    .ok (.returned (-1) [] s, err)
  else if s.p.polling then do
    let err ← pollErr busyText err
    .ok (.returned (-1) [] s, err)
  else if s.p.remaining > 0 then do
    cassert (s.p.offset ≥ 1)
    let (res, p) ← fill s.p
    .ok (.returned res.length res { s with p := p }, err)
  else .ok (.asks { s with p := { s.p with polling := true } }, err)

/-- `sc_sock_poll_wait` after `WSAPoll` failed with `er`, socket/sc_sock.c:2082-2107, with the text -/
def failWaitT (e : Poll.Win.Env) (x : Texts) (er : Nat) (s : Sys) (err : List UInt8) : Res (Int × List (Bits × Nat) × Sys × List UInt8) := do
  cassert s.p.polling
  if er = 10038 ∧ 0 < s.p.ops.length then finishT e s err
  else do
    let err ← pollErrFromCode x er err
    .ok (-1, [], { s with p := { s.p with polling := false } }, err)

/-- `sc_sock_poll_init`, socket/sc_sock.c:1527-1580, the result and the text: `mem n` says whether the n-th allocation succeeds, `sk` is the
world of the wakeup pipe. Its text is a format at line 1575: a `%` in it would take an argument that is not there. -/
def initT (mem : Nat → Bool) (n : Nat) (e : Sock.PipeText.Env) (sk : Sock.WinPipe.World) (err : List UInt8) : Res (Int × List UInt8) :=
  if mem n ∧ mem (n + 1) ∧ mem (n + 2) then do
    let (rc, q, _) ← Sock.PipeText.init e sk
    if rc ≠ 0 then do
      let q ← Sock.Io.pipeErr q
      let m ← cstr q.err 0
      cassert (!m.contains 37)
      let err ← pollErr m err
      .ok (-1, err)
    else .ok (0, err)
  else do
    let err ← pollErr oom err
    .ok (-1, err)

/-- `sc_sock_poll_term` of a poller that nobody uses, socket/sc_sock.c:1588-1594, the result and the text; `n` calls of the system were made
before. Not to poll for the wakeup pipe any more does not fail. -/
def termT (e : Sock.PipeText.Env) (n : Nat) (q : Sock.Io.Pipe) (err : List UInt8) : Res (Int × Sock.Io.Pipe × List UInt8) := do
  let (rc, _, q) ← Sock.PipeText.term e n q
  if rc ≠ 0 then do
    let q ← Sock.Io.pipeErr q
    let m ← cstr q.err 0
    let err ← pollErr (termText ++ m) err
    .ok (-1, q, err)
  else .ok (0, q, err)

/-! ## Properties -/

/-- What `sc_sock_poll_err` gives: the first 127 bytes of a text. -/
def Says (err t : List UInt8) : Prop := err.length = 128 ∧ CStr err 0 (t.take 127)

theorem oom_nonzero : ∀ b ∈ oom, b ≠ 0 := by decide

theorem says {t err err' : List UInt8} (ht : ∀ b ∈ t, b ≠ 0) (hl : err.length = 128) (h : pollErr t err = .ok err') : Says err' t := by
  obtain ⟨e1, h1, h2, h3⟩ := pollErr_ok ht hl
  rw [h] at h1
  cases h1
  exact ⟨h2, h3⟩

theorem set_ok {t err : List UInt8} (ht : ∀ b ∈ t, b ≠ 0) (hl : err.length = 128) : ∃ err', pollErr t err = .ok err' ∧ Says err' t := by
  obtain ⟨e1, h1, h2, h3⟩ := pollErr_ok ht hl
  exact ⟨e1, h1, h2, h3⟩

/-- What a call that returned `rc` did to the text: nothing, or it failed and the text tells why. -/
def Tells (rc : Int) (err err' t : List UInt8) : Prop := (rc = 0 ∧ err' = err) ∨ (rc = -1 ∧ Says err' t)

theorem Tells.length {rc : Int} {err err' t : List UInt8} (h : Tells rc err err' t) (hl : err.length = 128) : err'.length = 128 := by
  rcases h with ⟨-, rfl⟩ | ⟨-, h⟩
  · exact hl
  · exact h.1

theorem addNow_rc {e : Poll.Win.Env} {evs : Bits} {d : Nat} {f f' : Fdt} {p p' : P} {rc : Int} (h : addNow e evs d f p = .ok (rc, f', p')) :
    rc = 0 ∨ rc = -1 := by
  have hend : ∀ {mask i a d} {f f' : Fdt} {p p' : P} {rc : Int}, addEnd mask i a d f p = .ok (rc, f', p') → rc = 0 := by
    intro mask i a d f f' p p' rc h
    unfold addEnd at h
    simp only [Res.bind_eq_ok] at h
    grind
  unfold addNow at h
  simp only at h
  split at h
  · cases h; exact .inl rfl
  · split at h
    · obtain ⟨⟨ok, p1⟩, -, h⟩ := Res.bind_eq_ok.1 h
      simp only at h
      split at h
      · cases h; exact .inr rfl
      · obtain ⟨o, -, h⟩ := Res.bind_eq_ok.1 h
        cases o with
        | none => cases h
        | some index =>
          simp only at h
          obtain ⟨_, -, h⟩ := Res.bind_eq_ok.1 h
          obtain ⟨_, -, h⟩ := Res.bind_eq_ok.1 h
          obtain ⟨_, -, h⟩ := Res.bind_eq_ok.1 h
          exact .inl (hend h)
    · split at h
      · cases h
      · obtain ⟨_, -, h⟩ := Res.bind_eq_ok.1 h
        exact .inl (hend h)

theorem delNow_rc {evs : Bits} {d : Nat} {f f' : Fdt} {p p' : P} {rc : Int} (h : delNow evs d f p = .ok (rc, f', p')) : rc = 0 := by
  unfold delNow at h
  simp only at h
  split at h
  · cases h; rfl
  · split at h
    · obtain ⟨_, -, h⟩ := Res.bind_eq_ok.1 h
      cases h; rfl
    · split at h
      · cases h
      · obtain ⟨_, -, h⟩ := Res.bind_eq_ok.1 h
        obtain ⟨_, -, h⟩ := Res.bind_eq_ok.1 h
        obtain ⟨_, -, h⟩ := Res.bind_eq_ok.1 h
        obtain ⟨_, -, h⟩ := Res.bind_eq_ok.1 h
        cases h; rfl

theorem addNowT_ok {e : Poll.Win.Env} {evs : Bits} {d : Nat} {f f' : Fdt} {p p' : P} {rc : Int} {err : List UInt8} (hl : err.length = 128)
    (h : addNow e evs d f p = .ok (rc, f', p')) : ∃ err', addNowT e evs d f p err = .ok (rc, f', p', err') ∧ Tells rc err err' oom := by
  unfold addNowT
  rw [h]
  simp only [Res.ok_bind]
  rcases addNow_rc h with rfl | rfl
  · exact ⟨err, rfl, .inl ⟨rfl, rfl⟩⟩
  · obtain ⟨e1, h1, h2⟩ := set_ok oom_nonzero hl
    obtain ⟨e2, h3, h4⟩ := set_ok oom_nonzero h2.1
    rw [if_neg (by decide), h1, Res.ok_bind, h3]
    exact ⟨e2, rfl, .inr ⟨rfl, h4⟩⟩

theorem append_nonzero {a b : List UInt8} (ha : ∀ x ∈ a, x ≠ 0) (hb : ∀ x ∈ b, x ≠ 0) : ∀ x ∈ a ++ b, x ≠ 0 := by
  intro x hx
  rcases List.mem_append.1 hx with h | h
  · exact ha x h
  · exact hb x h

theorem wakeup_nonzero : ∀ b ∈ wakeupText, b ≠ 0 := by decide

theorem term_nonzero : ∀ b ∈ termText, b ≠ 0 := by decide

theorem submit_rc {e : Poll.Win.Env} {add : Bool} {evs : Bits} {d i : Nat} {s s' : Sys} {rc : Int} {wake : Bool}
    (h : submit e add evs d i s = .ok (rc, wake, s')) : rc = 0 ∨ rc = -1 := by
  unfold submit at h
  simp only at h
  split at h
  · cases h; exact .inr rfl
  · obtain ⟨o, -, h⟩ := Res.bind_eq_ok.1 h
    split at h
    · obtain ⟨_, -, h⟩ := Res.bind_eq_ok.1 h
      cases h; exact .inl rfl
    · obtain ⟨_, -, h⟩ := Res.bind_eq_ok.1 h
      cases h; exact .inl rfl

/-- Asking the thread that polls, which returns `r` before it wakes it: the text tells of the memory if that failed, else of the pipe if the
byte was due and could not be written. -/
theorem submitT_ok {e : Poll.Win.Env} {wrote : Option Sock.Io.Pipe} {t : List UInt8} (hw : ∀ q, wrote = some q → Holds q t) {add : Bool} {evs : Bits}
    {d i : Nat} {s s' : Sys} {r : Int} {wake : Bool} {err : List UInt8} (hl : err.length = 128)
    (h : submit e add evs d i s = .ok (r, wake, s')) : ∃ rc err',
      submitT e wrote add evs d i s err = .ok (rc, s', err') ∧ submitCall e wrote.isNone add evs d i s = .ok (rc, s') ∧
      Tells rc err err' (if r = 0 then wakeupText ++ t.take 127 else oom) := by
  unfold submitT submitCall
  rw [h]
  simp only [Res.ok_bind]
  rcases submit_rc h with rfl | rfl
  · rw [if_neg (by decide)]
    cases wake with
    | false => exact ⟨0, err, rfl, by simp, .inl ⟨rfl, rfl⟩⟩
    | true =>
      cases wrote with
      | none => exact ⟨0, err, rfl, by simp, .inl ⟨rfl, rfl⟩⟩
      | some q =>
        obtain ⟨qe, h1, h2⟩ := Sock.PipeText.asked (hw q rfl)
        obtain ⟨e1, h3, h4⟩ := set_ok (append_nonzero wakeup_nonzero h2.nonzero) hl
        simp only [if_true, h1, Res.ok_bind, cstr_eq h2, h3]
        exact ⟨-1, e1, rfl, by simp, .inr ⟨rfl, h4⟩⟩
  · obtain ⟨e1, h1, h2⟩ := set_ok oom_nonzero hl
    rw [if_pos (by decide), h1]
    exact ⟨-1, e1, rfl, by simp, .inr ⟨rfl, h2⟩⟩

/-- **C111, adding on Windows.** Whether or not a thread polls, `sc_sock_poll_add` that returns 0 leaves the text, and one that fails says that
there is no memory, or why the polling thread could not be woken, with the text of the pipe. -/
theorem add_tells {e : Poll.Win.Env} {wrote : Option Sock.Io.Pipe} {t : List UInt8} (hw : ∀ q, wrote = some q → Holds q t) {evs : Bits}
    {d i : Nat} {s s' : Sys} {r : Int} {wake : Bool} {err : List UInt8} (hl : err.length = 128) (h : add e evs d i s = .ok (r, wake, s')) :
    ∃ rc err', addT e wrote evs d i s err = .ok (rc, s', err') ∧
      (rc = 0 ↔ r = 0 ∧ (wake = true → wrote = none)) ∧ Tells rc err err' (if r = 0 then wakeupText ++ t.take 127 else oom) := by
  unfold add at h
  unfold addT
  by_cases hp : s.p.polling = true
  · rw [if_pos hp] at h ⊢
    obtain ⟨rc, err', h1, h2, h3⟩ := submitT_ok hw hl h
    refine ⟨rc, err', h1, ?_, h3⟩
    unfold submitCall at h2
    rw [h] at h2
    simp only [Res.ok_bind] at h2
    cases wrote <;> cases wake <;> grind
  · rw [if_neg hp] at h ⊢
    obtain ⟨⟨rc, f, p⟩, h1, h⟩ := Res.bind_eq_ok.1 h
    cases h
    obtain ⟨err', h2, h3⟩ := addNowT_ok hl h1
    rw [h2]
    refine ⟨r, err', rfl, by simp, ?_⟩
    rcases h3 with ⟨h4, h5⟩ | ⟨h4, h5⟩
    · exact .inl ⟨h4, h5⟩
    · exact .inr ⟨h4, by rw [h4, if_neg (by decide)]; exact h5⟩

/-- **C111, deleting on Windows.** The same for `sc_sock_poll_del`. -/
theorem del_tells {e : Poll.Win.Env} {wrote : Option Sock.Io.Pipe} {t : List UInt8} (hw : ∀ q, wrote = some q → Holds q t) {evs : Bits}
    {d i : Nat} {s s' : Sys} {r : Int} {wake : Bool} {err : List UInt8} (hl : err.length = 128) (h : del e evs d i s = .ok (r, wake, s')) :
    ∃ rc err', delT e wrote evs d i s err = .ok (rc, s', err') ∧
      (rc = 0 ↔ r = 0 ∧ (wake = true → wrote = none)) ∧ Tells rc err err' (if r = 0 then wakeupText ++ t.take 127 else oom) := by
  unfold del at h
  unfold delT
  by_cases hp : s.p.polling = true
  · rw [if_pos hp] at h ⊢
    obtain ⟨rc, err', h1, h2, h3⟩ := submitT_ok hw hl h
    refine ⟨rc, err', h1, ?_, h3⟩
    unfold submitCall at h2
    rw [h] at h2
    simp only [Res.ok_bind] at h2
    cases wrote <;> cases wake <;> grind
  · rw [if_neg hp] at h ⊢
    obtain ⟨⟨rc, f, p⟩, h1, h⟩ := Res.bind_eq_ok.1 h
    cases h
    rw [h1]
    have := delNow_rc h1
    subst this
    exact ⟨0, err, rfl, by simp, .inl ⟨rfl, rfl⟩⟩

theorem applyAddT_ok {e : Poll.Win.Env} {o : Op} {i : Nat} {s s' : Sys} {rc : Int} {err : List UInt8} (hl : err.length = 128)
    (h : applyAdd e o i s = .ok (rc, s')) : ∃ err', applyAddT e o i s err = .ok (rc, s', err') ∧ Tells rc err err' oom := by
  unfold applyAdd at h
  unfold applyAddT
  by_cases ha : o.add ≠ 0
  · rw [if_pos ha] at h ⊢
    obtain ⟨⟨rc1, f, p⟩, h1, h⟩ := Res.bind_eq_ok.1 h
    cases h
    obtain ⟨err', h2, h3⟩ := addNowT_ok hl h1
    rw [h2]
    exact ⟨err', rfl, h3⟩
  · rw [if_neg ha] at h ⊢
    cases h
    exact ⟨err, rfl, .inl ⟨rfl, rfl⟩⟩

theorem applyOpT_ok {e : Poll.Win.Env} {o : Op} {s s' : Sys} {rc : Int} {err : List UInt8} (hl : err.length = 128)
    (h : applyOp e o s = .ok (rc, s')) : ∃ err', applyOpT e o s err = .ok (rc, s', err') ∧ Tells rc err err' oom := by
  unfold applyOp at h
  unfold applyOpT
  by_cases hf : o.full = true
  · rw [if_pos hf] at h ⊢
    obtain ⟨p, h1, h⟩ := Res.bind_eq_ok.1 h
    cases h
    rw [h1]
    exact ⟨err, rfl, .inl ⟨rfl, rfl⟩⟩
  · rw [if_neg hf] at h ⊢
    cases hi : o.fdt with
    | none => rw [hi] at h; cases h
    | some i =>
      rw [hi] at h
      simp only at h ⊢
      obtain ⟨⟨rc1, s1⟩, h1, h⟩ := Res.bind_eq_ok.1 h
      obtain ⟨e1, h2, h3⟩ := applyAddT_ok hl h1
      rw [h2]
      simp only [Res.ok_bind] at h ⊢
      rcases h3 with ⟨rfl, rfl⟩ | ⟨rfl, h3⟩
      · rw [if_neg (by decide)] at h ⊢
        by_cases hd : o.del ≠ 0
        · rw [if_pos hd] at h ⊢
          obtain ⟨⟨rc2, f, p⟩, h4, h⟩ := Res.bind_eq_ok.1 h
          cases h
          have := delNow_rc h4
          subst this
          rw [h4]
          exact ⟨_, rfl, .inl ⟨rfl, rfl⟩⟩
        · rw [if_neg hd] at h ⊢
          cases h
          exact ⟨_, rfl, .inl ⟨rfl, rfl⟩⟩
      · rw [if_pos (by decide)] at h ⊢
        cases h
        exact ⟨_, rfl, .inr ⟨rfl, h3⟩⟩

/-- Operations after one that failed do not hide it: they leave the text. -/
theorem applyOpsT_ok {e : Poll.Win.Env} (os : List Op) : ∀ {r : Int} {s s' : Sys} {rc : Int} {err₀ err : List UInt8}, err₀.length = 128 →
    Tells r err₀ err oom → applyOps e os r s = .ok (rc, s') →
    ∃ err', applyOpsT e os r s err = .ok (rc, s', err') ∧ Tells rc err₀ err' oom := by
  induction os with
  | nil =>
    intro r s s' rc err₀ err _ ht h
    cases h
    exact ⟨err, rfl, ht⟩
  | cons o os ih =>
    intro r s s' rc err₀ err hl ht h
    unfold applyOps at h
    unfold applyOpsT
    obtain ⟨⟨r1, s1⟩, h1, h⟩ := Res.bind_eq_ok.1 h
    obtain ⟨e1, h2, h3⟩ := applyOpT_ok (ht.length hl) h1
    rw [h2]
    simp only [Res.ok_bind] at h ⊢
    refine ih hl ?_ h
    rcases h3 with ⟨rfl, rfl⟩ | ⟨rfl, h3⟩
    · exact ht
    · exact .inr ⟨by simp, h3⟩

/-- **C111, the end of a wait on Windows.** Whatever other threads asked for meanwhile, a wait that ends well leaves the text, and one that
fails says that there was no memory for something they asked for. -/
theorem finish_tells {e : Poll.Win.Env} {s s' : Sys} {rc : Int} {res : List (Bits × Nat)} {err : List UInt8} (hl : err.length = 128)
    (h : finish e s = .ok (rc, res, s')) :
    ∃ err', finishT e s err = .ok (rc, res, s', err') ∧ ((0 ≤ rc ∧ err' = err) ∨ (rc = -1 ∧ Says err' oom)) := by
  unfold finish at h
  unfold finishT
  obtain ⟨⟨rc1, s1⟩, h1, h⟩ := Res.bind_eq_ok.1 h
  obtain ⟨e1, h2, h3⟩ := applyOpsT_ok s.p.ops hl (.inl ⟨rfl, rfl⟩) h1
  rw [h2]
  simp only [Res.ok_bind] at h ⊢
  rcases h3 with ⟨rfl, rfl⟩ | ⟨rfl, h3⟩
  · rw [if_pos rfl] at h ⊢
    obtain ⟨⟨res1, p1⟩, h4, h⟩ := Res.bind_eq_ok.1 h
    cases h
    rw [h4]
    exact ⟨_, rfl, .inl ⟨by omega, rfl⟩⟩
  · rw [if_neg (by decide)] at h ⊢
    cases h
    exact ⟨_, rfl, .inr ⟨rfl, h3⟩⟩

/-- **C111, the start of a wait on Windows.** A wait for a poller that does not exist, or for which another thread waits, fails and says so; else
the text is as it was. -/
theorem begin_tells {s : Sys} {b : Began} {err : List UInt8} (hl : err.length = 128) (h : beginWait s = .ok b) :
    ∃ err', beginWaitT s err = .ok (b, err') ∧
      (s.p.events = none → b = .returned (-1) [] s ∧ Says err' closedText) ∧
      (s.p.events ≠ none → s.p.polling = true → b = .returned (-1) [] s ∧ Says err' busyText) ∧
      (s.p.events ≠ none → s.p.polling = false → err' = err ∧ ∀ rc res s', b = .returned rc res s' → 0 ≤ rc) := by
  unfold beginWait at h
  unfold beginWaitT
  by_cases h0 : s.p.events = none
  · rw [if_pos h0] at h ⊢
    cases h
    obtain ⟨e1, h1, h2⟩ := set_ok (t := closedText) (by decide) hl
    rw [h1]
    exact ⟨e1, rfl, fun _ => ⟨rfl, h2⟩, fun h => absurd h0 h, fun h => absurd h0 h⟩
  · rw [if_neg h0] at h ⊢
    by_cases hp : s.p.polling = true
    · rw [if_pos hp] at h ⊢
      cases h
      obtain ⟨e1, h1, h2⟩ := set_ok (t := busyText) (by decide) hl
      rw [h1]
      exact ⟨e1, rfl, fun h => absurd h h0, fun _ _ => ⟨rfl, h2⟩, fun _ h => by rw [hp] at h; cases h⟩
    · rw [if_neg hp] at h ⊢
      by_cases hr : s.p.remaining > 0
      · rw [if_pos hr] at h ⊢
        obtain ⟨_, h1, h⟩ := Res.bind_eq_ok.1 h
        obtain ⟨⟨res1, p1⟩, h2, h⟩ := Res.bind_eq_ok.1 h
        cases h
        rw [h1]
        simp only [Res.ok_bind, h2]
        refine ⟨err, rfl, fun h => absurd h h0, fun _ h => absurd h hp, fun _ _ => ⟨rfl, ?_⟩⟩
        intro rc res s' hb
        cases hb
        omega
      · rw [if_neg hr] at h ⊢
        cases h
        exact ⟨err, rfl, fun h => absurd h h0, fun _ h => absurd h hp, fun _ _ => ⟨rfl, fun rc res s' hb => by cases hb⟩⟩

/-- **C111, a wait that fails on Windows**, in part: the text is that of the error if the system has one. If it has none, it is not a text of this
failure: `failed_wait_violated`. -/
theorem fail_tells_partial {e : Poll.Win.Env} {x : Texts} (hx : x.Ok) {er : Nat} {s s' : Sys} {rc : Int} {res : List (Bits × Nat)} {err : List UInt8}
    (hl : Ended err) (h : failWait e er s = .ok (rc, res, s')) :
    ∃ err', failWaitT e x er s err = .ok (rc, res, s', err') ∧
      (er = 10038 → s.p.ops ≠ [] → (0 ≤ rc ∧ err' = err) ∨ (rc = -1 ∧ Says err' oom)) ∧
      (er ≠ 10038 ∨ s.p.ops = [] → rc = -1 ∧
        (∀ m, x.fmt er = some m → ∃ t, CStr m 0 t ∧ cstr err' 0 = .ok (t.take 127)) ∧ (x.fmt er = none → err' = err)) := by
  unfold failWait at h
  unfold failWaitT
  obtain ⟨_, h1, h⟩ := Res.bind_eq_ok.1 h
  rw [h1]
  simp only [Res.ok_bind]
  by_cases hc : er = 10038 ∧ 0 < s.p.ops.length
  · rw [if_pos hc] at h ⊢
    obtain ⟨err', h2, h3⟩ := finish_tells hl.1 h
    refine ⟨err', h2, fun _ _ => h3, fun hn => ?_⟩
    rcases hn with hn | hn
    · exact absurd hc.1 hn
    · rw [hn] at hc; exact absurd hc.2 (by decide)
  · rw [if_neg hc] at h ⊢
    cases h
    obtain ⟨err', h2, -, h4, h5⟩ := Sock.Win.pollErrFromCode_ok hx (code := (er : Int)) hl
    rw [h2]
    refine ⟨err', rfl, fun h6 h7 => absurd ⟨h6, List.length_pos_iff.2 h7⟩ hc, fun _ => ⟨rfl, h4, h5⟩⟩

/-- **C111 is violated** by a wait that fails on Windows with an error that the system has no text for: the text stays that of an earlier failure,
whatever it was. -/
theorem failed_wait_violated (e : Poll.Win.Env) {x : Texts} {er : Nat} {s : Sys} (hp : s.p.polling = true) (ho : s.p.ops = []) (hx : x.fmt er = none)
    (err : List UInt8) : failWaitT e x er s err = .ok (-1, [], { s with p := { s.p with polling := false } }, err) := by
  unfold failWaitT
  simp [hp, ho, pollErrFromCode, hx, cassert]

theorem winInitText_plain (er : Nat) : (winInitText er).contains 37 = false := by
  have hd : ∀ b ∈ dec er, b ≠ 37 := by
    intro b hb h
    have := (dec_spec er).2.1 b hb
    subst h
    revert this
    decide
  rw [Bool.eq_false_iff]
  intro h
  have h := List.contains_iff_mem.1 h
  unfold winInitText at h
  rcases List.mem_append.1 h with h | h
  · rcases List.mem_append.1 h with h | h
    · revert h; decide
    · exact hd 37 h rfl
  · revert h; decide

/-- **C111, creating a poller on Windows.** It never reads an argument that is not there, and returns 0, leaving the text, exactly if the three
requests for memory and the nine calls for the pipe succeed; else the text says that there is no memory, or gives the first error of the pipe. -/
theorem init_tells (mem : Nat → Bool) (n : Nat) (e : Sock.PipeText.Env) (sk : Sock.WinPipe.World) {err : List UInt8} (hl : err.length = 128) :
    ∃ rc err', initT mem n e sk err = .ok (rc, err') ∧
      (¬ (mem n ∧ mem (n + 1) ∧ mem (n + 2)) → rc = -1 ∧ Says err' oom) ∧
      (mem n ∧ mem (n + 1) ∧ mem (n + 2) → match Sock.PipeText.firstOf e 9 sk.n with
        | none => rc = 0 ∧ err' = err
        | some er => rc = -1 ∧ Says err' (winInitText er)) := by
  unfold initT
  by_cases hm : mem n ∧ mem (n + 1) ∧ mem (n + 2)
  · rw [if_pos hm]
    obtain ⟨rc0, fds, s1, h1, h2, h3⟩ := Sock.PipeText.init_first e sk
    unfold Sock.PipeText.init
    rw [h1]
    simp only
    cases hf : Sock.PipeText.firstOf e 9 sk.n with
    | none =>
      rw [if_pos (h2.2 hf)]
      exact ⟨0, err, rfl, fun h => absurd hm h, fun _ => ⟨rfl, rfl⟩⟩
    | some er =>
      rw [if_neg (fun hc => by rw [h2.1 hc] at hf; cases hf), h3 er hf]
      obtain ⟨p1, k1, k2, -⟩ := Sock.PipeText.holds_set (p := ⟨0, 0, Sock.PipeText.toFd fds.r, Sock.PipeText.toFd fds.w, List.replicate 128 0⟩) (by simp)
        (Sock.PipeText.winInitText_nonzero er)
      obtain ⟨qe, k3, k4⟩ := Sock.PipeText.asked k2
      have hp : (!((winInitText er).take 127).contains 37) = true := by
        have h5 := winInitText_plain er
        cases h6 : ((winInitText er).take 127).contains 37 with
        | false => rfl
        | true =>
          have := List.contains_iff_mem.2 (List.mem_of_mem_take (List.contains_iff_mem.1 h6))
          rw [this] at h5
          cases h5
      obtain ⟨e1, k5, k6⟩ := set_ok k4.nonzero hl
      rw [k1]
      simp only [Res.ok_bind, k3, cstr_eq k4, hp, k5, cassert, if_true]
      refine ⟨-1, e1, rfl, fun h => absurd hm h, fun _ => ⟨rfl, k6.1, ?_⟩⟩
      have := k6.2
      rwa [List.take_take, Nat.min_self] at this
  · rw [if_neg hm]
    obtain ⟨e1, h1, h2⟩ := set_ok oom_nonzero hl
    rw [h1]
    exact ⟨-1, e1, rfl, fun _ => ⟨rfl, h2⟩, fun h => absurd h hm⟩

/-- The result is the one of the model with the memory. -/
theorem init_agrees {e : Win.Life.Env} {x : Sock.PipeText.Env} (hx : x.toPipe = e.sock) {w w' : Win.Life.World} {p : Win.Life.Poller} {rc : Int}
    {err : List UInt8} (hl : err.length = 128) (h : Win.Life.init e w = .ok (rc, p, w')) : ∃ err', initT e.mem w.n x w.sock err = .ok (rc, err') := by
  obtain ⟨rc1, err1, h1, h2, h3⟩ := init_tells e.mem w.n x w.sock hl
  refine ⟨err1, ?_⟩
  rw [h1]
  have hrc : rc1 = rc := by
    have hE : ∀ {p p' : Win.Life.Poller} {w w' : Win.Life.World} {rc : Int}, Win.Life.initErr p w = .ok (rc, p', w') → rc = -1 := by
      intro p p' w w' rc h
      unfold Win.Life.initErr at h
      obtain ⟨_, -, h⟩ := Res.bind_eq_ok.1 h
      obtain ⟨_, -, h⟩ := Res.bind_eq_ok.1 h
      obtain ⟨_, -, h⟩ := Res.bind_eq_ok.1 h
      obtain ⟨_, -, h⟩ := Res.bind_eq_ok.1 h
      cases h; rfl
    obtain ⟨rc0, fds, s1, k1, k2, -⟩ := Sock.PipeText.init_first x w.sock
    unfold Win.Life.init Win.Life.malloc at h
    cases m0 : e.mem w.n with
    | false =>
      simp only [m0] at h
      rw [hE h]; exact (h2 (by simp [m0])).1
    | true =>
      cases m1 : e.mem (w.n + 1) with
      | false =>
        simp only [m0, m1, if_true] at h
        rw [hE h]; exact (h2 (by simp [m1])).1
      | true =>
        cases m2 : e.mem (w.n + 1 + 1) with
        | false =>
          simp only [m0, m1, m2, if_true] at h
          rw [hE h]; exact (h2 (by simp [m2])).1
        | true =>
          simp only [m0, m1, m2, if_true, ← hx, k1] at h
          have h4 := h3 ⟨m0, m1, m2⟩
          cases hf : Sock.PipeText.firstOf x 9 w.sock.n with
          | none =>
            rw [hf] at h4
            rw [if_neg (fun hc => hc (k2.2 hf))] at h
            cases h
            exact h4.1
          | some er =>
            rw [hf] at h4
            rw [if_pos (fun hc => by rw [k2.1 hc] at hf; cases hf)] at h
            rw [hE h]; exact h4.1
  rw [hrc]

/-- **C111, destroying a poller on Windows.** It returns 0, leaving the text, or fails and gives the text of the wakeup pipe, which tells of the
last socket that could not be closed. -/
theorem term_tells (e : Sock.PipeText.Env) (n : Nat) {q : Sock.Io.Pipe} {t : List UInt8} (hq : Holds q t) (hr : q.rfd ≠ -1) {err : List UInt8}
    (hl : err.length = 128) : ∃ rc q' err', termT e n q err = .ok (rc, q', err') ∧ (rc = 0 ↔ e.call n = none ∧ e.call (n + 1) = none) ∧
      Tells rc err err' (termText ++ (match e.call (n + 1), e.call n with
        | some er, _ => winCloseText er
        | none, some er => winCloseText er
        | none, none => []).take 127) := by
  have hc : ∀ (n : Nat) (rc : Int) {q : Sock.Io.Pipe} {t : List UInt8}, Holds q t → ∃ q', Sock.PipeText.close1 e n rc q =
      .ok (if e.call n = none then rc else -1, n + 1, q') ∧ Holds q' (match e.call n with | some er => winCloseText er | none => t) := by
    intro n rc q t hq
    unfold Sock.PipeText.close1
    cases hn : e.call n with
    | none => exact ⟨q, by simp, hq⟩
    | some er =>
      obtain ⟨p1, h1, h2, -⟩ := Sock.PipeText.holds_set hq.1 (Sock.PipeText.winCloseText_nonzero (e.last (n + 1)))
      rw [if_neg (by simp), h1]
      simp only [Sock.PipeText.Env.last, hn] at h2
      exact ⟨p1, by simp, h2⟩
  obtain ⟨q1, h1, k1⟩ := hc n 0 hq
  obtain ⟨q2, h2, k2⟩ := hc (n + 1) (if e.call n = none then 0 else -1) k1
  unfold termT Sock.PipeText.term
  rw [if_neg hr, h1]
  simp only [Res.ok_bind, h2]
  by_cases h0 : e.call n = none ∧ e.call (n + 1) = none
  · simp only [h0.1, h0.2, if_true]
    rw [if_neg (by decide)]
    exact ⟨0, _, err, rfl, by simp, .inl ⟨rfl, rfl⟩⟩
  · have hne : (if e.call (n + 1) = none then if e.call n = none then (0 : Int) else -1 else -1) = -1 := by grind
    rw [hne, if_pos (by decide)]
    have k3 : Holds { q2 with rfd := -1, wfd := -1 } _ := k2
    obtain ⟨qe, h3, h4⟩ := Sock.PipeText.asked k3
    obtain ⟨e1, h5, h6⟩ := set_ok (append_nonzero term_nonzero h4.nonzero) hl
    rw [h3]
    simp only [Res.ok_bind, cstr_eq h4, h5]
    refine ⟨-1, _, e1, rfl, by simp [h0], .inr ⟨rfl, ?_⟩⟩
    cases ha : e.call n <;> cases hb : e.call (n + 1) <;> simp_all

end Verif.Poll.WinText
