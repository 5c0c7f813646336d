import Verif.Sock.IoProps
import Verif.Sock.Props

/-!
# Texts of errors: what `sc_sock_error` says after a call that has failed

On POSIX all functions but one store the text of the error. On Windows the text is looked up by the
number of the last error of the socket library, which is not `errno`; functions that announce an error
of their own through `errno` store the text of another error.
-/

namespace Verif.Sock

open Ini (strncpy)

/-- `sc_sock_set_blocking` as its caller sees it, socket/sc_sock.c:225-236 -/
def setBlockingCall (e : Env) (os : Os) (s : Sock) (blocking : Bool) : Int × Os × Sock :=
  match setBlocking e s.fd blocking os with
  | (true, os) => (0, os, s)
  | (false, os) => (-1, os, s)

/-- **C111 is violated** by setting the mode of a socket: whatever goes wrong, the text stays what it
was, although the header refers to it. -/
theorem setBlocking_text_violated (e : Env) (os : Os) (s : Sock) (blocking : Bool) :
    (setBlockingCall e os s blocking).2.2 = s ∧
    (∀ er, e.call os.n = some er → (setBlockingCall e os s blocking).1 = -1) ∧
    (∀ er, e.call os.n = none → e.call (os.n + 1) = some er → (setBlockingCall e os s blocking).1 = -1) := by
  refine ⟨?_, ?_, ?_⟩
  · unfold setBlockingCall
    split <;> rfl
  · intro er h
    simp [setBlockingCall, setBlocking, andThen, noted, attempt, h]
  · intro er h h'
    simp [setBlockingCall, setBlocking, andThen, noted, attempt, h, h']

/-- **C95, for setting the mode**: the call returns 0 exactly if both requests to the system succeed; then
the descriptor is non-blocking exactly if asked for and all others are as before. Else no mode changes. -/
theorem setBlocking_ok (e : Env) (os : Os) (s : Sock) (blocking : Bool) :
    ((setBlockingCall e os s blocking).1 = 0 ↔ e.call os.n = none ∧ e.call (os.n + 1) = none) ∧
    ((setBlockingCall e os s blocking).1 = 0 → (setBlockingCall e os s blocking).2.1.fds =
      os.fds.map fun f => if f.num = s.fd then ⟨f.num, !blocking⟩ else f) ∧
    ((setBlockingCall e os s blocking).1 ≠ 0 → (setBlockingCall e os s blocking).1 = -1 ∧
      (setBlockingCall e os s blocking).2.1.fds = os.fds) := by
  cases h : e.call os.n with
  | some er => simp [setBlockingCall, setBlocking, andThen, noted, attempt, h, Os.failed]
  | none =>
    cases h' : e.call (os.n + 1) with
    | some er => simp [setBlockingCall, setBlocking, andThen, noted, attempt, h, h', Os.failed]
    | none => cases blocking <;> simp [setBlockingCall, setBlocking, andThen, noted, attempt, h, h']

/-- A socket that was initialised has no descriptor, waits for nothing, has the mode and the family asked for, and its text is empty. -/
theorem init_spec (blocking : Bool) (family : Int) : (init blocking family).fd = -1 ∧ (init blocking family).op = 0 ∧
    (init blocking family).blocking = blocking ∧ (init blocking family).family = family ∧
    (init blocking family).err.length = 128 ∧ cstr (init blocking family).err 0 = .ok [] :=
  ⟨rfl, rfl, rfl, rfl, rfl, rfl⟩

/-- A socket that has just been made, whose mode cannot be set: the text is empty. -/
example : (setBlockingCall (bad [(0, 9)]) ⟨[], 0, 0, [], []⟩ (init true 2) false).1 = -1 ∧
    (error (setBlockingCall (bad [(0, 9)]) ⟨[], 0, 0, [], []⟩ (init true 2) false).2.2 =
      .ok (init true 2)) := by
  constructor <;> decide +kernel

end Verif.Sock

namespace Verif.Sock.Win

open Ini (strncpy)

/-- The system: `GetLastError` of the thread and `errno`, which are not the same. -/
structure W where
  last : Int
  errno : Int
  deriving DecidableEq

/-- `FormatMessageA`: the text of an error, if the system has one. -/
structure Texts where
  fmt : Int → Option (List UInt8)

/-- Texts are strings. -/
def Texts.Ok (x : Texts) : Prop := ∀ er m, x.fmt er = some m → ∃ t, CStr m 0 t

/-- `sc_sock_errstr`, socket/sc_sock.c:77-91: the memory of the text is given back (not modelled). -/
def errstr (x : Texts) (w : W) (s : Sock) : Res Sock :=
  match x.fmt w.last with
  | none => .ok s
  | some m => do
    let err ← strncpy s.err m 0 (128 - 1)
    .ok { s with err := err }

/-- `sc_sock_poll_set_err_from_code`, socket/sc_sock.c:1513-1525; `err` is the buffer of the thread. -/
def pollErrFromCode (x : Texts) (code : Int) (err : List UInt8) : Res (List UInt8) :=
  match x.fmt code with
  | none => .ok err
  | some m => strncpy err m 0 (128 - 1)

/-- `sc_sock_poll_err`, socket/sc_sock.c:1096-1100: the text of the thread, as a string. -/
def pollErr (err : List UInt8) : Res (List UInt8) := cstr err 0

/-- What `getsockopt` with `SO_ERROR` does: it fails, or finds this pending error; `last` is what
`GetLastError` gives afterwards if it succeeds. -/
inductive SoError where
  | failed (er : Int)
  | found (ret last : Int)

/-- `sc_sock_finish_connect`, socket/sc_sock.c:426-442 -/
def finishConnect (x : Texts) (g : SoError) (w : W) (s : Sock) : Res (Int × W × Sock) :=
  match g with
  | .failed er => do
    let w := { w with last := er }
    let s ← errstr x w s
    .ok (-1, w, s)
  | .found ret last =>
    let w := { w with last := last }
    if ret ≠ 0 then do
      let w := { w with errno := ret }
      let s ← errstr x w s
      .ok (-1, w, s)
    else .ok (0, w, s)

/-- What `sc_sock_connect_unix` meets: the socket is not made, or is, and is not connected, or is;
`last` is what `GetLastError` gives after a success. -/
inductive Met where
  | noSocket (er : Int)
  | socket (fd last : Int) (connect : Except Int Int)

/-- `sc_sock_connect_unix`, socket/sc_sock.c:444-480, without closing the socket, which leaves the text. -/
def connectUnix (x : Texts) (met : Met) (addr : List UInt8) (w : W) (s : Sock) : Res (Int × W × Sock) := do
  let len ← strlen addr 0
  match met with
  | .noSocket er => do
    let w := { w with last := er }
    let s ← errstr x w s
    .ok (-1, w, s)
  | .socket fd last c =>
    let w := { w with last := last }
    let s := { s with fd := fd }
    if len ≥ 108 then do
      let w := { w with errno := EINVAL }
      let s ← errstr x w s
      .ok (-1, w, { s with fd := -1 })
    else
      match c with
      | .ok last => .ok (0, { w with last := last }, s)
      | .error er => do
        let w := { w with last := er }
        let s ← errstr x w s
        .ok (-1, w, { s with fd := -1 })

/-- `sc_sock_set_blocking`, socket/sc_sock.c:93-99: `fail` is the error of `ioctlsocket`. -/
def setBlocking (fail : Option Int) (w : W) (s : Sock) : Int × W × Sock :=
  match fail with
  | none => (0, w, s)
  | some er => (-1, { w with last := er }, s)

/-- The text is that of the last error if the system has one, else what it was; nothing is written
beyond the buffer. -/
theorem errstr_ok {x : Texts} (hx : x.Ok) {w : W} {s : Sock} (hl : s.err.length = 128) :
    ∃ err, errstr x w s = .ok { s with err := err } ∧ err.length = 128 ∧
      (∀ m, x.fmt w.last = some m → Shows err m) ∧ (x.fmt w.last = none → err = s.err) := by
  unfold errstr
  cases h : x.fmt w.last with
  | none => exact ⟨s.err, rfl, hl, by simp, fun _ => rfl⟩
  | some m =>
    obtain ⟨d, h1, h2, h3⟩ := shows_strncpy hl (hx _ _ h)
    simp only
    rw [h1]
    exact ⟨d, rfl, h2, fun m' hm => by cases hm; exact h3, fun hc => by cases hc⟩

/-- The text of a thread is a string: zeros from the start (static memory) and never more than 127
bytes written. -/
def Ended (err : List UInt8) : Prop := err.length = 128 ∧ err[127]? = some 0

theorem shows_ended {err m : List UInt8} (h : Ended err) (hs : Shows err m) :
    ∃ t, CStr m 0 t ∧ cstr err 0 = .ok (t.take 127) := by
  obtain ⟨t, ht, err', hw, hc⟩ := hs
  refine ⟨t, ht, ?_⟩
  rw [wr_lt (by have := h.1; omega)] at hw
  have : err.set 127 0 = err := by
    apply List.ext_getElem?
    intro i
    by_cases hi : i = 127
    · subst hi
      rw [List.getElem?_set_self (by have := h.1; omega), h.2]
    · rw [List.getElem?_set_ne (by omega)]
  cases hw
  rw [this] at hc
  exact cstr_eq hc

/-- What is behind the first 127 bytes stays. -/
theorem strncpy_ended {err m : List UInt8} (h : Ended err) (hm : ∃ t, CStr m 0 t) :
    ∃ err', strncpy err m 0 (128 - 1) = .ok err' ∧ Ended err' ∧ Shows err' m := by
  obtain ⟨err', h1, h2, h3⟩ := shows_strncpy h.1 hm
  refine ⟨err', h1, ⟨h2, ?_⟩, h3⟩
  obtain ⟨t, ht⟩ := hm
  have hl := h.1
  have hlen : (t.take 127 ++ List.replicate (127 - t.length) (0 : UInt8)).length = 127 := by simp; omega
  unfold strncpy at h1
  rw [cstr_eq ht] at h1
  simp only [Res.ok_bind, Nat.reduceSub] at h1
  rw [if_pos (by omega)] at h1
  cases h1
  rw [splice_getElem? (by omega), if_neg (by omega), if_neg (by omega)]
  exact h.2

/-- **C111, for pollers on Windows.** Whatever the number of the error, the text of the thread stays a
string of at most 127 bytes; it is the text of that error if the system has one, else what it was. -/
theorem pollErrFromCode_ok {x : Texts} (hx : x.Ok) {code : Int} {err : List UInt8} (h : Ended err) :
    ∃ err', pollErrFromCode x code err = .ok err' ∧ Ended err' ∧
      (∀ m, x.fmt code = some m → ∃ t, CStr m 0 t ∧ pollErr err' = .ok (t.take 127)) ∧
      (x.fmt code = none → err' = err) := by
  unfold pollErrFromCode pollErr
  cases hf : x.fmt code with
  | none => exact ⟨err, rfl, h, by simp, fun _ => rfl⟩
  | some m =>
    obtain ⟨err', h1, h2, h3⟩ := strncpy_ended h (hx _ _ hf)
    refine ⟨err', h1, h2, ?_, by simp⟩
    intro m' hm
    cases hm
    exact shows_ended h2 h3

/-- **C111, on Windows, in part**: where a call of the system fails, its text is what is stored, if the
system has one. This is so for all three functions. What is missing: errors that the library itself
announces, see below, and errors for which the system has no text. -/
theorem failed_text_partial {x : Texts} (hx : x.Ok) {er : Int} {m : List UInt8} (hm : x.fmt er = some m)
    {w : W} {s : Sock} (hl : s.err.length = 128) :
    (∃ w' s', finishConnect x (.failed er) w s = .ok (-1, w', s') ∧ Shows s'.err m) ∧
    (∀ addr t, CStr addr 0 t →
      (∃ w' s', connectUnix x (.noSocket er) addr w s = .ok (-1, w', s') ∧ Shows s'.err m) ∧
      (t.length < 108 → ∀ fd last, ∃ w' s', connectUnix x (.socket fd last (.error er)) addr w s = .ok (-1, w', s') ∧
        s'.fd = -1 ∧ Shows s'.err m)) := by
  refine ⟨?_, fun addr t ht => ⟨?_, ?_⟩⟩
  · obtain ⟨err, h1, h2, h3, -⟩ := errstr_ok hx (w := { w with last := er }) hl
    simp only [finishConnect, h1, Res.ok_bind]
    exact ⟨_, _, rfl, h3 m hm⟩
  · obtain ⟨err, h1, h2, h3, -⟩ := errstr_ok hx (w := { w with last := er }) hl
    simp only [connectUnix, strlen_eq ht, h1, Res.ok_bind]
    exact ⟨_, _, rfl, h3 m hm⟩
  · intro hlt fd last
    obtain ⟨err, h1, h2, h3, -⟩ := errstr_ok hx (w := { last := er, errno := w.errno }) (s := { s with fd := fd }) hl
    simp only [connectUnix, strlen_eq ht, Res.ok_bind]
    rw [if_neg (by omega), h1]
    exact ⟨_, _, rfl, rfl, h3 m hm⟩

/-- **C111 is violated** on Windows: for connections that were under way the text does not depend on
the reason why the connection failed, whatever it is. -/
theorem finish_text_violated (x : Texts) (w : W) (s : Sock) (last : Int) {ret ret' : Int} (h : ret ≠ 0) (h' : ret' ≠ 0) :
    (do let r ← finishConnect x (.found ret last) w s; Res.ok (r.1, r.2.2)) =
    (do let r ← finishConnect x (.found ret' last) w s; Res.ok (r.1, r.2.2)) := by
  simp only [finishConnect, if_pos h, if_pos h', errstr]
  cases x.fmt last with
  | none => rfl
  | some m =>
    simp only
    cases strncpy s.err m 0 (128 - 1) <;> rfl

/-- **C111 is violated** on Windows: for names of unix sockets that are too long the text is that of
whatever error was the last one before. -/
theorem unix_text_violated {x : Texts} (hx : x.Ok) {addr t : List UInt8} (ht : CStr addr 0 t) (hlong : 108 ≤ t.length)
    {w : W} {s : Sock} (hl : s.err.length = 128) (fd last : Int) (c : Except Int Int) :
    ∃ w' s', connectUnix x (.socket fd last c) addr w s = .ok (-1, w', s') ∧ w'.errno = EINVAL ∧
      (∀ m, x.fmt last = some m → Shows s'.err m) ∧ (x.fmt last = none → s'.err = s.err) := by
  obtain ⟨err, h1, h2, h3, h4⟩ := errstr_ok hx (w := { last := last, errno := EINVAL }) (s := { s with fd := fd }) hl
  simp only [connectUnix, strlen_eq ht, Res.ok_bind]
  rw [if_pos (by omega), h1]
  exact ⟨_, _, rfl, rfl, h3, h4⟩

/-- **C111 is violated** on Windows, too, by setting the mode of a socket. -/
theorem setBlocking_text_violated (er : Int) (w : W) (s : Sock) :
    ∃ w', setBlocking (some er) w s = (-1, w', s) ∧ w'.last = er ∧ w'.errno = w.errno := ⟨_, rfl, rfl, rfl⟩

/-- What it returns: 0 exactly if the mode was set, otherwise -1. -/
theorem setBlocking_result (fail : Option Int) (w : W) (s : Sock) :
    (fail = none ∧ setBlocking fail w s = (0, w, s)) ∨ (fail ≠ none ∧ (setBlocking fail w s).1 = -1) := by
  cases fail <;> simp [setBlocking]

/-- What `sc_sock_finish_connect` returns: 0 exactly if the connection was made; otherwise −1, and the reason
is in `errno` (not where its text is looked for). -/
theorem finish_result {x : Texts} (hx : x.Ok) {w : W} {s : Sock} (hl : s.err.length = 128) (ret last : Int) :
    ∃ w' s', finishConnect x (.found ret last) w s = .ok (if ret = 0 then 0 else -1, w', s') ∧
      w'.last = last ∧ w'.errno = (if ret = 0 then w.errno else ret) ∧ s'.fd = s.fd := by
  by_cases h : ret = 0
  · exact ⟨_, _, by simp only [finishConnect, h, ne_eq, not_true_eq_false, if_false, if_true]; rfl, rfl, by rw [if_pos h], rfl⟩
  · obtain ⟨err, h1, -⟩ := errstr_ok hx (w := { last := last, errno := ret }) (s := s) hl
    refine ⟨⟨last, ret⟩, { s with err := err }, ?_, rfl, by rw [if_neg h], rfl⟩
    simp only [finishConnect, if_pos h, h1, Res.ok_bind, if_neg h]

/-- What connecting to a unix socket returns on Windows: 0, with the socket and the text as it was, if the name
fits and the system makes the connection. -/
theorem unix_result {x : Texts} {addr t : List UInt8} (ht : CStr addr 0 t) (hlt : t.length < 108) (w : W) (s : Sock)
    (fd last last' : Int) :
    connectUnix x (.socket fd last (.ok last')) addr w s = .ok (0, { w with last := last' }, { s with fd := fd }) := by
  simp only [connectUnix, strlen_eq ht, Res.ok_bind]
  rw [if_neg (by omega)]

/-- A system with the texts "a" for 10061 and "b" for 0 -/
def two : Texts where
  fmt er := if er = 10061 then some [97, 0] else if er = 0 then some [98, 0] else none

theorem two_ok : two.Ok := by
  intro er m h
  unfold two at h
  simp only at h
  split at h
  · cases h; exact ⟨[97], by decide, by decide, by decide⟩
  · split at h
    · cases h; exact ⟨[98], by decide, by decide, by decide⟩
    · cases h

/-- A result with its text only -/
def told (r : Res (Int × W × Sock)) : Option (Int × W × Res (List UInt8)) :=
  match r with
  | .ok (rc, w, s) => some (rc, w, cstr s.err 0)
  | .ub => none

/-- The connection was refused, and the user is told that nothing happened. -/
example : told (finishConnect two (.found 10061 0) ⟨0, 0⟩ (init true 2)) = some (-1, ⟨0, 10061⟩, .ok [98]) := by
  decide +kernel

/-- Had the call failed itself, the text would be right. -/
example : told (finishConnect two (.failed 10061) ⟨0, 0⟩ (init true 2)) = some (-1, ⟨10061, 0⟩, .ok [97]) := by
  decide +kernel

example : Ended (List.replicate 128 0) := ⟨by simp, by simp⟩

end Verif.Sock.Win
