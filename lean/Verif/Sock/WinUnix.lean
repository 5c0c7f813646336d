import Verif.Sock.WinOpen
import Verif.Sock.Listen

/-!
# Model of socket/sc_sock.c: listening at the path of a unix socket on Windows

`Verif.Sock.WinOpen` with the names of files besides. `bind` makes a file of the name it is given, and fails if there is one.
-/

namespace Verif.Sock.WinOpen.Unix

open Spec (pathName)
open Ini (strncpy)

/-- The system, and the files in it -/
structure Sys where
  w : World
  files : List (List UInt8)

/-- `DeleteFileA`, `sc_unlink` of socket/sc_sock.c:63: it fails, or there is no file of the name afterwards. -/
def deleteFile (e : Env) (name : List UInt8) (y : Sys) : Sys :=
  match attempt e y.w with
  | (true, w) => ⟨w, y.files.filter (· ≠ name)⟩
  | (false, w) => ⟨w, y.files⟩

/-- WSAEADDRINUSE -/
def WSAEADDRINUSE : Int := 10048

/-- `bind` to a path: with a file of that name it fails. -/
def bindPath (e : Env) (name : List UInt8) (y : Sys) : Bool × Sys :=
  if name ∈ y.files then
    (false, { y with w := { y.w with n := y.w.n + 1, err := { y.w.err with last := WSAEADDRINUSE }, fails := y.w.fails ++ [WSAEADDRINUSE] } })
  else
    match attempt e y.w with
    | (true, w) => (true, ⟨w, name :: y.files⟩)
    | (false, w) => (false, ⟨w, y.files⟩)

/-- `sc_sock_bind_unix`, socket/sc_sock.c:318-331; `host` is in the memory of the caller. -/
def bindUnix (e : Env) (host : List UInt8) (y : Sys) : Res (Bool × Sys) := do
  let path ← strncpy sunPath host 0 (108 - 1)
  let h ← cstr host 0
  let y := deleteFile e h y
  .ok (bindPath e (pathName path) y)

/-- `sc_sock_bind`, socket/sc_sock.c:342-364, for the family `AF_UNIX`, with `giveUp` for its end (359-361) -/
def bind (e : Env) (host : List UInt8) (y : Sys) (s : Sock) : Res (Int × Sys × Sock) := do
  let err ← wr s.err 0 0
  let s := { s with err := err }
  match socket e y.w with
  | (none, w) => do
    let (rc, w, s) ← giveUp e w s
    .ok (rc, ⟨w, y.files⟩, s)
  | (some fd, w) => do
    let s := { s with fd := fd }
    let (ok, y) ← bindUnix e host ⟨w, y.files⟩
    if ok then .ok (0, y, s)
    else do
      let (rc, w, s) ← giveUp e y.w s
      .ok (rc, ⟨w, y.files⟩, s)

/-- `sc_sock_listen`, socket/sc_sock.c:732-751, for the family `AF_UNIX` -/
def listen (e : Env) (host : List UInt8) (y : Sys) (s : Sock) : Res (Int × Sys × Sock) := do
  let (rc, y, s) ← bind e host y s
  if rc ≠ 0 then .ok (rc, y, s)
  else
    match attempt e y.w with
    | (true, w) => .ok (0, ⟨w, y.files⟩, s)
    | (false, w) => do
      let (rc, w, s) ← giveUp e w s
      .ok (rc, ⟨w, y.files⟩, s)

/-! ## Outcomes -/

/-- One socket more, that of the object, in blocking mode -/
structure Listens (w : World) (s : Sock) (w' : World) (s' : Sock) : Prop where
  fds : w'.fds = ⟨s'.fd, false⟩ :: w.fds
  new : s'.fd ∉ w.nums
  pos : 0 ≤ s'.fd
  len : s'.err.length = 128
  blocking : s'.blocking = s.blocking
  op : s'.op = s.op
  errno : w'.err.errno = w.err.errno

/-- The files are those that were there, perhaps without that of the given name, and with the new ones. -/
def Changed (name : List UInt8) (new : List (List UInt8)) (files files' : List (List UInt8)) : Prop :=
  files' = new ++ files ∨ files' = new ++ files.filter (· ≠ name)

theorem deleteFile_ok (e : Env) (name : List UInt8) (y : Sys) : Errs y.w (deleteFile e name y).w ∧
    (deleteFile e name y).w.fds = y.w.fds ∧ Changed name [] y.files (deleteFile e name y).files := by
  unfold deleteFile
  obtain ⟨h1, h2, -, -⟩ := attempt_cases e y.w
  generalize attempt e y.w = r at h1 h2
  rcases r with ⟨_ | _, w⟩
  · exact ⟨h1, h2, .inl rfl⟩
  · exact ⟨h1, h2, .inr rfl⟩

theorem bindPath_ok (e : Env) (name : List UInt8) (y : Sys) : Errs y.w (bindPath e name y).2.w ∧
    (bindPath e name y).2.w.fds = y.w.fds ∧
    ((bindPath e name y).1 = true → name ∉ y.files ∧ (bindPath e name y).2.files = name :: y.files) ∧
    ((bindPath e name y).1 = false → (bindPath e name y).2.files = y.files ∧ Fresh y.w (bindPath e name y).2.w) := by
  unfold bindPath
  by_cases h : name ∈ y.files
  · rw [if_pos h]
    exact ⟨⟨rfl, [WSAEADDRINUSE], rfl, .inr (by simp)⟩, rfl, (fun h => by cases h), fun _ => ⟨rfl, [WSAEADDRINUSE], rfl, by simp⟩⟩
  · rw [if_neg h]
    obtain ⟨h1, h2, h3, -⟩ := attempt_cases e y.w
    generalize attempt e y.w = r at h1 h2 h3
    rcases r with ⟨_ | _, w⟩
    · exact ⟨h1, h2, (fun h => by cases h), fun _ => ⟨rfl, h3 rfl⟩⟩
    · exact ⟨h1, h2, fun _ => ⟨h, rfl⟩, (fun h => by cases h)⟩

/-- **C75, C94, C96 and C111, listening at a path on Windows**, whatever the calls do: on success there is one socket more, and a file of the name
of the path, of which at most 107 bytes count; on failure the sockets are the old ones, and the text is that of an error that occurred.
The file of the full name may be gone. -/
theorem listen_unix {e : Env} (he : Laws e) {host str : List UInt8} (hh : CStr host 0 str) {y : Sys} {s : Sock} (hs : s.fd = -1)
    (hl : s.err.length = 128) : ∃ rc y' s', listen e host y s = .ok (rc, y', s') ∧
      (rc = 0 ∧ Listens y.w s y'.w s' ∧ Changed str [str.take 107] y.files y'.files ∨
       rc = -1 ∧ Failed e y.w s y'.w s' ∧
        (Changed str [] y.files y'.files ∨ Changed str [str.take 107] y.files y'.files)) := by
  unfold listen bind
  rw [wr_lt (by omega)]
  simp only [Res.ok_bind]
  have hl' : (s.err.set 0 0).length = 128 := by simpa using hl
  obtain ⟨k1, k2, k3⟩ := socket_cases he y.w
  generalize hr : socket e y.w = r at k1 k2 k3
  rcases r with ⟨_ | fd, w⟩
  · obtain ⟨j1, j2⟩ := k2 rfl
    obtain ⟨w', s', g1, g2⟩ := giveUp_ok he (w₀ := y.w) (w := w) (s₀ := s) (s := { s with err := s.err.set 0 0 }) hl' (.inr ⟨j1, hs⟩) k1 j2 rfl rfl
    simp only [g1, Res.ok_bind]
    rw [if_pos (by decide)]
    exact ⟨_, _, _, rfl, .inr ⟨rfl, g2, .inl (.inl rfl)⟩⟩
  · obtain ⟨j1, j2, j3⟩ := k3 fd rfl
    simp only at j1
    obtain ⟨path, p1, -, p3⟩ := sunPath_ok hh
    have hb : bindUnix e host ⟨w, y.files⟩ = .ok (bindPath e (str.take 107) (deleteFile e str ⟨w, y.files⟩)) := by
      unfold bindUnix
      rw [p1]
      simp only [Res.ok_bind]
      rw [cstr_eq hh]
      simp only [Res.ok_bind]
      rw [p3]
    simp only
    rw [hb]
    simp only [Res.ok_bind]
    obtain ⟨d1, d2, d3⟩ := deleteFile_ok e str ⟨w, y.files⟩
    obtain ⟨b1, b2, b3, b4⟩ := bindPath_ok e (str.take 107) (deleteFile e str ⟨w, y.files⟩)
    generalize deleteFile e str ⟨w, y.files⟩ = y1 at d1 d2 d3 b1 b2 b3 b4
    generalize bindPath e (str.take 107) y1 = r2 at b1 b2 b3 b4
    rcases r2 with ⟨_ | _, y2⟩
    · obtain ⟨c1, c2⟩ := b4 rfl
      simp only at b2 c1
      rw [if_neg (by simp)]
      obtain ⟨w', s', g1, g2⟩ := giveUp_ok he (w₀ := y.w) (w := y2.w) (s₀ := s) (s := { s with err := s.err.set 0 0, fd := fd }) hl'
        (.inl ⟨false, by rw [b2, d2]; exact j1, j2, j3⟩) ((k1.trans d1).trans b1) (Fresh.before (k1.trans d1) c2) rfl rfl
      simp only [g1, Res.ok_bind]
      rw [if_pos (by decide)]
      exact ⟨_, _, _, rfl, .inr ⟨rfl, g2, .inl (by rw [c1]; exact d3)⟩⟩
    · obtain ⟨-, c2⟩ := b3 rfl
      simp only at b2 c2
      rw [if_pos rfl]
      simp only [Res.ok_bind]
      rw [if_neg (by decide)]
      have hc : Changed str [str.take 107] y.files y2.files := by
        rw [c2]
        rcases d3 with d3 | d3 <;> simp only [List.nil_append] at d3 <;> rw [d3]
        · exact .inl rfl
        · exact .inr rfl
      obtain ⟨a1, a2, a3, -⟩ := attempt_cases e y2.w
      generalize attempt e y2.w = r at a1 a2 a3
      rcases r with ⟨_ | _, w3⟩
      · simp only at a2
        obtain ⟨w', s', g1, g2⟩ := giveUp_ok he (w₀ := y.w) (w := w3) (s₀ := s) (s := { s with err := s.err.set 0 0, fd := fd }) hl'
          (.inl ⟨false, by rw [a2, b2, d2]; exact j1, j2, j3⟩) (((k1.trans d1).trans b1).trans a1)
          (Fresh.before ((k1.trans d1).trans b1) (a3 rfl)) rfl rfl
        simp only [g1, Res.ok_bind]
        exact ⟨_, _, _, rfl, .inr ⟨rfl, g2, .inr hc⟩⟩
      · simp only at a2
        exact ⟨_, _, _, rfl, .inl ⟨rfl, ⟨by rw [a2, b2, d2]; exact j1, j2, j3, hl', rfl, rfl,
          (((k1.trans d1).trans b1).trans a1).errno⟩, hc⟩⟩

/-- **C95 is violated** for unix sockets on Windows too: a socket that listens at a path blocks, whatever was asked for. -/
theorem listen_mode_violated {e : Env} (he : Laws e) {host str : List UInt8} (hh : CStr host 0 str) {y y' : Sys} {s s' : Sock} (hs : s.fd = -1)
    (hl : s.err.length = 128) (hb : s.blocking = false) (h : listen e host y s = .ok (0, y', s')) :
    s'.blocking = false ∧ ⟨s'.fd, false⟩ ∈ y'.w.fds := by
  obtain ⟨rc, y2, s2, h1, h2⟩ := listen_unix he hh hs hl (y := y)
  rw [h] at h1
  cases h1
  rcases h2 with ⟨-, g, -⟩ | ⟨h0, -⟩
  · exact ⟨g.blocking.trans hb, by rw [g.fds]; simp⟩
  · cases h0

/-- Listening again at the same path, with calls that do not fail: the old file is replaced. -/
theorem listen_unix_again {e : Env} (hc : ∀ n, e.call n = none) {host str : List UInt8} (hh : CStr host 0 str) (hn : str.length ≤ 107)
    {y : Sys} {s : Sock} (hl : s.err.length = 128) :
    ∃ y' s', listen e host y s = .ok (0, y', s') ∧ y'.files = str :: y.files.filter (· ≠ str) := by
  have ha : ∀ w : World, attempt e w = (true, { w with n := w.n + 1 }) := by intro w; unfold attempt; rw [hc]
  obtain ⟨path, p1, -, p3⟩ := sunPath_ok hh
  unfold listen bind
  rw [wr_lt (by omega)]
  simp only [Res.ok_bind, socket, ha, bindUnix, p1]
  rw [cstr_eq hh]
  simp only [Res.ok_bind, p3, List.take_of_length_le hn, deleteFile, ha, bindPath]
  rw [if_neg (show ¬ str ∈ y.files.filter (· ≠ str) by simp)]
  simp only [Res.ok_bind, if_true]
  rw [if_neg (by decide)]
  exact ⟨_, _, rfl, rfl⟩

/-- **C96 is violated** on Windows too: listening again at a path of more than 107 bytes fails, because not the file is removed that is in the
way, but one of the full name. -/
theorem listen_path_violated {e : Env} (he : Laws e) {host str : List UInt8} (hh : CStr host 0 str) (hn : 107 < str.length)
    {y : Sys} {s : Sock} (hs : s.fd = -1) (hl : s.err.length = 128) (hf : str.take 107 ∈ y.files) :
    ∃ y' s', listen e host y s = .ok (-1, y', s') ∧ Failed e y.w s y'.w s' := by
  obtain ⟨rc, y', s', h1, h2⟩ := listen_unix he hh hs hl (y := y)
  rcases h2 with ⟨rfl, -, -⟩ | ⟨rfl, h2, -⟩
  · exfalso
    unfold listen bind at h1
    rw [wr_lt (by omega)] at h1
    simp only [Res.ok_bind] at h1
    cases hr : socket e y.w with
    | mk o w =>
      cases o with
      | none =>
        rw [hr] at h1
        simp only at h1
        obtain ⟨k1, k2, -⟩ := socket_cases he y.w
        rw [hr] at k1 k2
        obtain ⟨j1, j2⟩ := k2 rfl
        obtain ⟨w', s'', g1, -⟩ := giveUp_ok he (w₀ := y.w) (w := w) (s₀ := s) (s := { s with err := s.err.set 0 0 }) (by simpa using hl)
          (.inr ⟨j1, hs⟩) k1 j2 rfl rfl
        rw [g1] at h1
        simp only [Res.ok_bind] at h1
        rw [if_pos (by decide)] at h1
        simp at h1
      | some fd =>
        rw [hr] at h1
        obtain ⟨path, p1, -, p3⟩ := sunPath_ok hh
        simp only [bindUnix, p1, Res.ok_bind] at h1
        rw [cstr_eq hh] at h1
        simp only [Res.ok_bind, p3] at h1
        have hin : str.take 107 ∈ (deleteFile e str ⟨w, y.files⟩).files := by
          obtain ⟨-, -, d3⟩ := deleteFile_ok e str ⟨w, y.files⟩
          rcases d3 with d3 | d3 <;> rw [d3] <;> simp only [List.nil_append]
          · exact hf
          · rw [List.mem_filter]
            refine ⟨hf, ?_⟩
            simp only [ne_eq, decide_not, Bool.not_eq_true', decide_eq_false_iff_not]
            intro hc
            have := congrArg List.length hc
            rw [List.length_take] at this
            omega
        unfold bindPath at h1
        rw [if_pos hin] at h1
        simp only [Bool.false_eq_true, if_false] at h1
        cases hg : giveUp e { (deleteFile e str ⟨w, y.files⟩).w with
            n := (deleteFile e str ⟨w, y.files⟩).w.n + 1,
            err := { (deleteFile e str ⟨w, y.files⟩).w.err with last := WSAEADDRINUSE },
            fails := (deleteFile e str ⟨w, y.files⟩).w.fails ++ [WSAEADDRINUSE] } { s with err := s.err.set 0 0, fd := fd } with
        | ub => rw [hg] at h1; simp at h1
        | ok r =>
          rw [hg] at h1
          have : r.1 = -1 := by
            unfold giveUp at hg
            obtain ⟨a, -, hg⟩ := Res.bind_eq_ok.1 hg
            obtain ⟨b, -, hg⟩ := Res.bind_eq_ok.1 hg
            cases hg
            rfl
          simp only [Res.ok_bind] at h1
          rw [this] at h1
          rw [if_pos (by decide)] at h1
          simp at h1
  · exact ⟨_, _, h1, h2⟩

/-! ## Examples -/

/-- An object that has not been used -/
def fresh (blocking : Bool) : Sock := { fd := -1, op := 0, blocking := blocking, family := AF_UNIX, err := List.replicate 128 0 }

example : ∃ y' s', listen (hosts []) [97, 0] ⟨idle, [[97], [98]]⟩ (fresh false) = .ok (0, y', s') ∧ y'.files = [[97], [98]] :=
  listen_unix_again (fun n => rfl) (str := [97]) (by refine ⟨?_, ?_, rfl⟩ <;> decide) (by decide) rfl

end Verif.Sock.WinOpen.Unix
