import Verif.Sock.WinTransfer

/-!
# Model of socket/sc_sock.c: listening at, connecting to and accepting from internet addresses on Windows

As `Verif.Sock.Model`, but for the functions of Windows: errors are found by `WSAGetLastError`, not
`errno`, the mode of a socket is set by one call of `ioctlsocket`, and an error may have no text. Paths
of unix sockets are in `Verif.Sock.Win` and `Verif.Sock.WinOpen.Unix`. Options that are set are calls that may fail; they change
nothing else here.
-/

namespace Verif.Sock.WinOpen

open Spec (Addr)
open Win (W Texts)
open WinTransfer (WSAEWOULDBLOCK)

def WSAEINPROGRESS : Int := 10036

/-- What the environment decides: whether and how the n-th call fails, the results of `getaddrinfo`, new
descriptors, the mode of accepted ones, and texts -/
structure Env where
  call : Nat → Option Int
  gai : Option (List UInt8) → Option (List UInt8) → Int → Nat → Except Int (List Addr)
  newfd : List Int → Int
  inherits : Nat → Bool
  texts : Texts

/-- What Windows promises -/
structure Laws (e : Env) : Prop where
  texts : e.texts.Ok
  unused : ∀ l, e.newfd l ∉ l
  nonneg : ∀ l, 0 ≤ e.newfd l
  gaiOk : ∀ h p f n, e.gai h p f n ≠ .ok []

/-- The system: open sockets, errors, the number of calls so far and the errors of those that failed -/
structure World where
  fds : List Fd
  err : W
  n : Nat
  fails : List Int
  deriving DecidableEq

/-- The numbers of the open sockets -/
def World.nums (w : World) : List Int := w.fds.map Fd.num

/-- A call that can fail: whether it succeeds -/
def attempt (e : Env) (w : World) : Bool × World :=
  match e.call w.n with
  | none => (true, { w with n := w.n + 1 })
  | some er => (false, { w with n := w.n + 1, err := { w.err with last := er }, fails := w.fails ++ [er] })

/-- `socket`: a new one is in blocking mode. -/
def socket (e : Env) (w : World) : Option Int × World :=
  match attempt e w with
  | (false, w) => (none, w)
  | (true, w) => (some (e.newfd w.nums), { w with fds := ⟨e.newfd w.nums, false⟩ :: w.fds })

/-- `accept`: the mode of the new socket depends on the system. -/
def kaccept (e : Env) (w : World) : Option Int × World :=
  match attempt e w with
  | (false, w) => (none, w)
  | (true, w) => (some (e.newfd w.nums), { w with fds := ⟨e.newfd w.nums, e.inherits w.n⟩ :: w.fds })

/-- `closesocket`: the number is free afterwards, whatever the result; one that is not open is somebody
else's. -/
def kclose (e : Env) (fd : Int) (w : World) : Res (Bool × World) :=
  if fd ∈ w.nums then .ok (attempt e { w with fds := w.fds.filter (fun f => f.num ≠ fd) }) else .ub

/-- `getaddrinfo`: its result is also what `WSAGetLastError` gives. -/
def getaddrinfo (e : Env) (host port : Option (List UInt8)) (family : Int) (w : World) : Option (List Addr) × World :=
  match e.gai host port family w.n with
  | .ok as => (some as, { w with n := w.n + 1 })
  | .error er => (none, { w with n := w.n + 1, err := { w.err with last := er }, fails := w.fails ++ [er] })

/-- `if (rc != 0) goto error` between two steps -/
def andThen (r : Bool × World) (f : World → Bool × World) : Bool × World := if r.1 then f r.2 else r

/-- `sc_sock_set_blocking`, socket/sc_sock.c:93-99 -/
def setBlocking (e : Env) (fd : Int) (blocking : Bool) (w : World) : Bool × World :=
  let mode := if blocking then false else true
  match attempt e w with
  | (false, w) => (false, w)
  | (true, w) => (true, { w with fds := w.fds.map fun f => if f.num = fd then { f with nonblock := mode } else f })

/-- `sc_sock_close`, socket/sc_sock.c:254-264 -/
def sockClose (e : Env) (w : World) (s : Sock) : Res (Int × World × Sock) :=
  if s.fd ≠ -1 then do
    let (ok, w) ← kclose e s.fd w
    .ok (if ok then 0 else -1, w, { s with fd := -1 })
  else .ok (0, w, s)

/-- `sc_sock_term`, socket/sc_sock.c:266-276 -/
def term (e : Env) (w : World) (s : Sock) : Res (Int × World × Sock) := do
  let (rc, w, s) ← sockClose e w s
  if rc ≠ 0 then do
    let s ← Win.errstr e.texts w.err s
    .ok (rc, w, s)
  else .ok (rc, w, s)

/-- Leaving with an error, socket/sc_sock.c:419-421 and 748-750 -/
def giveUp (e : Env) (w : World) (s : Sock) : Res (Int × World × Sock) := do
  let s ← Win.errstr e.texts w.err s
  let (_, w, s) ← sockClose e w s
  .ok (-1, w, s)

/-- What is done with a new socket before binding it, and binding it, socket/sc_sock.c:384-412 -/
def bindSetup (e : Env) (s : Sock) (fd : Int) (w : World) : Bool × World :=
  let r := if s.family = AF_INET6 then attempt e w else (true, w)
  let r := andThen r (setBlocking e fd s.blocking)
  let r := andThen r (attempt e)
  let r := andThen r (attempt e)
  andThen r (attempt e)

/-- The loop of `sc_sock_bind`, socket/sc_sock.c:372-415: whether it ends at `out` -/
def bindLoop (e : Env) : List Addr → World → Sock → Bool × World × Sock
  | [], w, s => (false, w, s)
  | _ :: ps, w, s =>
    match socket e w with
    | (none, w) => bindLoop e ps w s
    | (some fd, w) =>
      let s := { s with fd := fd }
      let r := bindSetup e s fd w
      (r.1, r.2, s)

/-- `sc_sock_bind`, socket/sc_sock.c:333-424, for families other than `AF_UNIX` -/
def bind (e : Env) (host port : Option (List UInt8)) (w : World) (s : Sock) : Res (Int × World × Sock) := do
  let err ← wr s.err 0 0
  let s := { s with err := err }
  match getaddrinfo e host port s.family w with
  | (none, w) => do
    let s ← Win.errstr e.texts w.err s
    .ok (-1, w, s)
  | (some as, w) =>
    match bindLoop e as w s with
    | (true, w, s) => .ok (0, w, s)
    | (false, w, s) => giveUp e w s

/-- `sc_sock_listen`, socket/sc_sock.c:732-751, for families other than `AF_UNIX` -/
def listen (e : Env) (host port : Option (List UInt8)) (w : World) (s : Sock) : Res (Int × World × Sock) := do
  let (rc, w, s) ← bind e host port w s
  if rc ≠ 0 then .ok (rc, w, s)
  else
    match attempt e w with
    | (true, w) => .ok (0, w, s)
    | (false, w) => giveUp e w s

/-- The loop of `sc_sock_bind_src`, socket/sc_sock.c:497-502; `rc` is the last result. -/
def bindFirst (e : Env) : List Addr → Bool → World → Bool × World
  | [], rc, w => (rc, w)
  | _ :: ps, _, w =>
    match attempt e w with
    | (true, w) => (true, w)
    | (false, w) => bindFirst e ps false w

/-- `sc_sock_bind_src`, socket/sc_sock.c:482-518: whether it succeeds -/
def bindSrc (e : Env) (addr port : Option (List UInt8)) (w : World) (s : Sock) : Res (Bool × World × Sock) :=
  match getaddrinfo e addr port AF_UNSPEC w with
  | (none, w) => do
    let s ← Win.errstr e.texts w.err s
    .ok (false, w, s)
  | (some as, w) =>
    match bindFirst e as true w with
    | (true, w) => .ok (true, w, s)
    | (false, w) => do
      let s ← Win.errstr e.texts w.err s
      .ok (false, w, s)

/-- What is done with a new socket before connecting it, socket/sc_sock.c:559-574 -/
def connectSetup (e : Env) (s : Sock) (fd : Int) (w : World) : Bool × World :=
  let r := setBlocking e fd s.blocking w
  let r := andThen r (attempt e)
  andThen r (attempt e)

/-- The part of the body that connects, socket/sc_sock.c:583-597 -/
def connectTo (e : Env) (w : World) (s : Sock) : Res (Next × World × Sock) :=
  match attempt e w with
  | (true, w) => .ok (.done, w, s)
  | (false, w) =>
    if s.blocking = false ∧ (w.err.last = WSAEINPROGRESS ∨ w.err.last = WSAEWOULDBLOCK) then
      .ok (.pending, { w with err := { w.err with errno := EAGAIN } }, s)
    else do
      let (_, w, s) ← sockClose e w s
      .ok (.next, w, s)

/-- The body of the loop of `sc_sock_connect`, socket/sc_sock.c:551-597, for an address that is not
skipped -/
def connectOne (e : Env) (src srcPort : Option (List UInt8)) (p : Addr) (w : World) (s : Sock) :
    Res (Next × World × Sock) :=
  match socket e w with
  | (none, w) => .ok (.next, w, s)
  | (some fd, w) =>
    let s := { s with family := p.family, fd := fd }
    match connectSetup e s fd w with
    | (false, w) => .ok (.error, w, s)
    | (true, w) =>
      if src ≠ none ∨ srcPort ≠ none then do
        let (ok, w, s) ← bindSrc e src srcPort w s
        if ok then connectTo e w s else .ok (.bindError, w, s)
      else connectTo e w s

/-- The inner loop of `sc_sock_connect`, socket/sc_sock.c:545-598, in round `i` -/
def connectPass (e : Env) (src srcPort : Option (List UInt8)) (family : Int) (i : Nat) :
    List Addr → World → Sock → Res (Next × World × Sock)
  | [], w, s => .ok (.next, w, s)
  | p :: ps, w, s =>
    if xor (i == 0) (p.family == family) then connectPass e src srcPort family i ps w s
    else do
      let r ← connectOne e src srcPort p w s
      if r.1 = .next then connectPass e src srcPort family i ps r.2.1 r.2.2 else .ok r

/-- The labels `error`, `bind_error` and `end`, socket/sc_sock.c:600-608 -/
def connectEnd (e : Env) (r : Next × World × Sock) : Res (Int × World × Sock) :=
  match r with
  | (.done, w, s) => .ok (0, w, s)
  | (.pending, w, s) => .ok (-1, w, s)
  | (.bindError, w, s) => do
    let (_, w, s) ← sockClose e w s
    .ok (-1, w, s)
  | (_, w, s) => giveUp e w s

/-- `sc_sock_connect`, socket/sc_sock.c:520-609, for families other than `AF_UNIX` -/
def connect (e : Env) (dst dstPort src srcPort : Option (List UInt8)) (w : World) (s : Sock) :
    Res (Int × World × Sock) :=
  let family := s.family
  match getaddrinfo e dst dstPort AF_UNSPEC w with
  | (none, w) => do
    let s ← Win.errstr e.texts w.err s
    .ok (-1, w, s)
  | (some as, w) => do
    let r ← connectPass e src srcPort family 0 as w s
    let r ← (if r.1 = .next then connectPass e src srcPort family 1 as r.2.1 r.2.2 else .ok r)
    connectEnd e r

/-- `sc_sock_accept`, socket/sc_sock.c:690-730: the listening and the accepted socket -/
def accept (e : Env) (w : World) (s inn : Sock) : Res (Int × World × Sock × Sock) :=
  match kaccept e w with
  | (none, w) =>
    if s.blocking = false ∧ w.err.last = WSAEWOULDBLOCK then
      .ok (-1, { w with err := { w.err with errno := EAGAIN } }, s, inn)
    else do
      let s ← Win.errstr e.texts w.err s
      .ok (-1, w, s, inn)
  | (some fd, w) =>
    let inn := { inn with fd := fd, op := 0, family := s.family }
    let r := if inn.family ≠ AF_UNIX then attempt e w else (true, w)
    match andThen r (setBlocking e fd s.blocking) with
    | (true, w) => .ok (0, w, s, inn)
    | (false, w) => do
      let s ← Win.errstr e.texts w.err s
      let (_, w, inn) ← sockClose e w inn
      .ok (-1, w, s, inn)

/-! ## What calls leave behind -/

/-- Calls that have been made in between: errors may have happened, the last of which is the last error of
Windows; `errno` is as it was. -/
structure Errs (w w' : World) : Prop where
  errno : w'.err.errno = w.err.errno
  fails : ∃ l, w'.fails = w.fails ++ l ∧ (l = [] ∧ w'.err.last = w.err.last ∨ w'.err.last ∈ l)

/-- The last error has happened in between. -/
def Fresh (w w' : World) : Prop := ∃ l, w'.fails = w.fails ++ l ∧ w'.err.last ∈ l

theorem Errs.refl (w : World) : Errs w w := ⟨rfl, [], by simp, .inl ⟨rfl, rfl⟩⟩

theorem Errs.trans {a b c : World} (h : Errs a b) (g : Errs b c) : Errs a c := by
  obtain ⟨l, h1, h2⟩ := h.fails
  obtain ⟨k, g1, g2⟩ := g.fails
  refine ⟨g.errno.trans h.errno, l ++ k, by rw [g1, h1, List.append_assoc], ?_⟩
  rcases g2 with ⟨rfl, g2⟩ | g2
  · rcases h2 with ⟨rfl, h2⟩ | h2
    · exact .inl ⟨rfl, g2.trans h2⟩
    · exact .inr (by rw [g2]; simp [h2])
  · exact .inr (by simp [g2])

theorem Fresh.after {a b c : World} (h : Fresh a b) (g : Errs b c) : Fresh a c := by
  obtain ⟨l, h1, h2⟩ := h
  obtain ⟨k, g1, g2⟩ := g.fails
  refine ⟨l ++ k, by rw [g1, h1, List.append_assoc], ?_⟩
  rcases g2 with ⟨rfl, g2⟩ | g2
  · rw [g2]; simp [h2]
  · simp [g2]

theorem Fresh.before {a b c : World} (g : Errs a b) (h : Fresh b c) : Fresh a c := by
  obtain ⟨l, h1, h2⟩ := h
  obtain ⟨k, g1, -⟩ := g.fails
  exact ⟨k ++ l, by rw [h1, g1, List.append_assoc], by simp [h2]⟩

theorem attempt_cases (e : Env) (w : World) : Errs w (attempt e w).2 ∧ (attempt e w).2.fds = w.fds ∧
    ((attempt e w).1 = false → Fresh w (attempt e w).2) ∧ (attempt e w).2.n = w.n + 1 := by
  unfold attempt
  cases e.call w.n with
  | none => exact ⟨⟨rfl, [], by simp, .inl ⟨rfl, rfl⟩⟩, rfl, fun h => (by cases h), rfl⟩
  | some er => exact ⟨⟨rfl, [er], rfl, .inr (by simp)⟩, rfl, fun _ => ⟨[er], rfl, by simp⟩, rfl⟩

/-- A run of calls on the socket `fd`, which is the newest: whether all succeeded, and its mode -/
structure Steps (w : World) (fd : Int) (rest : List Fd) (ok : Bool) (w' : World) : Prop where
  errs : Errs w w'
  fds : ∃ m, w'.fds = ⟨fd, m⟩ :: rest
  fresh : ok = false → Fresh w w'

theorem Steps.andThen {w : World} {fd : Int} {rest : List Fd} {r : Bool × World} {f : World → Bool × World}
    (h : Steps w fd rest r.1 r.2) (hf : ∀ w', (∃ m, w'.fds = ⟨fd, m⟩ :: rest) → Steps w' fd rest (f w').1 (f w').2) :
    Steps w fd rest (andThen r f).1 (andThen r f).2 := by
  unfold WinOpen.andThen
  split
  · have g := hf r.2 h.fds
    exact ⟨h.errs.trans g.errs, g.fds, fun hb => Fresh.before h.errs (g.fresh hb)⟩
  · exact h

theorem attempt_steps (e : Env) {w : World} {fd : Int} {rest : List Fd} (h : ∃ m, w.fds = ⟨fd, m⟩ :: rest) :
    Steps w fd rest (attempt e w).1 (attempt e w).2 := by
  obtain ⟨h1, h2, h3, -⟩ := attempt_cases e w
  exact ⟨h1, by rw [h2]; exact h, h3⟩

theorem setBlocking_steps (e : Env) {w : World} {fd : Int} {rest : List Fd} {b : Bool} (h : ∃ m, w.fds = ⟨fd, m⟩ :: rest)
    (hn : fd ∉ rest.map Fd.num) : Steps w fd rest (setBlocking e fd b w).1 (setBlocking e fd b w).2 ∧
      ((setBlocking e fd b w).1 = true → (setBlocking e fd b w).2.fds = ⟨fd, !b⟩ :: rest) := by
  unfold setBlocking
  obtain ⟨h1, h2, h3, -⟩ := attempt_cases e w
  obtain ⟨m, hm⟩ := h
  have hrest : ∀ x : Bool, (rest.map fun f => if f.num = fd then ({ f with nonblock := x } : Fd) else f) = rest := by
    intro x
    have : ∀ f ∈ rest, (if f.num = fd then ({ f with nonblock := x } : Fd) else f) = f := by
      intro f hf
      rw [if_neg]
      exact fun hc => hn (hc ▸ List.mem_map.2 ⟨f, hf, rfl⟩)
    conv => rhs; rw [← List.map_id rest]
    exact List.map_congr_left (fun f hf => this f hf)
  have hx : (if b = true then false else true) = !b := by cases b <;> rfl
  simp only [hx]
  generalize hr : attempt e w = r at h1 h2 h3
  rcases r with ⟨_ | _, w'⟩
  · exact ⟨⟨h1, ⟨m, h2.trans hm⟩, h3⟩, fun h => by cases h⟩
  · have hf : (w'.fds.map fun f => if f.num = fd then ({ f with nonblock := !b } : Fd) else f) = ⟨fd, !b⟩ :: rest := by
      rw [h2, hm, List.map_cons, hrest, if_pos rfl]
    exact ⟨⟨⟨h1.errno, h1.fails⟩, ⟨!b, hf⟩, fun h => by cases h⟩, fun _ => hf⟩

/-- A new socket -/
theorem socket_cases {e : Env} (he : Laws e) (w : World) : Errs w (socket e w).2 ∧
    ((socket e w).1 = none → (socket e w).2.fds = w.fds ∧ Fresh w (socket e w).2) ∧
    ∀ fd, (socket e w).1 = some fd → (socket e w).2.fds = ⟨fd, false⟩ :: w.fds ∧ fd ∉ w.nums ∧ 0 ≤ fd := by
  unfold socket
  obtain ⟨h1, h2, h3, -⟩ := attempt_cases e w
  generalize attempt e w = r at h1 h2 h3
  rcases r with ⟨_ | _, w'⟩
  · exact ⟨h1, fun _ => ⟨h2, h3 rfl⟩, fun fd h => by cases h⟩
  · refine ⟨⟨h1.errno, h1.fails⟩, fun h => (by cases h), fun fd h => ?_⟩
    replace h2 : w'.fds = w.fds := h2
    have hnum : w'.nums = w.nums := by unfold World.nums; rw [h2]
    simp only at h ⊢
    cases h
    exact ⟨by rw [h2], by have := he.unused w'.nums; rwa [hnum] at this ⊢, he.nonneg _⟩

/-- Closing the newest socket -/
theorem sockClose_new {e : Env} {w : World} {s : Sock} {rest : List Fd} {m : Bool} (h : w.fds = ⟨s.fd, m⟩ :: rest)
    (hn : s.fd ∉ rest.map Fd.num) (hp : 0 ≤ s.fd) :
    ∃ rc w', sockClose e w s = .ok (rc, w', { s with fd := -1 }) ∧ w'.fds = rest ∧ Errs w w' := by
  unfold sockClose kclose
  rw [if_pos (by omega), if_pos (by unfold World.nums; rw [h]; simp)]
  simp only [Res.ok_bind]
  obtain ⟨h1, h2, -, -⟩ := attempt_cases e { w with fds := w.fds.filter (fun f => f.num ≠ s.fd) }
  refine ⟨_, _, rfl, ?_, ⟨h1.errno, h1.fails⟩⟩
  rw [h2, h]
  simp only [List.filter_cons]
  rw [if_neg (by simp)]
  apply List.filter_eq_self.2
  intro f hf
  simp only [ne_eq, decide_not, Bool.not_eq_eq_eq_not, Bool.not_true, decide_eq_false_iff_not]
  exact fun hc => hn (hc ▸ List.mem_map.2 ⟨f, hf, rfl⟩)

/-! ## Outcomes -/

/-- One socket more, that of the object, in the mode asked for -/
structure Got (w : World) (s : Sock) (w' : World) (s' : Sock) : Prop where
  fds : w'.fds = ⟨s'.fd, !s.blocking⟩ :: w.fds
  new : s'.fd ∉ w.nums
  pos : 0 ≤ s'.fd
  len : s'.err.length = 128
  blocking : s'.blocking = s.blocking
  op : s'.op = s.op

/-- No socket more, the text of an error that has happened, if it has one, and `errno` as it was -/
structure Failed (e : Env) (w : World) (s : Sock) (w' : World) (s' : Sock) : Prop where
  fds : w'.fds = w.fds
  fd : s'.fd = -1
  len : s'.err.length = 128
  errno : w'.err.errno = w.err.errno
  text : ∃ l er, w'.fails = w.fails ++ l ∧ er ∈ l ∧ ∀ m, e.texts.fmt er = some m → Shows s'.err m
  blocking : s'.blocking = s.blocking
  op : s'.op = s.op

/-- The text of the last error -/
theorem errstr_ok {e : Env} (he : Laws e) {w₀ w : World} {s : Sock} (hl : s.err.length = 128) (hf : Fresh w₀ w) :
    ∃ err, Win.errstr e.texts w.err s = .ok { s with err := err } ∧ err.length = 128 ∧
      ∃ l er, w.fails = w₀.fails ++ l ∧ er ∈ l ∧ ∀ m, e.texts.fmt er = some m → Shows err m := by
  obtain ⟨err, h1, h2, h3, -⟩ := Win.errstr_ok he.texts (w := w.err) hl
  obtain ⟨l, g1, g2⟩ := hf
  exact ⟨err, h1, h2, l, _, g1, g2, h3⟩

theorem giveUp_ok {e : Env} (he : Laws e) {w₀ w : World} {s₀ s : Sock} (hl : s.err.length = 128)
    (hs : (∃ m, w.fds = ⟨s.fd, m⟩ :: w₀.fds ∧ s.fd ∉ w₀.nums ∧ 0 ≤ s.fd) ∨ w.fds = w₀.fds ∧ s.fd = -1)
    (hE : Errs w₀ w) (hf : Fresh w₀ w) (hb : s.blocking = s₀.blocking) (ho : s.op = s₀.op) :
    ∃ w' s', giveUp e w s = .ok (-1, w', s') ∧ Failed e w₀ s₀ w' s' := by
  unfold giveUp
  obtain ⟨err, h1, h2, l, er, h3, h4, h5⟩ := errstr_ok he hl hf
  rw [h1]
  simp only [Res.ok_bind]
  rcases hs with ⟨m, k1, k2, k3⟩ | ⟨k1, k2⟩
  · obtain ⟨rc, w', c1, c2, c3⟩ := sockClose_new (e := e) (w := w) (s := { s with err := err }) k1 k2 k3
    rw [c1]
    obtain ⟨l', g1, -⟩ := c3.fails
    exact ⟨_, _, rfl, c2, rfl, h2, (hE.trans c3).errno, ⟨l ++ l', er, by rw [g1, h3, List.append_assoc], by simp [h4], h5⟩, hb, ho⟩
  · unfold sockClose
    rw [if_neg (by simp [k2])]
    exact ⟨_, _, rfl, k1, k2, h2, hE.errno, ⟨l, er, h3, h4, h5⟩, hb, ho⟩

/-! ## Listening -/

theorem bindSetup_steps {e : Env} {w : World} {s : Sock} {fd : Int} {rest : List Fd} (h : ∃ m, w.fds = ⟨fd, m⟩ :: rest)
    (hn : fd ∉ rest.map Fd.num) : Steps w fd rest (bindSetup e s fd w).1 (bindSetup e s fd w).2 ∧
      ((bindSetup e s fd w).1 = true → (bindSetup e s fd w).2.fds = ⟨fd, !s.blocking⟩ :: rest) := by
  unfold bindSetup
  have h0 : Steps w fd rest (if s.family = AF_INET6 then attempt e w else (true, w)).1
      (if s.family = AF_INET6 then attempt e w else (true, w)).2 := by
    split
    · exact attempt_steps e h
    · exact ⟨.refl w, h, fun h => by cases h⟩
  generalize (if s.family = AF_INET6 then attempt e w else (true, w)) = r0 at h0
  have h1 := h0.andThen (f := setBlocking e fd s.blocking) fun w' hw => (setBlocking_steps e hw hn).1
  have m1 : (andThen r0 (setBlocking e fd s.blocking)).1 = true →
      (andThen r0 (setBlocking e fd s.blocking)).2.fds = ⟨fd, !s.blocking⟩ :: rest := by
    unfold andThen
    split
    · exact (setBlocking_steps e h0.fds hn).2
    · next hc => exact fun h => absurd h hc
  have step : ∀ {r : Bool × World}, Steps w fd rest r.1 r.2 → (r.1 = true → r.2.fds = ⟨fd, !s.blocking⟩ :: rest) →
      Steps w fd rest (andThen r (attempt e)).1 (andThen r (attempt e)).2 ∧
      ((andThen r (attempt e)).1 = true → (andThen r (attempt e)).2.fds = ⟨fd, !s.blocking⟩ :: rest) := by
    intro r hr hm
    refine ⟨hr.andThen fun w' hw => attempt_steps e hw, ?_⟩
    unfold andThen
    split
    · next hc => exact fun _ => (attempt_cases e r.2).2.1.trans (hm hc)
    · next hc => exact fun h => absurd h hc
  obtain ⟨h2, m2⟩ := step h1 m1
  obtain ⟨h3, m3⟩ := step h2 m2
  exact step h3 m3

theorem bindLoop_ok {e : Env} (he : Laws e) {w₀ : World} : ∀ (as : List Addr) (w : World) (s : Sock), w.fds = w₀.fds →
    s.fd = -1 → Errs w₀ w → (as = [] → Fresh w₀ w) →
    ∃ w' s', (∃ ok, bindLoop e as w s = (ok, w', s') ∧
      (ok = true → w'.fds = ⟨s'.fd, !s.blocking⟩ :: w₀.fds ∧ s'.fd ∉ w₀.nums ∧ 0 ≤ s'.fd) ∧
      (ok = false → ((∃ m, w'.fds = ⟨s'.fd, m⟩ :: w₀.fds ∧ s'.fd ∉ w₀.nums ∧ 0 ≤ s'.fd) ∨ w'.fds = w₀.fds ∧ s'.fd = -1) ∧
        Fresh w₀ w')) ∧ Errs w₀ w' ∧ s'.err = s.err ∧ s'.blocking = s.blocking ∧ s'.op = s.op := by
  intro as
  induction as with
  | nil =>
    intro w s h1 h2 h3 h4
    exact ⟨w, s, ⟨false, rfl, fun h => (by cases h), fun _ => ⟨.inr ⟨h1, h2⟩, h4 rfl⟩⟩, h3, rfl, rfl, rfl⟩
  | cons p ps ih =>
    intro w s h1 h2 h3 h4
    unfold bindLoop
    obtain ⟨g1, g2, g3⟩ := socket_cases he w
    generalize socket e w = r at g1 g2 g3
    rcases r with ⟨_ | fd, w1⟩
    · obtain ⟨k1, k2⟩ := g2 rfl
      exact ih w1 s (k1.trans h1) h2 (h3.trans g1) (fun _ => k2.before h3)
    · obtain ⟨k1, k2, k3⟩ := g3 fd rfl
      simp only
      replace k1 : w1.fds = ⟨fd, false⟩ :: w₀.fds := by rw [k1, h1]
      have k2' : fd ∉ w₀.fds.map Fd.num := by rw [← h1]; exact k2
      obtain ⟨b1, b2⟩ := bindSetup_steps (e := e) (w := w1) (s := { s with fd := fd }) ⟨false, k1⟩ k2'
      refine ⟨_, _, ⟨_, rfl, fun h => ⟨b2 h, k2', k3⟩, fun h => ⟨.inl ?_, ?_⟩⟩, (h3.trans g1).trans b1.errs, rfl, rfl, rfl⟩
      · obtain ⟨m, hm⟩ := b1.fds
        exact ⟨m, hm, k2', k3⟩
      · exact Fresh.before (h3.trans g1) (b1.fresh h)

/-- **C75, C94, C95 and C111, listening on Windows**, whatever the calls do: on success there is one socket more, which
has the mode of the object; on failure the sockets are the old ones and the text is that of an error that occurred. -/
theorem listen_ok {e : Env} (he : Laws e) {host port : Option (List UInt8)} {w : World} {s : Sock} (hs : s.fd = -1)
    (hl : s.err.length = 128) : ∃ rc w' s', listen e host port w s = .ok (rc, w', s') ∧
      (rc = 0 ∧ Got w s w' s' ∧ w'.err.errno = w.err.errno ∨ rc = -1 ∧ Failed e w s w' s') := by
  unfold listen bind getaddrinfo
  rw [wr_lt (by omega)]
  simp only [Res.ok_bind]
  have hl' : (s.err.set 0 0).length = 128 := by simpa using hl
  cases hg : e.gai host port s.family w.n with
  | error er =>
    simp only
    obtain ⟨err, h1, h2, h3⟩ := errstr_ok he (w₀ := w)
      (w := { w with n := w.n + 1, err := { w.err with last := er }, fails := w.fails ++ [er] })
      (s := { s with err := s.err.set 0 0 }) hl' ⟨[er], rfl, by simp⟩
    rw [h1]
    simp only [Res.ok_bind]
    rw [if_pos (by decide)]
    exact ⟨_, _, _, rfl, .inr ⟨rfl, rfl, hs, h2, rfl, h3, rfl, rfl⟩⟩
  | ok as =>
    simp only
    have hne : as ≠ [] := by rintro rfl; exact he.gaiOk _ _ _ _ hg
    obtain ⟨w', s', ⟨ok, b1, b2, b3⟩, b4, b5, b6, b7⟩ := bindLoop_ok he (w₀ := w) as { w with n := w.n + 1 }
      { s with err := s.err.set 0 0 } rfl hs ⟨rfl, [], by simp, .inl ⟨rfl, rfl⟩⟩ (fun h => absurd h hne)
    rw [b1]
    have hlen : s'.err.length = 128 := by rw [b5]; exact hl'
    cases ok with
    | false =>
      obtain ⟨c1, c2⟩ := b3 rfl
      obtain ⟨w2, s2, g1, g2⟩ := giveUp_ok he (s₀ := s) hlen c1 b4 c2 b6 b7
      simp only [g1, Res.ok_bind]
      rw [if_pos (by decide)]
      exact ⟨_, _, _, rfl, .inr ⟨rfl, g2⟩⟩
    | true =>
      obtain ⟨c1, c2, c3⟩ := b2 rfl
      simp only [Res.ok_bind]
      rw [if_neg (by decide)]
      obtain ⟨a1, a2, a3, -⟩ := attempt_cases e w'
      generalize attempt e w' = r at a1 a2 a3
      rcases r with ⟨_ | _, w2⟩
      · obtain ⟨w3, s3, g1, g2⟩ := giveUp_ok he (w₀ := w) (w := w2) (s₀ := s) hlen
          (.inl ⟨!s.blocking, a2.trans c1, c2, c3⟩) (b4.trans a1) (Fresh.before b4 (a3 rfl)) b6 b7
        simp only [g1]
        exact ⟨_, _, _, rfl, .inr ⟨rfl, g2⟩⟩
      · exact ⟨_, _, _, rfl, .inl ⟨rfl, ⟨a2.trans c1, c2, c3, hlen, b6, b7⟩, (b4.trans a1).errno⟩⟩

/-! ## Connecting -/

theorem bindFirst_cases (e : Env) : ∀ (as : List Addr) (rc : Bool) (w : World), Errs w (bindFirst e as rc w).2 ∧
    (bindFirst e as rc w).2.fds = w.fds ∧ ((bindFirst e as rc w).1 = false → rc = false ∧ as = [] ∨ Fresh w (bindFirst e as rc w).2)
  | [], rc, w => ⟨.refl w, rfl, fun h => .inl ⟨h, rfl⟩⟩
  | p :: ps, rc, w => by
    unfold bindFirst
    obtain ⟨h1, h2, h3, -⟩ := attempt_cases e w
    generalize attempt e w = r at h1 h2 h3
    rcases r with ⟨_ | _, w1⟩
    · obtain ⟨g1, g2, -⟩ := bindFirst_cases e ps false w1
      exact ⟨h1.trans g1, g2.trans h2, fun _ => .inr ((h3 rfl).after g1)⟩
    · exact ⟨h1, h2, fun h => by cases h⟩

theorem bindSrc_ok {e : Env} (he : Laws e) {a p : Option (List UInt8)} {w : World} {s : Sock} (hl : s.err.length = 128) :
    ∃ ok w' s', bindSrc e a p w s = .ok (ok, w', s') ∧ Errs w w' ∧ w'.fds = w.fds ∧ s'.err.length = 128 ∧
      (∃ err, s' = { s with err := err }) ∧
      (ok = false → ∃ l er, w'.fails = w.fails ++ l ∧ er ∈ l ∧ ∀ m, e.texts.fmt er = some m → Shows s'.err m) := by
  unfold bindSrc getaddrinfo
  cases hg : e.gai a p AF_UNSPEC w.n with
  | error er =>
    simp only
    obtain ⟨err, h1, h2, h3⟩ := errstr_ok he (w₀ := w)
      (w := { w with n := w.n + 1, err := { w.err with last := er }, fails := w.fails ++ [er] }) (s := s) hl ⟨[er], rfl, by simp⟩
    rw [h1]
    exact ⟨_, _, _, rfl, ⟨rfl, [er], rfl, .inr (by simp)⟩, rfl, h2, ⟨err, rfl⟩, fun _ => h3⟩
  | ok as =>
    simp only
    obtain ⟨h1, h2, h3⟩ := bindFirst_cases e as true { w with n := w.n + 1 }
    generalize bindFirst e as true { w with n := w.n + 1 } = r at h1 h2 h3
    rcases r with ⟨_ | _, w'⟩
    · have hf : Fresh w w' := by
        rcases h3 rfl with ⟨h, -⟩ | h
        · cases h
        · exact h
      obtain ⟨err, g1, g2, g3⟩ := errstr_ok he hl hf
      simp only [g1]
      exact ⟨_, _, _, rfl, ⟨h1.errno, h1.fails⟩, h2, g2, ⟨err, rfl⟩, fun _ => g3⟩
    · exact ⟨_, _, _, rfl, ⟨h1.errno, h1.fails⟩, h2, hl, ⟨s.err, rfl⟩, fun h => by cases h⟩

/-- What one or more addresses lead to, seen from the state `w₀` in which none had been tried: in all
cases but one `errno` is as it was. -/
structure Led (e : Env) (w₀ : World) (s₀ : Sock) (nx : Next) (w : World) (s : Sock) : Prop where
  len : s.err.length = 128
  blocking : s.blocking = s₀.blocking
  op : s.op = s₀.op
  errno : nx ≠ .pending → Errs w₀ w
  done : nx = .done ∨ nx = .pending → w.fds = ⟨s.fd, !s₀.blocking⟩ :: w₀.fds ∧ s.fd ∉ w₀.nums ∧ 0 ≤ s.fd
  pending : nx = .pending → w.err.errno = EAGAIN ∧ s₀.blocking = false ∧
    (w.err.last = WSAEINPROGRESS ∨ w.err.last = WSAEWOULDBLOCK)
  next : nx = .next → w.fds = w₀.fds ∧ s.fd = -1 ∧ Fresh w₀ w
  error : nx = .error ∨ nx = .bindError → (∃ m, w.fds = ⟨s.fd, m⟩ :: w₀.fds) ∧ s.fd ∉ w₀.nums ∧ 0 ≤ s.fd
  fresh : nx = .error → Fresh w₀ w
  text : nx = .bindError → ∃ l er, w.fails = w₀.fails ++ l ∧ er ∈ l ∧ ∀ m, e.texts.fmt er = some m → Shows s.err m

theorem connectTo_ok {e : Env} {w₀ w : World} {s₀ s : Sock} (hl : s.err.length = 128) (hb : s.blocking = s₀.blocking)
    (ho : s.op = s₀.op) (hE : Errs w₀ w) (hf : w.fds = ⟨s.fd, !s₀.blocking⟩ :: w₀.fds) (hn : s.fd ∉ w₀.nums) (hp : 0 ≤ s.fd) :
    ∃ nx w' s', connectTo e w s = .ok (nx, w', s') ∧ Led e w₀ s₀ nx w' s' := by
  unfold connectTo
  obtain ⟨h1, h2, h3, -⟩ := attempt_cases e w
  generalize attempt e w = r at h1 h2 h3
  rcases r with ⟨_ | _, w1⟩
  · replace h3 := h3 rfl
    simp only
    split
    · next hc =>
      exact ⟨_, _, _, rfl, hl, hb, ho, fun h => absurd rfl h, fun _ => ⟨h2.trans hf, hn, hp⟩,
        fun _ => ⟨rfl, by rw [← hb]; exact hc.1, hc.2⟩, fun h => (by cases h), fun h => (by cases h <;> contradiction),
        fun h => (by cases h), fun h => by cases h⟩
    · obtain ⟨rc, w2, c1, c2, c3⟩ := sockClose_new (e := e) (w := w1) (s := s) (h2.trans hf) hn hp
      rw [c1]
      exact ⟨_, _, _, rfl, hl, hb, ho, fun _ => (hE.trans h1).trans c3, fun h => (by cases h <;> contradiction),
        fun h => (by cases h), fun _ => ⟨c2, rfl, Fresh.after (Fresh.before hE h3) c3⟩, fun h => (by cases h <;> contradiction),
        fun h => (by cases h), fun h => by cases h⟩
  · exact ⟨_, _, _, rfl, hl, hb, ho, fun _ => hE.trans h1, fun _ => ⟨h2.trans hf, hn, hp⟩, fun h => (by cases h),
      fun h => (by cases h), fun h => (by cases h <;> contradiction), fun h => (by cases h), fun h => by cases h⟩

theorem connectSetup_steps {e : Env} {w : World} {s : Sock} {fd : Int} {rest : List Fd} (h : ∃ m, w.fds = ⟨fd, m⟩ :: rest)
    (hn : fd ∉ rest.map Fd.num) : Steps w fd rest (connectSetup e s fd w).1 (connectSetup e s fd w).2 ∧
      ((connectSetup e s fd w).1 = true → (connectSetup e s fd w).2.fds = ⟨fd, !s.blocking⟩ :: rest) := by
  unfold connectSetup
  obtain ⟨h1, m1⟩ := setBlocking_steps e (b := s.blocking) h hn
  have step : ∀ {r : Bool × World}, Steps w fd rest r.1 r.2 → (r.1 = true → r.2.fds = ⟨fd, !s.blocking⟩ :: rest) →
      Steps w fd rest (andThen r (attempt e)).1 (andThen r (attempt e)).2 ∧
      ((andThen r (attempt e)).1 = true → (andThen r (attempt e)).2.fds = ⟨fd, !s.blocking⟩ :: rest) := by
    intro r hr hm
    refine ⟨hr.andThen fun w' hw => attempt_steps e hw, ?_⟩
    unfold andThen
    split
    · next hc => exact fun _ => (attempt_cases e r.2).2.1.trans (hm hc)
    · next hc => exact fun h => absurd h hc
  obtain ⟨h2, m2⟩ := step h1 m1
  exact step h2 m2

theorem connectOne_ok {e : Env} (he : Laws e) {src srcPort : Option (List UInt8)} {p : Addr} {w₀ w : World} {s₀ s : Sock}
    (hl : s.err.length = 128) (hb : s.blocking = s₀.blocking) (ho : s.op = s₀.op) (hE : Errs w₀ w) (hf : w.fds = w₀.fds)
    (hs : s.fd = -1) : ∃ nx w' s', connectOne e src srcPort p w s = .ok (nx, w', s') ∧ Led e w₀ s₀ nx w' s' := by
  unfold connectOne
  obtain ⟨g1, g2, g3⟩ := socket_cases he w
  generalize socket e w = r at g1 g2 g3
  rcases r with ⟨_ | fd, w1⟩
  · obtain ⟨k1, k2⟩ := g2 rfl
    exact ⟨_, _, _, rfl, hl, hb, ho, fun _ => hE.trans g1, fun h => (by cases h <;> contradiction), fun h => (by cases h),
      fun _ => ⟨k1.trans hf, hs, Fresh.before hE k2⟩, fun h => (by cases h <;> contradiction), fun h => (by cases h),
      fun h => by cases h⟩
  · obtain ⟨k1, k2, k3⟩ := g3 fd rfl
    simp only
    replace k1 : w1.fds = ⟨fd, false⟩ :: w₀.fds := by rw [k1, hf]
    have k2' : fd ∉ w₀.nums := by unfold World.nums; rw [← hf]; exact k2
    obtain ⟨b1, b2⟩ := connectSetup_steps (e := e) (w := w1) (s := { s with family := p.family, fd := fd }) ⟨false, k1⟩ k2'
    generalize connectSetup e { s with family := p.family, fd := fd } fd w1 = r at b1 b2
    have hE1 : Errs w₀ r.2 := (hE.trans g1).trans b1.errs
    rcases r with ⟨_ | _, w2⟩
    · exact ⟨_, _, _, rfl, hl, hb, ho, fun _ => hE1, fun h => (by cases h <;> contradiction), fun h => (by cases h),
        fun h => (by cases h), fun _ => ⟨b1.fds, k2', k3⟩, fun _ => Fresh.before (hE.trans g1) (b1.fresh rfl),
        fun h => by cases h⟩
    · simp only
      replace b2 : w2.fds = ⟨fd, !s₀.blocking⟩ :: w₀.fds := by rw [← hb]; exact b2 rfl
      split
      · obtain ⟨ok, w3, s3, c1, c2, c3, c4, ⟨err, rfl⟩, c6⟩ := bindSrc_ok he (a := src) (p := srcPort) (w := w2)
          (s := { s with family := p.family, fd := fd }) hl
        simp only [c1, Res.ok_bind]
        cases ok with
        | true =>
          rw [if_pos rfl]
          exact connectTo_ok (s₀ := s₀) c4 hb ho (hE1.trans c2) (c3.trans b2) k2' k3
        | false =>
          obtain ⟨l, er, d1, d2, d3⟩ := c6 rfl
          obtain ⟨l0, d0, -⟩ := hE1.fails
          rw [if_neg (by decide)]
          exact ⟨_, _, _, rfl, c4, hb, ho, fun _ => hE1.trans c2, fun h => (by cases h <;> contradiction), fun h => (by cases h),
            fun h => (by cases h), fun _ => ⟨⟨_, c3.trans b2⟩, k2', k3⟩, fun h => (by cases h),
            fun _ => ⟨l0 ++ l, er, by rw [d1, d0, List.append_assoc], by simp [d2], d3⟩⟩
      · exact connectTo_ok (s₀ := s₀) hl hb ho hE1 b2 k2' k3

/-- All addresses of a list are tried that are not skipped: either one led to something or none did. -/
theorem connectPass_ok {e : Env} (he : Laws e) {src srcPort : Option (List UInt8)} {family : Int} {i : Nat} {w₀ : World} {s₀ : Sock} :
    ∀ (as : List Addr) (w : World) (s : Sock), s.err.length = 128 → s.blocking = s₀.blocking → s.op = s₀.op → Errs w₀ w →
    w.fds = w₀.fds → s.fd = -1 →
    ∃ nx w' s', connectPass e src srcPort family i as w s = .ok (nx, w', s') ∧
      (Led e w₀ s₀ nx w' s' ∨ nx = .next ∧ w' = w ∧ s' = s ∧ ∀ a ∈ as, xor (i == 0) (a.family == family) = true) := by
  intro as
  induction as with
  | nil => intro w s _ _ _ _ _ _; exact ⟨_, _, _, rfl, .inr ⟨rfl, rfl, rfl, fun a ha => by cases ha⟩⟩
  | cons p ps ih =>
    intro w s hl hb ho hE hf hs
    unfold connectPass
    split
    · next hx =>
      obtain ⟨nx, w', s', h1, h2⟩ := ih w s hl hb ho hE hf hs
      refine ⟨nx, w', s', h1, ?_⟩
      rcases h2 with h2 | ⟨h3, h4, h5, h6⟩
      · exact .inl h2
      · refine .inr ⟨h3, h4, h5, fun a ha => ?_⟩
        rcases List.mem_cons.1 ha with rfl | ha
        · exact hx
        · exact h6 a ha
    · obtain ⟨nx, w', s', h1, h2⟩ := connectOne_ok he (src := src) (srcPort := srcPort) (p := p) hl hb ho hE hf hs
      simp only [h1, Res.ok_bind]
      split
      · next hn =>
        subst hn
        obtain ⟨k1, k2, k3⟩ := h2.next rfl
        obtain ⟨nx, w2, s2, h3, h4⟩ := ih w' s' h2.len h2.blocking h2.op (h2.errno (by decide)) k1 k2
        refine ⟨nx, w2, s2, h3, .inl ?_⟩
        rcases h4 with h4 | ⟨rfl, rfl, rfl, -⟩
        · exact h4
        · exact h2
      · exact ⟨nx, w', s', rfl, .inl h2⟩

/-- **C75, C94, C95, C111 and C148, connecting to an internet address on Windows**, whatever the calls do: on success, or if
a non-blocking connection is under way, there is one socket more, in the mode of the object. Only then is `errno` set.
On failure the sockets are the old ones, the text is that of an error that occurred, and `errno` is what it was. -/
theorem connect_ok {e : Env} (he : Laws e) {dst dstPort src srcPort : Option (List UInt8)} {w : World} {s : Sock}
    (hs : s.fd = -1) (hl : s.err.length = 128) :
    ∃ rc w' s', connect e dst dstPort src srcPort w s = .ok (rc, w', s') ∧
      (rc = 0 ∧ Got w s w' s' ∧ w'.err.errno = w.err.errno ∨
       rc = -1 ∧ Got w s w' s' ∧ w'.err.errno = EAGAIN ∧ s.blocking = false ∧
        (w'.err.last = WSAEINPROGRESS ∨ w'.err.last = WSAEWOULDBLOCK) ∨
       rc = -1 ∧ Failed e w s w' s') := by
  unfold connect getaddrinfo
  simp only
  cases hg : e.gai dst dstPort AF_UNSPEC w.n with
  | error er =>
    simp only
    obtain ⟨err, h1, h2, h3⟩ := errstr_ok he (w₀ := w)
      (w := { w with n := w.n + 1, err := { w.err with last := er }, fails := w.fails ++ [er] }) (s := s) hl ⟨[er], rfl, by simp⟩
    rw [h1]
    exact ⟨_, _, _, rfl, .inr (.inr ⟨rfl, rfl, hs, h2, rfl, h3, rfl, rfl⟩)⟩
  | ok as =>
    simp only
    have hne : as ≠ [] := by rintro rfl; exact he.gaiOk _ _ _ _ hg
    have hE0 : Errs w { w with n := w.n + 1 } := ⟨rfl, [], by simp, .inl ⟨rfl, rfl⟩⟩
    have key : ∃ nx w' s', (connectPass e src srcPort s.family 0 as { w with n := w.n + 1 } s >>= fun r =>
        if r.1 = .next then connectPass e src srcPort s.family 1 as r.2.1 r.2.2 else .ok r) = .ok (nx, w', s') ∧
        Led e w s nx w' s' := by
      obtain ⟨nx, w1, s1, h1, h2⟩ := connectPass_ok he (src := src) (srcPort := srcPort) (family := s.family) (i := 0)
        (w₀ := w) (s₀ := s) as { w with n := w.n + 1 } s hl rfl rfl hE0 rfl hs
      rw [h1]
      simp only [Res.ok_bind]
      rcases h2 with h2 | ⟨rfl, rfl, rfl, h3⟩
      · by_cases hn : nx = .next
        · subst hn
          rw [if_pos rfl]
          obtain ⟨k1, k2, k3⟩ := h2.next rfl
          obtain ⟨nx, w2, s2, g1, g2⟩ := connectPass_ok he (src := src) (srcPort := srcPort) (family := s.family) (i := 1)
            (w₀ := w) (s₀ := s) as w1 s1 h2.len h2.blocking h2.op (h2.errno (by decide)) k1 k2
          refine ⟨_, _, _, g1, ?_⟩
          rcases g2 with g2 | ⟨rfl, rfl, rfl, -⟩
          · exact g2
          · exact h2
        · rw [if_neg hn]
          exact ⟨_, _, _, rfl, h2⟩
      · rw [if_pos rfl]
        obtain ⟨nx, w2, s2, g1, g2⟩ := connectPass_ok he (src := src) (srcPort := srcPort) (family := s1.family) (i := 1)
            (w₀ := w) (s₀ := s1) as { w with n := w.n + 1 } s1 hl rfl rfl hE0 rfl hs
        refine ⟨_, _, _, g1, ?_⟩
        rcases g2 with g2 | ⟨rfl, rfl, rfl, h4⟩
        · exact g2
        · exfalso
          obtain ⟨a, ha⟩ := List.exists_mem_of_ne_nil _ hne
          have h5 := h3 a ha
          have h6 := h4 a ha
          simp at h5 h6
          exact h5 h6
    obtain ⟨nx, w', s', h1, h2⟩ := key
    have : (connectPass e src srcPort s.family 0 as { w with n := w.n + 1 } s >>= fun r =>
        (if r.1 = .next then connectPass e src srcPort s.family 1 as r.2.1 r.2.2 else .ok r) >>= connectEnd e) =
        connectEnd e (nx, w', s') := by rw [← bind_assoc, h1]; rfl
    rw [this]
    have hgot : nx = .done ∨ nx = .pending → Got w s w' s' := fun h =>
      ⟨(h2.done h).1, (h2.done h).2.1, (h2.done h).2.2, h2.len, h2.blocking, h2.op⟩
    cases nx with
    | done => exact ⟨_, _, _, rfl, .inl ⟨rfl, hgot (.inl rfl), (h2.errno (by decide)).errno⟩⟩
    | pending =>
      obtain ⟨k1, k2, k3⟩ := h2.pending rfl
      exact ⟨_, _, _, rfl, .inr (.inl ⟨rfl, hgot (.inr rfl), k1, k2, k3⟩)⟩
    | next =>
      obtain ⟨k1, k2, k3⟩ := h2.next rfl
      obtain ⟨w2, s2, g1, g2⟩ := giveUp_ok he (s₀ := s) h2.len (.inr ⟨k1, k2⟩) (h2.errno (by decide)) k3 h2.blocking h2.op
      exact ⟨_, _, _, g1, .inr (.inr ⟨rfl, g2⟩)⟩
    | error =>
      obtain ⟨⟨m, k1⟩, k2, k3⟩ := h2.error (.inl rfl)
      obtain ⟨w2, s2, g1, g2⟩ := giveUp_ok he (s₀ := s) h2.len (.inl ⟨m, k1, k2, k3⟩) (h2.errno (by decide)) (h2.fresh rfl)
        h2.blocking h2.op
      exact ⟨_, _, _, g1, .inr (.inr ⟨rfl, g2⟩)⟩
    | bindError =>
      obtain ⟨⟨m, k1⟩, k2, k3⟩ := h2.error (.inr rfl)
      obtain ⟨l, er, t1, t2, t3⟩ := h2.text rfl
      obtain ⟨rc, w2, c1, c2, c3⟩ := sockClose_new (e := e) (w := w') (s := s') k1 k2 k3
      obtain ⟨l', g1, -⟩ := c3.fails
      simp only [connectEnd, c1, Res.ok_bind]
      exact ⟨_, _, _, rfl, .inr (.inr ⟨rfl, c2, rfl, h2.len, ((h2.errno (by decide)).trans c3).errno,
        ⟨l ++ l', er, by rw [g1, t1, List.append_assoc], by simp [t2], t3⟩, h2.blocking, h2.op⟩)⟩

/-- **C148 is violated** by connecting on Windows: if `errno` was `EAGAIN` before, it is so after every
failure, and there is no connection under way. -/
theorem connect_again_violated {e : Env} (he : Laws e) {dst dstPort src srcPort : Option (List UInt8)} {w w' : World} {s s' : Sock}
    {rc : Int} (hs : s.fd = -1) (hl : s.err.length = 128) (ho : w.err.errno = EAGAIN)
    (h : connect e dst dstPort src srcPort w s = .ok (rc, w', s')) (hf : s'.fd = -1) :
    rc = -1 ∧ w'.err.errno = EAGAIN ∧ w'.fds = w.fds := by
  obtain ⟨rc₁, w₁, s₁, h1, h2⟩ := connect_ok he (dst := dst) (dstPort := dstPort) (src := src) (srcPort := srcPort) (w := w) hs hl
  rw [h1] at h
  cases h
  rcases h2 with ⟨-, hg, -⟩ | ⟨-, hg, -⟩ | ⟨hr, hF⟩
  · have := hg.pos; omega
  · have := hg.pos; omega
  · exact ⟨hr, hF.errno.trans ho, hF.fds⟩

/-- **C148, connecting on Windows**, if `errno` was not `EAGAIN` before; otherwise see `connect_again_violated`: after a
negative result it is `EAGAIN` exactly if there is a connection under way, whose socket the object has then. -/
theorem connect_again_partial {e : Env} (he : Laws e) {dst dstPort src srcPort : Option (List UInt8)} {w w' : World} {s s' : Sock}
    {rc : Int} (hs : s.fd = -1) (hl : s.err.length = 128) (ho : w.err.errno ≠ EAGAIN)
    (h : connect e dst dstPort src srcPort w s = .ok (rc, w', s')) :
    (rc = -1 ∧ w'.err.errno = EAGAIN ↔ rc = -1 ∧ s'.fd ≠ -1) ∧
    (rc = -1 ∧ w'.err.errno = EAGAIN → s.blocking = false ∧ w'.fds = ⟨s'.fd, true⟩ :: w.fds ∧
      (w'.err.last = WSAEINPROGRESS ∨ w'.err.last = WSAEWOULDBLOCK)) := by
  obtain ⟨rc₁, w₁, s₁, h1, h2⟩ := connect_ok he (dst := dst) (dstPort := dstPort) (src := src) (srcPort := srcPort) (w := w) hs hl
  rw [h1] at h
  cases h
  rcases h2 with ⟨rfl, -⟩ | ⟨rfl, hg, h3, h4, h5⟩ | ⟨rfl, hF⟩
  · simp
  · have := hg.pos
    have hf := hg.fds
    rw [h4] at hf
    exact ⟨⟨fun _ => ⟨rfl, by omega⟩, fun _ => ⟨rfl, h3⟩⟩, fun _ => ⟨h4, hf, h5⟩⟩
  · have := hF.errno
    have := hF.fd
    exact ⟨⟨fun h => absurd (hF.errno ▸ h.2) ho, fun h => absurd hF.fd h.2⟩, fun h => absurd (hF.errno ▸ h.2) ho⟩

/-! ## Accepting and closing -/

/-- **C75, C94, C95, C111 and C148, accepting on Windows**: on success there is one socket more, in the mode of the listening one;
otherwise the sockets are the old ones and the text is that of the error, or the socket is non-blocking
and nobody is waiting. -/
theorem accept_ok {e : Env} (he : Laws e) {w : World} {s inn : Sock} (hi : inn.fd = -1) (hl : s.err.length = 128) :
    ∃ rc w' s' inn', accept e w s inn = .ok (rc, w', s', inn') ∧ s'.err.length = 128 ∧ (∃ err, s' = { s with err := err }) ∧
      inn'.err = inn.err ∧
      (rc = 0 ∧ s' = s ∧ w'.fds = ⟨inn'.fd, !s.blocking⟩ :: w.fds ∧ inn'.fd ∉ w.nums ∧ 0 ≤ inn'.fd ∧ inn'.op = 0 ∧
         inn'.family = s.family ∧ w'.err.errno = w.err.errno ∨
       rc = -1 ∧ w'.fds = w.fds ∧ inn'.fd = -1 ∧
        (s.blocking = false ∧ e.call w.n = some WSAEWOULDBLOCK ∧ w'.err.errno = EAGAIN ∧ s' = s ∨
         w'.err.errno = w.err.errno ∧
          ∃ l er, w'.fails = w.fails ++ l ∧ er ∈ l ∧ ∀ m, e.texts.fmt er = some m → Shows s'.err m)) := by
  unfold accept kaccept
  obtain ⟨h1, h2, h3, -⟩ := attempt_cases e w
  have hc : (attempt e w).1 = false → e.call w.n = some (attempt e w).2.err.last := by
    unfold attempt
    cases e.call w.n with
    | none => exact fun h => by cases h
    | some er => exact fun _ => rfl
  generalize attempt e w = r at h1 h2 h3 hc
  rcases r with ⟨_ | _, w1⟩
  · simp only
    split
    · next hb =>
      refine ⟨_, _, _, _, rfl, hl, ⟨s.err, rfl⟩, rfl, .inr ⟨rfl, h2, hi, .inl ⟨hb.1, ?_, rfl, rfl⟩⟩⟩
      rw [hc rfl]
      exact congrArg some hb.2
    · obtain ⟨err, g1, g2, g3⟩ := errstr_ok he hl (h3 rfl)
      simp only [g1]
      exact ⟨_, _, _, _, rfl, g2, ⟨err, rfl⟩, rfl, .inr ⟨rfl, h2, hi, .inr ⟨h1.errno, g3⟩⟩⟩
  · simp only
    replace h2 : w1.fds = w.fds := h2
    have hnum : w1.nums = w.nums := by unfold World.nums; rw [h2]
    have hnew : e.newfd w1.nums ∉ w.nums := by have := he.unused w1.nums; rwa [hnum] at this ⊢
    have hpos := he.nonneg w1.nums
    generalize e.newfd w1.nums = fd at hnew hpos
    have h0 : Steps { w1 with fds := ⟨fd, e.inherits w1.n⟩ :: w1.fds } fd w.fds
        (if s.family ≠ AF_UNIX then attempt e { w1 with fds := ⟨fd, e.inherits w1.n⟩ :: w1.fds }
          else (true, { w1 with fds := ⟨fd, e.inherits w1.n⟩ :: w1.fds })).1
        (if s.family ≠ AF_UNIX then attempt e { w1 with fds := ⟨fd, e.inherits w1.n⟩ :: w1.fds }
          else (true, { w1 with fds := ⟨fd, e.inherits w1.n⟩ :: w1.fds })).2 := by
      split
      · exact attempt_steps e ⟨_, by rw [h2]⟩
      · exact ⟨.refl _, ⟨_, by rw [h2]⟩, fun h => by cases h⟩
    generalize (if s.family ≠ AF_UNIX then attempt e { w1 with fds := ⟨fd, e.inherits w1.n⟩ :: w1.fds }
          else (true, { w1 with fds := ⟨fd, e.inherits w1.n⟩ :: w1.fds })) = r0 at h0
    have hE : Errs w { w1 with fds := ⟨fd, e.inherits w1.n⟩ :: w1.fds } := ⟨h1.errno, h1.fails⟩
    have b1 := h0.andThen (f := setBlocking e fd s.blocking) fun w' hw => (setBlocking_steps e hw hnew).1
    have b2 : (andThen r0 (setBlocking e fd s.blocking)).1 = true →
        (andThen r0 (setBlocking e fd s.blocking)).2.fds = ⟨fd, !s.blocking⟩ :: w.fds := by
      unfold andThen
      split
      · exact (setBlocking_steps e h0.fds hnew).2
      · next hc => exact fun h => absurd h hc
    generalize andThen r0 (setBlocking e fd s.blocking) = r1 at b1 b2
    rcases r1 with ⟨_ | _, w2⟩
    · simp only
      obtain ⟨err, g1, g2, l, er, g3, g4, g5⟩ := errstr_ok he (w₀ := w) (w := w2) hl (Fresh.before hE (b1.fresh rfl))
      rw [g1]
      simp only [Res.ok_bind]
      obtain ⟨m, hm⟩ := b1.fds
      obtain ⟨rc, w3, c1, c2, c3⟩ := sockClose_new (e := e) (w := w2)
        (s := { inn with fd := fd, op := 0, family := s.family }) hm hnew hpos
      rw [c1]
      obtain ⟨l', d1, -⟩ := c3.fails
      exact ⟨_, _, _, _, rfl, g2, ⟨err, rfl⟩, rfl, .inr ⟨rfl, c2, rfl, .inr ⟨((hE.trans b1.errs).trans c3).errno,
        l ++ l', er, by rw [d1, g3, List.append_assoc], by simp [g4], g5⟩⟩⟩
    · exact ⟨_, _, _, _, rfl, hl, ⟨s.err, rfl⟩, rfl, .inl ⟨rfl, rfl, b2 rfl, hnew, hpos, rfl, rfl, (hE.trans b1.errs).errno⟩⟩

/-- **C75, C94 and C111, closing on Windows**: the object has no socket afterwards, and that socket is not open. A failure has the
text of its error. -/
theorem term_ok {e : Env} (he : Laws e) {w : World} {s : Sock} (hl : s.err.length = 128) (hs : s.fd = -1 ∨ s.fd ∈ w.nums) :
    ∃ rc w' s', term e w s = .ok (rc, w', s') ∧ s'.fd = -1 ∧ s'.err.length = 128 ∧
      w'.fds = (if s.fd = -1 then w.fds else w.fds.filter (fun f => f.num ≠ s.fd)) ∧
      (rc = 0 ∨ rc = -1 ∧ ∃ er, e.call w.n = some er ∧ ∀ m, e.texts.fmt er = some m → Shows s'.err m) := by
  unfold term sockClose
  by_cases h : s.fd = -1
  · rw [if_neg (by simp [h]), if_pos h]
    simp only [Res.ok_bind]
    rw [if_neg (by decide)]
    exact ⟨_, _, _, rfl, h, hl, rfl, .inl rfl⟩
  · have hin : s.fd ∈ w.nums := hs.resolve_left h
    unfold kclose attempt
    rw [if_pos h, if_pos hin, if_neg h]
    simp only [Res.ok_bind]
    cases hc : e.call w.n with
    | none =>
      simp only [if_true]
      rw [if_neg (by decide)]
      exact ⟨_, _, _, rfl, rfl, hl, rfl, .inl rfl⟩
    | some er =>
      obtain ⟨err, g1, g2, g3, -⟩ := Win.errstr_ok he.texts (w := { w.err with last := er })
        (s := { s with fd := -1 }) hl
      simp only [Bool.false_eq_true, if_false]
      rw [if_pos (by decide), g1]
      exact ⟨_, _, _, rfl, rfl, g2, rfl, .inr ⟨rfl, er, rfl, g3⟩⟩

/-! ## Examples -/

/-- A host with two addresses; the calls of the list fail. -/
def hosts (l : List (Nat × Int)) : Env where
  call n := (l.find? (fun p => p.1 = n)).map Prod.snd
  gai _ _ _ n := if n = 100 then .error 11001 else .ok [⟨23, 1, 6, [1]⟩, ⟨2, 1, 6, [2]⟩]
  newfd l := l.foldl (fun a b => max a (b + 4)) 4
  inherits _ := true
  texts := ⟨fun _ => some [120, 0]⟩

theorem newfd_ge (l : List Int) : ∀ a : Int, a ≤ l.foldl (fun a b => max a (b + 4)) a ∧
    ∀ x ∈ l, x < l.foldl (fun a b => max a (b + 4)) a := by
  induction l with
  | nil => intro a; exact ⟨Int.le_refl _, fun x h => by cases h⟩
  | cons y l ih =>
    intro a
    obtain ⟨h1, h2⟩ := ih (max a (y + 4))
    simp only [List.foldl_cons]
    refine ⟨by omega, fun x hx => ?_⟩
    rcases List.mem_cons.1 hx with rfl | hx
    · omega
    · exact h2 x hx

theorem hosts_laws (l : List (Nat × Int)) : Laws (hosts l) where
  texts := by
    intro er m h
    cases h
    exact ⟨[120], fun i hi => by simp at hi; subst hi; rfl, by decide, rfl⟩
  unused k h := by have := (newfd_ge k 4).2 _ h; exact absurd this (Int.lt_irrefl _)
  nonneg k := by have := (newfd_ge k 4).1; show (0 : Int) ≤ k.foldl (fun a b => max a (b + 4)) 4; omega
  gaiOk _ _ _ _ h := by simp only [hosts] at h; split at h <;> cases h

def idle : World := ⟨[], ⟨0, 0⟩, 0, []⟩

/-- A result without the text -/
def brief (r : Res (Int × World × Sock)) : Option (Int × Int × Int × List Fd × Int) :=
  match r with
  | .ok (rc, w, s) => some (rc, s.fd, s.family, w.fds, w.err.errno)
  | .ub => none

/-- The first address of the family asked for refuses (10061); the connection to the other one is under way. -/
example : brief (connect (hosts [(5, 10061), (11, 10035)]) none none none none idle (init false 2)) =
    some (-1, 4, 23, [⟨4, true⟩], EAGAIN) := by decide +kernel

/-- Both refuse. -/
example : brief (connect (hosts [(5, 10061), (11, 10061)]) none none none none idle (init false 2)) =
    some (-1, -1, 23, [], 0) := by decide +kernel

/-- The name is not known, and an earlier call has left `EAGAIN`: nothing tells this from a connection that is under way. -/
example : brief (connect (hosts []) none none none none ⟨[], ⟨0, EAGAIN⟩, 100, []⟩ (init false 2)) =
    some (-1, -1, 2, [], EAGAIN) := by decide +kernel

end Verif.Sock.WinOpen
