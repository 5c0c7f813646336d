import Verif.Sock.Listen

/-! # Connecting and accepting -/

namespace Verif.Sock

open Ini (strncpy)
open Spec (Addr pathName preferred)

/-- The sockets that were made, or could not be -/
def socks (l : List Call) : List Call := l.filter fun c => match c with | .socket .. => true | _ => false

/-- What is done to a socket before it is connected -/
def Call.isSetup : Call → Bool
  | .getfl _ | .setfl _ _ | .opt _ _ | .bind _ _ _ => true
  | _ => false

theorem socks_append (a b : List Call) : socks (a ++ b) = socks a ++ socks b := by simp [socks]

theorem socks_setup {l : List Call} (h : ∀ c ∈ l, c.isSetup) : socks l = [] := by
  simp only [socks, List.filter_eq_nil_iff]
  intro c hc
  have := h c hc
  cases c <;> simp_all [Call.isSetup]

theorem last_setup {l k : List Call} (hk : k ≠ []) (h : ∀ c ∈ k, c.isSetup) :
    ∃ c, (l ++ k).getLast? = some c ∧ c.isSetup := by
  refine ⟨k.getLast hk, ?_, h _ (List.getLast_mem hk)⟩
  rw [List.getLast?_append, List.getLast?_eq_some_getLast hk]
  rfl

theorem connectSetup_steps {e : Env} {s : Sock} {os : Os} {fd : Int} {rest : List Fd} (h : Top os fd rest) :
    Steps e os fd rest (connectSetup e s fd os).1 (connectSetup e s fd os).2
      ([.getfl fd, .setfl fd (!s.blocking)] ++ [.opt fd .reuseaddr] ++ [.opt fd .nodelay]) ∧
    ((connectSetup e s fd os).1 = true → (connectSetup e s fd os).2.fds = ⟨fd, !s.blocking⟩ :: rest) := by
  unfold connectSetup
  obtain ⟨h0, h0'⟩ := setBlocking_steps (e := e) (blocking := s.blocking) h
  have h2 := h0.andThen (f := noted e (.opt fd .reuseaddr)) fun os' ht => noted_steps ht
  have h3 := h2.andThen (f := noted e (.opt fd .nodelay)) fun os' ht => noted_steps ht
  refine ⟨h3, fun hb => ?_⟩
  apply andThen_fds _ hb
  intro hb
  exact andThen_fds h0' hb

/-- How the source was bound: not at all if none is given, else to the first of its addresses that
can be bound. -/
def Source (e : Env) (src srcPort : Option (List UInt8)) (fd : Int) (binds : List Call) : Prop :=
  src = none ∧ srcPort = none ∧ binds = [] ∨
  (src ≠ none ∨ srcPort ≠ none) ∧ ∃ n tried q rest, e.gai src srcPort AF_UNSPEC n = .ok (tried ++ q :: rest) ∧
    binds = (tried ++ [q]).map fun a => .bind fd a.family a.addr

theorem bindFirst_ok {e : Env} {fd : Int} : ∀ (as : List Addr) (rc : Bool) (os : Os),
    ∃ b os' l, bindFirst e fd as rc os = (b, os') ∧ os'.fds = os.fds ∧ Errs e os os' ∧ os'.log = os.log ++ l ∧
      (∀ c ∈ l, c.isSetup) ∧
      (as ≠ [] → (b = true → ∃ tried q rest, as = tried ++ q :: rest ∧
          l = (tried ++ [q]).map fun a => .bind fd a.family a.addr) ∧
        (b = false → Recent os os' (e.strerror os'.errno))) := by
  intro as
  induction as with
  | nil => intro rc os; exact ⟨rc, os, [], rfl, rfl, .refl, by simp, by simp, by simp⟩
  | cons p ps ih =>
    intro rc os
    obtain ⟨⟨k1, k2, k3⟩, k4⟩ := noted_ok e (.bind fd p.family p.addr) os
    simp only [bindFirst]
    generalize noted e (.bind fd p.family p.addr) os = r at k1 k2 k3 k4 ⊢
    obtain ⟨b, os'⟩ := r
    cases b with
    | true =>
      refine ⟨_, _, [.bind fd p.family p.addr], rfl, k1, k2, k4, by simp [Call.isSetup], fun _ => ⟨fun _ => ?_, by simp⟩⟩
      exact ⟨[], p, ps, rfl, rfl⟩
    | false =>
      obtain ⟨b, os'', l, i1, i2, i3, i4, i5, i6⟩ := ih false os'
      refine ⟨b, os'', .bind fd p.family p.addr :: l, i1, i2.trans k1, k2.trans i3, ?_, ?_, fun _ => ?_⟩
      · rw [i4, k4]; simp
      · intro c hc
        rcases List.mem_cons.1 hc with rfl | hc
        · rfl
        · exact i5 c hc
      · cases ps with
        | nil =>
          simp only [bindFirst, Prod.mk.injEq] at i1
          obtain ⟨rfl, rfl⟩ := i1
          exact ⟨by simp, fun _ => k3 rfl⟩
        | cons q qs =>
          obtain ⟨j1, j2⟩ := i6 (by simp)
          refine ⟨fun hb => ?_, fun hb => (j2 hb).before k2.grown⟩
          obtain ⟨tried, x, rest, m1, m2⟩ := j1 hb
          exact ⟨p :: tried, x, rest, by rw [m1]; simp, by rw [m2]; simp⟩

theorem bindSrc_ok {e : Env} (he : Laws e) {src srcPort : Option (List UInt8)} {os : Os} {s : Sock}
    (hl : s.err.length = 128) (hg : src ≠ none ∨ srcPort ≠ none) :
    ∃ rc os' s' l, bindSrc e src srcPort os s = .ok (rc, os', s') ∧ os'.fds = os.fds ∧ os'.log = os.log ++ l ∧
      (∀ c ∈ l, c.isSetup) ∧
      (rc = 0 ∧ s' = s ∧ Source e src srcPort s.fd l ∧ Errs e os os' ∨
       rc = -1 ∧ (∃ err, s' = { s with err := err } ∧ err.length = 128 ∧ ∃ m, Recent os os' m ∧ Shows err m)) := by
  unfold bindSrc getaddrinfo
  cases h : e.gai src srcPort AF_UNSPEC os.n with
  | error rc =>
    simp only
    obtain ⟨err, k1, k2, k3⟩ := errstr_ok he (g := rc)
      (os := { os with n := os.n + 1, fails := os.fails ++ [e.gaiStr rc] }) hl
    rw [k1]
    refine ⟨_, _, _, [], rfl, rfl, by simp, by simp, .inr ⟨rfl, err, rfl, k2, e.gaiStr rc, ⟨_, rfl, by simp⟩, ?_⟩⟩
    rw [if_pos (he.gaiErr _ _ _ _ _ h)] at k3
    exact k3
  | ok as =>
    simp only
    have hne : as ≠ [] := by rintro rfl; exact he.gaiOk _ _ _ _ h
    obtain ⟨b, os', l, i1, i2, i3, i4, i5, i6⟩ := bindFirst_ok (e := e) (fd := s.fd) as true { os with n := os.n + 1 }
    rw [i1]
    obtain ⟨j1, j2⟩ := i6 hne
    cases b with
    | true =>
      refine ⟨_, _, _, l, rfl, i2, i4, i5, .inl ⟨rfl, rfl, .inr ⟨hg, ?_⟩, i3⟩⟩
      obtain ⟨tried, q, rest, rfl, m2⟩ := j1 rfl
      exact ⟨os.n, tried, q, rest, h, m2⟩
    | false =>
      simp only
      obtain ⟨err, k1, k2, k3⟩ := errstr_ok he (g := 0) (os := os') hl
      rw [k1]
      refine ⟨_, _, _, l, rfl, i2, i4, i5, .inr ⟨rfl, err, rfl, k2, _, j2 rfl, ?_⟩⟩
      simpa using k3

/-- A connection was asked for: the socket has the mode of the object, its source is bound as asked,
and the last thing that was done was to connect it to the address. -/
structure Asked (e : Env) (src srcPort : Option (List UInt8)) (rest : List Fd) (p : Addr) (os' : Os) (s' : Sock) : Prop where
  fds : os'.fds = ⟨s'.fd, !s'.blocking⟩ :: rest
  new : s'.fd ∉ rest.map Fd.num
  pos : 0 ≤ s'.fd
  family : s'.family = p.family
  log : ∃ before binds, Source e src srcPort s'.fd binds ∧
    os'.log = before ++ [forAddr p, .getfl s'.fd, .setfl s'.fd (!s'.blocking), .opt s'.fd .reuseaddr, .opt s'.fd .nodelay] ++
      binds ++ [.connect s'.fd p.family p.addr]

/-- What an address leads to. -/
structure One (e : Env) (src srcPort : Option (List UInt8)) (os₀ : Os) (s : Sock) (p : Addr) (nx : Next) (os' : Os) (s' : Sock) :
    Prop where
  len : s'.err.length = 128
  blocking : s'.blocking = s.blocking
  op : s'.op = s.op
  grown : Grown os₀ os'
  next : nx = .next → os'.fds = os₀.fds ∧ s'.fd = -1 ∧ Recent os₀ os' (e.strerror os'.errno)
  error : nx = .error → Top os' s'.fd os₀.fds ∧ Recent os₀ os' (e.strerror os'.errno) ∧
    ∃ c, os'.log.getLast? = some c ∧ c.isSetup
  bindError : nx = .bindError → Top os' s'.fd os₀.fds ∧ (∃ m, Recent os₀ os' m ∧ Shows s'.err m) ∧
    ∃ c, os'.log.getLast? = some c ∧ c.isSetup
  done : nx = .done → Asked e src srcPort os₀.fds p os' s'
  pending : nx = .pending → Asked e src srcPort os₀.fds p os' s' ∧ os'.errno = EAGAIN ∧ s.blocking = false

theorem connectTo_ok {e : Env} {src srcPort : Option (List UInt8)} {os₀ os : Os} {s₀ s : Sock} {p : Addr}
    (hf : os.fds = ⟨s.fd, !s.blocking⟩ :: os₀.fds) (hnew : s.fd ∉ os₀.nums) (hpos : 0 ≤ s.fd)
    (hfam : s.family = p.family) (hl : s.err.length = 128) (hb : s.blocking = s₀.blocking) (ho : s.op = s₀.op)
    (hg : Grown os₀ os) {before binds : List Call} (hsrc : Source e src srcPort s.fd binds)
    (hlog : os.log = before ++ [forAddr p, .getfl s.fd, .setfl s.fd (!s.blocking), .opt s.fd .reuseaddr, .opt s.fd .nodelay] ++
      binds) :
    ∃ nx os' s', connectTo e s.fd p os s = .ok (nx, os', s') ∧ One e src srcPort os₀ s₀ p nx os' s' ∧
      os'.log = os.log ++ [.connect s.fd p.family p.addr] := by
  obtain ⟨⟨k1, k2, k3⟩, k4⟩ := noted_ok e (.connect s.fd p.family p.addr) os
  unfold connectTo
  generalize noted e (.connect s.fd p.family p.addr) os = r at k1 k2 k3 k4 ⊢
  obtain ⟨b, os'⟩ := r
  simp only at k1 k2 k3 k4
  have hask : Asked e src srcPort os₀.fds p os' s :=
    ⟨k1.trans hf, hnew, hpos, hfam, before, binds, hsrc, by rw [k4, hlog]⟩
  cases b with
  | true =>
    exact ⟨_, _, _, rfl, ⟨hl, hb, ho, hg.trans k2.grown, by simp, by simp, by simp, fun _ => hask, by simp⟩, k4⟩
  | false =>
    simp only
    by_cases hc : s.blocking = false ∧ (os'.errno = EINPROGRESS ∨ os'.errno = EAGAIN)
    · rw [if_pos hc]
      refine ⟨_, _, _, rfl, ⟨hl, hb, ho, hg.trans k2.grown, by simp, by simp, by simp, by simp, fun _ => ⟨?_, rfl, ?_⟩⟩, k4⟩
      · exact ⟨hask.fds, hask.new, hask.pos, hask.family, hask.log⟩
      · rw [← hb]; exact hc.1
    · rw [if_neg hc]
      obtain ⟨rc, os'', c1, c2, c3, c4, -⟩ := sockClose_ok (e := e) (os := os') (s := s) (rest := os₀.fds)
        ⟨⟨_, k1.trans hf⟩, hnew, hpos⟩
      rw [c1]
      simp only [Res.ok_bind]
      refine ⟨_, _, _, rfl, ⟨hl, hb, ho, (hg.trans k2.grown).trans c3.grown, fun _ => ⟨c2, rfl, ?_⟩, by simp, by simp, by simp, by simp⟩,
        c4.trans k4⟩
      exact ((k3 rfl).before hg).errs c3

theorem connectOne_ok {e : Env} (he : Laws e) {src srcPort : Option (List UInt8)} {os₀ os : Os} {s : Sock} {p : Addr}
    (hf : os.fds = os₀.fds) (hs : s.fd = -1) (hl : s.err.length = 128) (hg : Grown os₀ os) :
    ∃ nx os' s', connectOne e src srcPort p os s = .ok (nx, os', s') ∧ One e src srcPort os₀ s p nx os' s' ∧
      socks os'.log = socks os.log ++ [forAddr p] := by
  obtain ⟨r, os₁, h1, h2, h3, h4, h5⟩ := socket_ok he p.family p.type p.proto os
  have hsock : socks (os.log ++ [Call.socket p.family p.type p.proto]) = socks os.log ++ [forAddr p] := by
    simp [socks, forAddr]
  unfold connectOne
  rw [h1]
  cases r with
  | none =>
    obtain ⟨h6, h7⟩ := h4 rfl
    exact ⟨_, _, _, rfl, ⟨hl, rfl, rfl, hg.trans h3.grown, fun _ => ⟨h6.trans hf, hs, h7.before hg⟩, by simp, by simp, by simp, by simp⟩,
      by rw [h2, hsock]⟩
  | some fd =>
    simp only
    obtain ⟨h6, -⟩ := h5 fd rfl
    have ht : Top os₁ fd os₀.fds := by rw [← hf]; exact h6.top
    obtain ⟨k1, k2⟩ := connectSetup_steps (e := e) (s := { s with family := p.family, fd := fd }) ht
    generalize connectSetup e { s with family := p.family, fd := fd } fd os₁ = r at k1 k2 ⊢
    obtain ⟨b, os₂⟩ := r
    have hset : ∀ c ∈ ([.getfl fd, .setfl fd (!s.blocking)] ++ [.opt fd .reuseaddr] ++ [.opt fd .nodelay] : List Call), c.isSetup := by
      intro c hc
      simp at hc
      rcases hc with rfl | rfl | rfl | rfl <;> rfl
    have hg2 := (hg.trans h3.grown).trans k1.errs.grown
    cases b with
    | false =>
      obtain ⟨l, m1, m2, m3⟩ := k1.part rfl
      have hsl : ∀ c ∈ l, c.isSetup := fun c hc => hset c (m2.subset hc)
      refine ⟨_, _, _, rfl, ⟨hl, rfl, rfl, hg2, by simp, fun _ => ⟨k1.top, (k1.bad rfl).before (hg.trans h3.grown), ?_⟩, by simp, by simp, by simp⟩, ?_⟩
      · simp only at m3
        rw [m3]
        exact last_setup m1 hsl
      · simp only at m3
        rw [m3, socks_append, socks_setup hsl, h2, hsock, List.append_nil]
    | true =>
      simp only
      have m3 := k1.log rfl
      have m4 := k2 rfl
      simp only at m3 m4
      have hlog : os₂.log = os.log ++ [forAddr p, .getfl fd, .setfl fd (!s.blocking), .opt fd .reuseaddr, .opt fd .nodelay] := by
        rw [m3, h2]; simp [forAddr]
      have hsk : socks os₂.log = socks os.log ++ [forAddr p] := by
        rw [m3, socks_append, socks_setup hset, h2, hsock, List.append_nil]
      by_cases hsrc : src ≠ none ∨ srcPort ≠ none
      · rw [if_pos hsrc]
        obtain ⟨rc, os₃, s₃, l, b1, b2, b3, b4, b5⟩ := bindSrc_ok he (os := os₂)
          (s := { s with family := p.family, fd := fd }) hl hsrc
        rw [b1]
        simp only [Res.ok_bind]
        rcases b5 with ⟨rfl, rfl, b5, b6⟩ | ⟨rfl, err, rfl, b5, m, b6, b7⟩
        · rw [if_neg (by simp)]
          obtain ⟨nx, os', s', c1, c2, c3⟩ := connectTo_ok (e := e) (src := src) (srcPort := srcPort) (os₀ := os₀) (os := os₃) (s₀ := s)
            (s := { s with family := p.family, fd := fd }) (p := p) (before := os.log) (binds := l)
            (b2.trans m4) ht.new ht.pos rfl hl rfl rfl (hg2.trans b6.grown) b5 (by rw [b3, hlog])
          refine ⟨nx, os', s', c1, c2, ?_⟩
          rw [c3, b3, socks_append, socks_append, socks_setup b4, hsk]
          simp [socks]
        · rw [if_pos (by simp)]
          refine ⟨_, _, _, rfl, ⟨b5, rfl, rfl, hg2.trans b6.grown, by simp, by simp, fun _ => ⟨k1.top.of_fds b2, ⟨m, b6.before hg2, b7⟩, ?_⟩, by simp, by simp⟩, ?_⟩
          · rw [b3, hlog, List.append_assoc]
            have : os.log ++ (forAddr p :: ([.getfl fd, .setfl fd (!s.blocking)] ++ [.opt fd .reuseaddr] ++ [.opt fd .nodelay]) ++ l) =
              (os.log ++ [forAddr p]) ++ (([.getfl fd, .setfl fd (!s.blocking)] ++ [.opt fd .reuseaddr] ++ [.opt fd .nodelay]) ++ l) := by simp
            simp only [List.cons_append, List.nil_append] at this ⊢
            rw [this]
            apply last_setup (by simp)
            intro c hc
            simp only [List.mem_cons] at hc
            rcases hc with rfl | rfl | rfl | rfl | hc
            · rfl
            · rfl
            · rfl
            · rfl
            · exact b4 c hc
          · rw [b3, socks_append, socks_setup b4, hsk, List.append_nil]
      · rw [if_neg hsrc]
        have hsn : src = none ∧ srcPort = none := by
          simp only [not_or, ne_eq, Decidable.not_not] at hsrc
          exact hsrc
        obtain ⟨nx, os', s', c1, c2, c3⟩ := connectTo_ok (e := e) (src := src) (srcPort := srcPort) (os₀ := os₀) (os := os₂) (s₀ := s)
          (s := { s with family := p.family, fd := fd }) (p := p) (before := os.log) (binds := [])
          m4 ht.new ht.pos rfl hl rfl rfl hg2 (.inl ⟨hsn.1, hsn.2, rfl⟩) (by rw [hlog, List.append_nil])
        refine ⟨nx, os', s', c1, c2, ?_⟩
        rw [c3, socks_append, hsk]
        simp [socks]

/-! ## The order of the addresses -/

/-- One loop over a list of addresses -/
def connectAll (e : Env) (src srcPort : Option (List UInt8)) : List Addr → Os → Sock → Res (Next × Os × Sock)
  | [], os, s => .ok (.next, os, s)
  | p :: ps, os, s => do
    let r ← connectOne e src srcPort p os s
    if r.1 = .next then connectAll e src srcPort ps r.2.1 r.2.2 else .ok r

theorem connectPass_eq {e : Env} {src srcPort : Option (List UInt8)} {family : Int} {i : Nat} :
    ∀ (as : List Addr) (os : Os) (s : Sock), connectPass e src srcPort family i as os s =
      connectAll e src srcPort (as.filter fun a => !(xor (i == 0) (a.family == family))) os s := by
  intro as
  induction as with
  | nil => intro os s; rfl
  | cons p ps ih =>
    intro os s
    simp only [connectPass]
    by_cases h : (xor (i == 0) (p.family == family)) = true
    · rw [if_pos h, List.filter_cons_of_neg (by simp [h]), ih]
    · rw [if_neg h, List.filter_cons_of_pos (by simpa using h)]
      simp only [connectAll]
      congr 1
      funext r
      rw [ih]

theorem connectAll_append {e : Env} {src srcPort : Option (List UInt8)} (bs : List Addr) :
    ∀ (as : List Addr) (os : Os) (s : Sock), connectAll e src srcPort (as ++ bs) os s =
      (connectAll e src srcPort as os s >>= fun r =>
        if r.1 = .next then connectAll e src srcPort bs r.2.1 r.2.2 else .ok r) := by
  intro as
  induction as with
  | nil => intro os s; simp [connectAll]
  | cons p ps ih =>
    intro os s
    simp only [List.cons_append, connectAll]
    cases h : connectOne e src srcPort p os s with
    | ub => rfl
    | ok r =>
      simp only [Res.ok_bind]
      by_cases hn : r.1 = .next
      · rw [if_pos hn, if_pos hn, ih]
      · rw [if_neg hn, if_neg hn]
        simp [hn]

/-- The two rounds are one loop over the addresses in the order of preference. -/
theorem rounds_eq {e : Env} {src srcPort : Option (List UInt8)} {family : Int} {as : List Addr} {os : Os} {s : Sock} :
    (connectPass e src srcPort family 0 as os s >>= fun r =>
      if r.1 = .next then connectPass e src srcPort family 1 as r.2.1 r.2.2 else .ok r) =
    connectAll e src srcPort (preferred family as) os s := by
  unfold preferred
  rw [connectAll_append, connectPass_eq]
  have h0 : (as.filter fun a => !(xor ((0 : Nat) == 0) (a.family == family))) = as.filter fun a => a.family = family := by
    apply List.filter_congr; intro a _; by_cases h : a.family = family <;> simp [h]
  have h1 : (as.filter fun a => !(xor ((1 : Nat) == 0) (a.family == family))) = as.filter fun a => a.family ≠ family := by
    apply List.filter_congr; intro a _; by_cases h : a.family = family <;> simp [h]
  rw [h0]
  congr 1
  funext r
  rw [connectPass_eq, h1]

/-- What a list of addresses leads to; `tried` are those that were tried. -/
structure All (e : Env) (src srcPort : Option (List UInt8)) (os₀ : Os) (s : Sock) (l tried : List Addr) (nx : Next) (os' : Os) (s' : Sock) :
    Prop where
  len : s'.err.length = 128
  blocking : s'.blocking = s.blocking
  op : s'.op = s.op
  pre : tried <+: l
  next : nx = .next → tried = l ∧ os'.fds = os₀.fds ∧ s'.fd = -1 ∧ Recent os₀ os' (e.strerror os'.errno)
  error : nx = .error → Top os' s'.fd os₀.fds ∧ Recent os₀ os' (e.strerror os'.errno) ∧
    ∃ c, os'.log.getLast? = some c ∧ c.isSetup
  bindError : nx = .bindError → Top os' s'.fd os₀.fds ∧ (∃ m, Recent os₀ os' m ∧ Shows s'.err m) ∧
    ∃ c, os'.log.getLast? = some c ∧ c.isSetup
  done : nx = .done → ∃ failed p, tried = failed ++ [p] ∧ Asked e src srcPort os₀.fds p os' s'
  pending : nx = .pending → ∃ failed p, tried = failed ++ [p] ∧
    Asked e src srcPort os₀.fds p os' s' ∧ os'.errno = EAGAIN ∧ s.blocking = false

theorem connectAll_ok {e : Env} (he : Laws e) {src srcPort : Option (List UInt8)} {os₀ : Os} :
    ∀ (l : List Addr) (os : Os) (s : Sock), os.fds = os₀.fds → s.fd = -1 → s.err.length = 128 → Grown os₀ os →
      (l = [] → Recent os₀ os (e.strerror os.errno)) →
      ∃ nx os' s' tried, connectAll e src srcPort l os s = .ok (nx, os', s') ∧ All e src srcPort os₀ s l tried nx os' s' ∧
        socks os'.log = socks os.log ++ tried.map forAddr := by
  intro l
  induction l with
  | nil =>
    intro os s hf hs hl hg hr
    exact ⟨_, _, _, [], rfl, ⟨hl, rfl, rfl, List.prefix_refl _, fun _ => ⟨rfl, hf, hs, hr rfl⟩, by simp, by simp, by simp, by simp⟩, by simp⟩
  | cons p ps ih =>
    intro os s hf hs hl hg hr
    obtain ⟨nx, os₁, s₁, h1, h2, h3⟩ := connectOne_ok he (src := src) (srcPort := srcPort) (p := p) hf hs hl hg
    simp only [connectAll, h1, Res.ok_bind]
    by_cases hn : nx = .next
    · rw [if_pos hn]
      obtain ⟨k1, k2, k3⟩ := h2.next hn
      obtain ⟨nx', os₂, s₂, tried, i1, i2, i3⟩ := ih os₁ s₁ k1 k2 h2.len h2.grown (fun _ => k3)
      refine ⟨nx', os₂, s₂, p :: tried, i1, ⟨i2.len, i2.blocking.trans h2.blocking, i2.op.trans h2.op, ?_, ?_, i2.error, i2.bindError, ?_, ?_⟩, ?_⟩
      · simpa using i2.pre
      · intro hx
        obtain ⟨j1, j2⟩ := i2.next hx
        exact ⟨by rw [j1], j2⟩
      · intro hx
        obtain ⟨failed, q, j1, j2⟩ := i2.done hx
        exact ⟨p :: failed, q, by rw [j1]; rfl, j2⟩
      · intro hx
        obtain ⟨failed, q, j1, j2, j3, j4⟩ := i2.pending hx
        exact ⟨p :: failed, q, by rw [j1]; rfl, j2, j3, by rw [← h2.blocking]; exact j4⟩
      · rw [i3, h3]; simp
    · rw [if_neg hn]
      refine ⟨nx, os₁, s₁, [p], rfl, ⟨h2.len, h2.blocking, h2.op, ?_, fun hx => absurd hx hn, h2.error, h2.bindError, ?_, ?_⟩, ?_⟩
      · simp
      · intro hx; exact ⟨[], p, rfl, h2.done hx⟩
      · intro hx; exact ⟨[], p, rfl, h2.pending hx⟩
      · rw [h3]; simp

/-- **C75** and **C93** for connecting to an internet address, whatever the system calls do. The
addresses are tried in the order of preference and each once. On success, or if a non-blocking
connection is under way, there is one descriptor more, that of the object, which has the mode of the
object and was bound to the source; on failure the descriptors are the old ones, the text is that of
an error that occurred, and all addresses have been tried, unless a socket could not be set up. -/
theorem connect_inet {e : Env} (he : Laws e) {dst dstPort src srcPort : Option (List UInt8)} {os : Os} {s : Sock}
    (hs : s.fd = -1) (hl : s.err.length = 128) (hu : s.family ≠ AF_UNIX) :
    ∃ rc os' s', connect e dst dstPort src srcPort os s = .ok (rc, os', s') ∧
      ((∃ g, e.gai dst dstPort AF_UNSPEC os.n = .error g ∧ rc = -1 ∧ Failed os s os' s' ∧ os'.log = os.log) ∨
       ∃ as tried, e.gai dst dstPort AF_UNSPEC os.n = .ok as ∧ tried <+: preferred s.family as ∧
        socks os'.log = socks os.log ++ tried.map forAddr ∧
        ((rc = 0 ∨ rc = -1 ∧ s.blocking = false ∧ os'.errno = EAGAIN) ∧ Got os s os' s' ∧
            (∃ failed p, tried = failed ++ [p] ∧ Asked e src srcPort os.fds p os' s') ∨
         rc = -1 ∧ Failed os s os' s' ∧
            (tried = preferred s.family as ∨ ∃ c, os'.log.getLast? = some c ∧ c.isSetup))) := by
  unfold connect
  simp only
  rw [if_neg hu]
  unfold getaddrinfo
  cases hg : e.gai dst dstPort AF_UNSPEC os.n with
  | error rc =>
    simp only
    obtain ⟨err, k1, k2, k3⟩ := errstr_ok he (g := rc)
      (os := { os with n := os.n + 1, fails := os.fails ++ [e.gaiStr rc] }) hl
    rw [k1]
    refine ⟨_, _, _, rfl, .inl ⟨rc, rfl, rfl, ⟨rfl, hs, k2, ⟨e.gaiStr rc, ⟨_, rfl, by simp⟩, ?_⟩, rfl, rfl⟩, rfl⟩⟩
    rw [if_pos (he.gaiErr _ _ _ _ _ hg)] at k3
    exact k3
  | ok as =>
    simp only
    have hne : as ≠ [] := by rintro rfl; exact he.gaiOk _ _ _ _ hg
    have hpne : preferred s.family as ≠ [] := by
      obtain ⟨a, ha⟩ := List.exists_mem_of_ne_nil _ hne
      apply List.ne_nil_of_mem (a := a)
      by_cases h : a.family = s.family <;> simp [preferred, ha, h]
    have hr : (connectPass e src srcPort s.family 0 as { os with n := os.n + 1 } s >>= fun r =>
        (if r.1 = .next then connectPass e src srcPort s.family 1 as r.2.1 r.2.2 else .ok r) >>= connectEnd e) =
      (connectAll e src srcPort (preferred s.family as) { os with n := os.n + 1 } s >>= connectEnd e) := by
      rw [← rounds_eq, bind_assoc]
    rw [hr]
    obtain ⟨nx, os', s', tried, i1, i2, i3⟩ := connectAll_ok he (src := src) (srcPort := srcPort) (os₀ := os)
      (preferred s.family as) { os with n := os.n + 1 } s rfl hs hl ⟨[], by simp⟩ (fun h => absurd h hpne)
    rw [i1]
    simp only [Res.ok_bind]
    have hgot : ∀ p, Asked e src srcPort os.fds p os' s' → Got os s os' s' := fun p h =>
      ⟨⟨_, h.fds⟩, h.new, h.pos, i2.len, i2.blocking, i2.op⟩
    cases nx with
    | done =>
      obtain ⟨failed, p, j1, j2⟩ := i2.done rfl
      exact ⟨_, _, _, rfl, .inr ⟨as, tried, rfl, i2.pre, i3, .inl ⟨.inl rfl, hgot p j2, failed, p, j1, j2⟩⟩⟩
    | pending =>
      obtain ⟨failed, p, j1, j2, j3, j4⟩ := i2.pending rfl
      exact ⟨_, _, _, rfl, .inr ⟨as, tried, rfl, i2.pre, i3, .inl ⟨.inr ⟨rfl, j4, j3⟩, hgot p j2, failed, p, j1, j2⟩⟩⟩
    | next =>
      obtain ⟨j1, j2, j3, j4⟩ := i2.next rfl
      obtain ⟨os₃, s₃, g1, g2, g3, -⟩ := giveUp_ok he (os₀ := os) (s₀ := s) (os := os') (s := s') i2.len
        (.inr ⟨j2, j3⟩) j4 i2.blocking i2.op
      exact ⟨_, _, _, g1, .inr ⟨as, tried, rfl, i2.pre, by rw [g3]; exact i3, .inr ⟨rfl, g2, .inl j1⟩⟩⟩
    | error =>
      obtain ⟨j1, j2, c, j3, j4⟩ := i2.error rfl
      obtain ⟨os₃, s₃, g1, g2, g3, -⟩ := giveUp_ok he (os₀ := os) (s₀ := s) (os := os') (s := s') i2.len
        (.inl j1) j2 i2.blocking i2.op
      exact ⟨_, _, _, g1, .inr ⟨as, tried, rfl, i2.pre, by rw [g3]; exact i3, .inr ⟨rfl, g2, .inr ⟨c, by rw [g3]; exact j3, j4⟩⟩⟩⟩
    | bindError =>
      obtain ⟨j1, ⟨m, j2, j5⟩, c, j3, j4⟩ := i2.bindError rfl
      obtain ⟨rc, os'', c1, c2, c3, c4, -⟩ := sockClose_ok (e := e) (os := os') (s := s') (rest := os.fds) j1
      simp only [connectEnd, c1, Res.ok_bind]
      refine ⟨_, _, _, rfl, .inr ⟨as, tried, rfl, i2.pre, by rw [c4]; exact i3, .inr ⟨rfl, ?_, .inr ⟨c, by rw [c4]; exact j3, j4⟩⟩⟩⟩
      exact ⟨c2, rfl, i2.len, ⟨m, j2.after c3.grown, j5⟩, i2.blocking, i2.op⟩

/-- **C75** for connecting to a path: a path that is too long is refused. -/
theorem connect_unix {e : Env} (he : Laws e) {dst str : List UInt8} {dstPort src srcPort : Option (List UInt8)} {os : Os} {s : Sock}
    (hs : s.fd = -1) (hl : s.err.length = 128) (hu : s.family = AF_UNIX) (hd : CStr dst 0 str) :
    ∃ rc os' s', connect e (some dst) dstPort src srcPort os s = .ok (rc, os', s') ∧ s'.family = s.family ∧
      (rc = 0 ∧ str.length < 108 ∧ Got os s os' s' ∧ os'.fds = ⟨s'.fd, false⟩ :: os.fds ∧
         (∃ path, path.length = 108 ∧ pathName path = str ∧
          os'.log = os.log ++ [.socket AF_UNIX SOCK_STREAM 0, .connect s'.fd AF_UNIX path]) ∨
       rc = -1 ∧ Failed os s os' s') := by
  unfold connect
  simp only
  rw [if_pos hu]
  unfold connectUnix
  rw [strlen_eq hd]
  simp only [Res.ok_bind]
  obtain ⟨r, os₁, h1, h2, h3, h4, h5⟩ := socket_ok he AF_UNIX SOCK_STREAM 0 os
  rw [h1]
  cases r with
  | none =>
    obtain ⟨h6, h7⟩ := h4 rfl
    obtain ⟨os'', s'', g1, g2, -, g4⟩ := giveUp_ok he (os₀ := os) (s₀ := s) (s := s) hl (.inr ⟨h6, hs⟩) h7 rfl rfl
    exact ⟨_, _, _, g1, g4, .inr ⟨rfl, g2⟩⟩
  | some fd =>
    obtain ⟨h6, h8⟩ := h5 fd rfl
    simp only
    by_cases hlen : str.length ≥ 108
    · rw [if_pos hlen]
      obtain ⟨os'', s'', g1, g2, -, g4⟩ := giveUp_ok he (os₀ := os) (s₀ := s) (os := os₁.failed e EINVAL) (s := { s with fd := fd }) hl
        (.inl (h6.top.of_fds rfl)) (Recent.before h3.grown ⟨[e.strerror EINVAL], rfl, by simp [Os.failed]⟩) rfl rfl
      exact ⟨_, _, _, g1, g4, .inr ⟨rfl, g2⟩⟩
    · rw [if_neg hlen, cstr_eq hd]
      simp only [Res.ok_bind]
      have hpl : sunPath.length = 108 := by simp [sunPath]
      have hf : 0 + (str ++ [0]).length ≤ sunPath.length := by simp [hpl]; omega
      generalize hpath : splice sunPath 0 (str ++ [0]) = path
      have hcs : CStr path 0 str := by
        subst hpath
        refine ⟨?_, hd.nonzero, ?_⟩
        · intro i hi
          rw [splice_getElem? hf]
          grind
        · rw [splice_getElem? hf]
          grind
      obtain ⟨⟨k1, k2, k3⟩, k4⟩ := noted_ok e (.connect fd AF_UNIX path) os₁
      generalize noted e (.connect fd AF_UNIX path) os₁ = r at k1 k2 k3 k4 ⊢
      obtain ⟨b, os₂⟩ := r
      simp only at k1 k2 k3 k4
      cases b with
      | true =>
        refine ⟨_, _, _, rfl, rfl, .inl ⟨rfl, by omega, ⟨⟨_, k1.trans h8⟩, h6.new, h6.pos, hl, rfl, rfl⟩, k1.trans h8, path, ?_, takeWhile_cstr hcs, ?_⟩⟩
        · rw [← hpath, length_splice hf, hpl]
        · simp only
          rw [k4, h2]
          simp
      | false =>
        obtain ⟨os'', s'', g1, g2, -, g4⟩ := giveUp_ok he (os₀ := os) (s₀ := s) (os := os₂) (s := { s with fd := fd }) hl
          (.inl (h6.top.of_fds k1)) ((k3 rfl).before h3.grown) rfl rfl
        exact ⟨_, _, _, g1, g4, .inr ⟨rfl, g2⟩⟩

/-- **C75** for accepting: on success there is one descriptor more, which has the mode of the
listening socket and no delays; on failure the descriptors are the old ones. -/
theorem accept_spec {e : Env} (he : Laws e) {os : Os} {s inn : Sock} (hi : inn.fd = -1) (hl : s.err.length = 128) :
    ∃ rc os' s' inn', accept e os s inn = .ok (rc, os', s', inn') ∧
      s'.fd = s.fd ∧ s'.blocking = s.blocking ∧ s'.family = s.family ∧ s'.op = s.op ∧ s'.err.length = 128 ∧
      inn'.err = inn.err ∧ inn'.blocking = inn.blocking ∧
      (rc = 0 ∧ s' = s ∧ os'.fds = ⟨inn'.fd, !s.blocking⟩ :: os.fds ∧ inn'.fd ∉ os.nums ∧ 0 ≤ inn'.fd ∧ inn'.op = 0 ∧
         inn'.family = s.family ∧
         os'.log = os.log ++ [.accept s.fd] ++ (if s.family ≠ AF_UNIX then [.opt inn'.fd .nodelay] else []) ++
          [.getfl inn'.fd, .setfl inn'.fd (!s.blocking)] ∨
       rc = -1 ∧ os'.fds = os.fds ∧ inn'.fd = -1 ∧
         (s.blocking = false ∧ os'.errno = EAGAIN ∧ s' = s ∨ ∃ m, Recent os os' m ∧ Shows s'.err m)) := by
  unfold accept
  obtain ⟨r, os₁, h1, h2, h3, h4, h5⟩ := kaccept_ok he s.fd os
  rw [h1]
  cases r with
  | none =>
    obtain ⟨h6, h7⟩ := h4 rfl
    simp only
    by_cases hc : s.blocking = false ∧ os₁.errno = EAGAIN
    · rw [if_pos hc]
      exact ⟨_, _, _, _, rfl, rfl, rfl, rfl, rfl, hl, rfl, rfl, .inr ⟨rfl, h6, hi, .inl ⟨hc.1, rfl, rfl⟩⟩⟩
    · rw [if_neg hc]
      obtain ⟨err, k1, k2, k3⟩ := errstr_ok he (g := 0) (os := os₁) hl
      rw [k1]
      exact ⟨_, _, _, _, rfl, rfl, rfl, rfl, rfl, k2, rfl, rfl, .inr ⟨rfl, h6, hi, .inr ⟨_, h7, by simpa using k3⟩⟩⟩
  | some fd =>
    have h6 := h5 fd rfl
    simp only
    have h0 : Steps e os₁ fd os.fds (if s.family ≠ AF_UNIX then noted e (.opt fd .nodelay) os₁ else (true, os₁)).1
        (if s.family ≠ AF_UNIX then noted e (.opt fd .nodelay) os₁ else (true, os₁)).2
        (if s.family ≠ AF_UNIX then [.opt fd .nodelay] else []) := by
      by_cases h : s.family ≠ AF_UNIX
      · rw [if_pos h, if_pos h]; exact noted_steps h6.top
      · rw [if_neg h, if_neg h]; exact .refl h6.top
    generalize hR : (if s.family ≠ AF_UNIX then noted e (.opt fd .nodelay) os₁ else (true, os₁)) = r0 at h0 ⊢
    have h7 := h0.andThen (f := setBlocking e fd s.blocking) fun os' ht => (setBlocking_steps ht).1
    have h8 : (andThen r0 (setBlocking e fd s.blocking)).1 = true →
        (andThen r0 (setBlocking e fd s.blocking)).2.fds = ⟨fd, !s.blocking⟩ :: os.fds := by
      obtain ⟨b, os'⟩ := r0
      cases b with
      | false => intro hb; simp [andThen] at hb
      | true => exact (setBlocking_steps h0.top).2
    generalize andThen r0 (setBlocking e fd s.blocking) = r1 at h7 h8 ⊢
    obtain ⟨b, os₂⟩ := r1
    cases b with
    | true =>
      refine ⟨_, _, _, _, rfl, rfl, rfl, rfl, rfl, hl, rfl, rfl, .inl ⟨rfl, rfl, h8 rfl, h6.new, h6.pos, rfl, rfl, ?_⟩⟩
      have := h7.log rfl
      simp only at this
      rw [this, h2]
      simp
    | false =>
      simp only
      obtain ⟨err, k1, k2, k3⟩ := errstr_ok he (g := 0) (os := os₂) hl
      rw [k1]
      simp only [Res.ok_bind]
      obtain ⟨rc, os₃, c1, c2, c3, c4, -⟩ := sockClose_ok (e := e) (os := os₂) (s := { inn with fd := fd, op := 0, family := s.family })
        (rest := os.fds) h7.top
      rw [c1]
      refine ⟨_, _, _, _, rfl, rfl, rfl, rfl, rfl, k2, rfl, rfl, .inr ⟨rfl, c2, rfl, .inr ⟨_, ((h7.bad rfl).before h3.grown).after c3.grown, ?_⟩⟩⟩
      simpa using k3

end Verif.Sock
