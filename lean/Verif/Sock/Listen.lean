import Verif.Sock.Lemmas

/-! # Listening -/

namespace Verif.Sock

open Ini (strncpy)
open Thread (strncpy_short strncpy_long)
open Spec (Addr pathName)

/-- A successful call: one new descriptor, which the object has and no other. -/
structure Got (os : Os) (s : Sock) (os' : Os) (s' : Sock) : Prop where
  fds : ∃ nb, os'.fds = ⟨s'.fd, nb⟩ :: os.fds
  new : s'.fd ∉ os.nums
  pos : 0 ≤ s'.fd
  len : s'.err.length = 128
  blocking : s'.blocking = s.blocking
  op : s'.op = s.op

/-- The call that makes a socket for an address -/
def forAddr (p : Addr) : Call := .socket p.family p.type p.proto

theorem bindSetup_steps {e : Env} {s : Sock} {p : Addr} {os : Os} {fd : Int} {rest : List Fd} (h : Top os fd rest) :
    Steps e os fd rest (bindSetup e s fd p os).1 (bindSetup e s fd p os).2
      ((if s.family = AF_INET6 then [.opt fd .v6only] else []) ++ [.getfl fd, .setfl fd (!s.blocking)] ++
        [.opt fd .reuseaddr] ++ [.opt fd .nodelay] ++ [.bind fd p.family p.addr]) ∧
    ((bindSetup e s fd p os).1 = true → (bindSetup e s fd p os).2.fds = ⟨fd, !s.blocking⟩ :: rest) := by
  unfold bindSetup
  have h0 : Steps e os fd rest (if s.family = AF_INET6 then noted e (.opt fd .v6only) os else (true, os)).1
      (if s.family = AF_INET6 then noted e (.opt fd .v6only) os else (true, os)).2
      (if s.family = AF_INET6 then [.opt fd .v6only] else []) := by
    by_cases h6 : s.family = AF_INET6
    · rw [if_pos h6, if_pos h6]; exact noted_steps h
    · rw [if_neg h6, if_neg h6]; exact .refl h
  have h1 := h0.andThen (f := setBlocking e fd s.blocking) fun os' ht => (setBlocking_steps ht).1
  have h2 := h1.andThen (f := noted e (.opt fd .reuseaddr)) fun os' ht => noted_steps ht
  have h3 := h2.andThen (f := noted e (.opt fd .nodelay)) fun os' ht => noted_steps ht
  have h4 := h3.andThen (f := noted e (.bind fd p.family p.addr)) fun os' ht => noted_steps ht
  refine ⟨h4, fun hb => ?_⟩
  apply andThen_fds _ hb
  intro hb
  apply andThen_fds _ hb
  intro hb
  apply andThen_fds _ hb
  generalize (if s.family = AF_INET6 then noted e (.opt fd .v6only) os else (true, os)) = r at h0
  obtain ⟨b, os'⟩ := r
  cases b with
  | false => intro hb; simp [andThen] at hb
  | true => exact (setBlocking_steps h0.top).2

/-- Addresses for which no socket can be made are passed over; the first for which one can is taken,
and an error with it is final. -/
theorem bindLoop_ok {e : Env} (he : Laws e) {os₀ : Os} {s : Sock} (hs : s.fd = -1) :
    ∀ (as : List Addr) (os : Os), os.fds = os₀.fds → Grown os₀ os →
      (as = [] → Recent os₀ os (e.strerror os.errno)) →
      ∃ b os' fd, bindLoop e as os s = (b, os', { s with fd := fd }) ∧ Grown os₀ os' ∧
        (b = true → Top os' fd os₀.fds ∧ os'.fds = ⟨fd, !s.blocking⟩ :: os₀.fds ∧
          ∃ skipped p rest, as = skipped ++ p :: rest ∧
            os'.log = os.log ++ skipped.map forAddr ++ [forAddr p] ++
              ((if s.family = AF_INET6 then [.opt fd .v6only] else []) ++ [.getfl fd, .setfl fd (!s.blocking)] ++
                [.opt fd .reuseaddr] ++ [.opt fd .nodelay] ++ [.bind fd p.family p.addr])) ∧
        (b = false → (Top os' fd os₀.fds ∨ os'.fds = os₀.fds ∧ fd = -1) ∧ Recent os₀ os' (e.strerror os'.errno)) := by
  intro as
  induction as with
  | nil =>
    intro os hf hg hr
    exact ⟨false, os, -1, by simp [bindLoop, ← hs], hg, by simp, fun _ => ⟨.inr ⟨hf, rfl⟩, hr rfl⟩⟩
  | cons p ps ih =>
    intro os hf hg hr
    obtain ⟨r, os', h1, h2, h3, h4, h5⟩ := socket_ok he p.family p.type p.proto os
    simp only [bindLoop, h1]
    cases r with
    | none =>
      obtain ⟨h6, h7⟩ := h4 rfl
      obtain ⟨b, os'', fd, i1, i2, i3, i4⟩ := ih os' (h6.trans hf) (hg.trans h3.grown) (fun _ => h7.before hg)
      refine ⟨b, os'', fd, i1, i2, ?_, i4⟩
      intro hb
      obtain ⟨j1, j2, skipped, q, rest, j3, j4⟩ := i3 hb
      refine ⟨j1, j2, p :: skipped, q, rest, by simp [j3], ?_⟩
      rw [j4, h2]
      simp [forAddr]
    | some fd =>
      obtain ⟨h6, -⟩ := h5 fd rfl
      have ht : Top os' fd os₀.fds := by rw [← hf]; exact h6.top
      obtain ⟨k1, k2⟩ := bindSetup_steps (e := e) (s := { s with fd := fd }) (p := p) ht
      refine ⟨_, _, fd, rfl, (hg.trans h3.grown).trans k1.errs.grown, ?_, ?_⟩
      · intro hb
        refine ⟨k1.top, k2 hb, [], p, ps, rfl, ?_⟩
        rw [k1.log hb, h2]
        simp [forAddr]
      · intro hb
        exact ⟨.inl k1.top, (k1.bad hb).before (hg.trans h3.grown)⟩

/-- What binding has asked of the system, on success. -/
inductive Bound (e : Env) (host port : Option (List UInt8)) (os : Os) (s : Sock) (os' : Os) (fd : Int) : Prop
  /-- internet: an address of the host, reusable and without delays, in the mode of the object; for
  version 6 only that -/
  | inet (skipped rest : List Addr) (p : Addr) :
    s.family ≠ AF_UNIX → e.gai host port s.family os.n = .ok (skipped ++ p :: rest) →
    os'.fds = ⟨fd, !s.blocking⟩ :: os.fds →
    os'.log = os.log ++ skipped.map forAddr ++ [forAddr p] ++
      ((if s.family = AF_INET6 then [.opt fd .v6only] else []) ++ [.getfl fd, .setfl fd (!s.blocking)] ++
        [.opt fd .reuseaddr] ++ [.opt fd .nodelay] ++ [.bind fd p.family p.addr]) → Bound e host port os s os' fd
  /-- unix: the path, of which 107 bytes are used; what was there is removed -/
  | unix (h str path : List UInt8) :
    s.family = AF_UNIX → host = some h → CStr h 0 str → pathName path = str.take 107 → path.length = 108 →
    os'.log = os.log ++ [.socket AF_UNIX SOCK_STREAM 0, .unlink str, .bind fd AF_UNIX path] → Bound e host port os s os' fd

theorem takeWhile_cstr {mem s : List UInt8} (h : CStr mem 0 s) : pathName mem = s := by
  have hl := h.lt
  have : mem = s ++ 0 :: mem.drop (s.length + 1) := by
    apply List.ext_getElem?
    intro i
    by_cases hi : i < s.length
    · rw [List.getElem?_append_left hi, ← Nat.zero_add i, h.bytes i hi, Nat.zero_add, List.getElem?_eq_getElem hi]
    · rw [List.getElem?_append_right (by omega)]
      by_cases h0 : i = s.length
      · subst h0
        have := h.nul
        simpa using this
      · obtain ⟨k, rfl⟩ : ∃ k, i = s.length + 1 + k := ⟨i - s.length - 1, by omega⟩
        rw [show s.length + 1 + k - s.length = k + 1 by omega, List.getElem?_cons_succ, List.getElem?_drop]
  unfold pathName
  rw [this, List.takeWhile_append_of_pos]
  · simp
  · intro x hx
    simpa using h.nonzero x hx

/-- The path as it is bound: cut to 107 bytes. -/
theorem sunPath_ok {host str : List UInt8} (h : CStr host 0 str) :
    ∃ path, strncpy sunPath host 0 (108 - 1) = .ok path ∧ path.length = 108 ∧ pathName path = str.take 107 := by
  have hl : sunPath.length = 108 := by simp [sunPath]
  by_cases hs : str.length < 107
  · obtain ⟨d, h1, h2, h3⟩ := strncpy_short h (n := 107) (dst := sunPath) (by omega) hs
    exact ⟨d, h1, by omega, by rw [takeWhile_cstr h2, List.take_of_length_le (by omega)]⟩
  · obtain ⟨d, h1, h2, h3, h4⟩ := strncpy_long h (n := 107) (dst := sunPath) (by omega) (by omega)
    refine ⟨d, h1, by omega, ?_⟩
    apply takeWhile_cstr
    have hlen : (str.take 107).length = 107 := by simp; omega
    refine ⟨?_, fun b hb => h.nonzero b (List.mem_of_mem_take hb), ?_⟩
    · intro i hi
      rw [hlen] at hi
      have := congrArg (fun l => l[i]?) h3
      simp only [List.getElem?_take, hi, if_true] at this
      simp only [Nat.zero_add, this, List.getElem_take]
      rw [List.getElem?_eq_getElem (by omega)]
    · rw [hlen, h4 _ (by omega)]
      simp [sunPath]

theorem bindUnix_ok {e : Env} {fd : Int} {host str : List UInt8} (h : CStr host 0 str) {os : Os} {rest : List Fd}
    (ht : Top os fd rest) :
    ∃ b os' path, bindUnix e fd host os = .ok (b, os') ∧ pathName path = str.take 107 ∧ path.length = 108 ∧
      Top os' fd rest ∧ Errs e os os' ∧ os'.log = os.log ++ [.unlink str, .bind fd AF_UNIX path] ∧
      (b = false → Recent os os' (e.strerror os'.errno)) := by
  obtain ⟨path, h1, h2, h3⟩ := sunPath_ok h
  unfold bindUnix
  rw [h1]
  simp only [Res.ok_bind]
  rw [cstr_eq h]
  simp only [Res.ok_bind]
  obtain ⟨⟨k1, k2, k3⟩, k4⟩ := noted_ok e (.unlink str) os
  obtain ⟨⟨l1, l2, l3⟩, l4⟩ := noted_ok e (.bind fd AF_UNIX path) (noted e (.unlink str) os).2
  refine ⟨(noted e (.bind fd AF_UNIX path) (noted e (.unlink str) os).2).1,
    (noted e (.bind fd AF_UNIX path) (noted e (.unlink str) os).2).2, path, rfl, h3, h2, ht.of_fds (l1.trans k1),
    k2.trans l2, ?_, fun hb => (l3 hb).before k2.grown⟩
  rw [l4, k4]
  simp

/-- What callers have to give: for unix sockets, a path. -/
def GoodHost (host : Option (List UInt8)) (family : Int) : Prop :=
  family = AF_UNIX → ∃ h str, host = some h ∧ CStr h 0 str

theorem bind_ok {e : Env} (he : Laws e) {host port : Option (List UInt8)} {os : Os} {s : Sock} (hs : s.fd = -1)
    (hl : s.err.length = 128) (hh : GoodHost host s.family) :
    ∃ rc os' s', bind e host port os s = .ok (rc, os', s') ∧
      (rc = 0 ∧ Got os s os' s' ∧ Bound e host port os s os' s'.fd ∧ Grown os os' ∧ s'.family = s.family ∨
       rc = -1 ∧ Failed os s os' s' ∧ s'.family = s.family) := by
  unfold bind
  rw [wr_lt (show 0 < s.err.length by omega)]
  simp only [Res.ok_bind]
  by_cases hu : s.family = AF_UNIX
  · rw [if_pos hu]
    obtain ⟨h, str, rfl, hc⟩ := hh hu
    obtain ⟨r, os', h1, h2, h3, h4, h5⟩ := socket_ok he AF_UNIX SOCK_STREAM 0 os
    rw [h1]
    cases r with
    | none =>
      obtain ⟨h6, h7⟩ := h4 rfl
      obtain ⟨os'', s'', g1, g2, -, g4⟩ := giveUp_ok he (os₀ := os) (s₀ := s) (s := { s with err := s.err.set 0 0 })
        (by simpa using hl) (.inr ⟨h6, hs⟩) h7 rfl rfl
      exact ⟨_, _, _, g1, .inr ⟨rfl, g2, g4⟩⟩
    | some fd =>
      obtain ⟨h6, -⟩ := h5 fd rfl
      obtain ⟨b, os'', path, b1, b2, b3, b4, b5, b6, b7⟩ := bindUnix_ok (e := e) hc h6.top
      simp only
      rw [b1]
      simp only [Res.ok_bind]
      cases b with
      | true =>
        refine ⟨_, _, _, rfl, .inl ⟨rfl, ⟨b4.fds, b4.new, b4.pos, by simpa using hl, rfl, rfl⟩, ?_, ?_, rfl⟩⟩
        · exact .unix h str path hu rfl hc b2 b3 (by rw [b6, h2]; simp)
        · exact h3.grown.trans b5.grown
      | false =>
        obtain ⟨os₃, s₃, g1, g2, -, g4⟩ := giveUp_ok he (os₀ := os) (s₀ := s) (os := os'')
          (s := { s with err := s.err.set 0 0, fd := fd }) (by simpa using hl) (.inl b4) ((b7 rfl).before h3.grown) rfl rfl
        exact ⟨_, _, _, g1, .inr ⟨rfl, g2, g4⟩⟩
  · rw [if_neg hu]
    unfold getaddrinfo
    cases hg : e.gai host port s.family os.n with
    | error rc =>
      simp only
      obtain ⟨err, k1, k2, k3⟩ := errstr_ok he (g := rc)
        (os := { os with n := os.n + 1, fails := os.fails ++ [e.gaiStr rc] })
        (s := { s with err := s.err.set 0 0 }) (by simpa using hl)
      rw [k1]
      refine ⟨_, _, _, rfl, .inr ⟨rfl, ⟨rfl, hs, k2, ⟨e.gaiStr rc, ⟨_, rfl, by simp⟩, ?_⟩, rfl, rfl⟩, rfl⟩⟩
      rw [if_pos (he.gaiErr _ _ _ _ _ hg)] at k3
      exact k3
    | ok as =>
      simp only
      have hne : as ≠ [] := by rintro rfl; exact he.gaiOk _ _ _ _ hg
      obtain ⟨b, os', fd, i1, i2, i3, i4⟩ := bindLoop_ok he (os₀ := os) (s := { s with err := s.err.set 0 0 }) hs as
        { os with n := os.n + 1 } rfl ⟨[], by simp⟩ (fun h => absurd h hne)
      rw [i1]
      cases b with
      | true =>
        obtain ⟨j1, j2, skipped, p, rest, j3, j4⟩ := i3 rfl
        refine ⟨_, _, _, rfl, .inl ⟨rfl, ⟨j1.fds, j1.new, j1.pos, by simpa using hl, rfl, rfl⟩, ?_, i2, rfl⟩⟩
        exact .inet skipped rest p hu (by rw [hg, j3]) j2 j4
      | false =>
        obtain ⟨j1, j2⟩ := i4 rfl
        obtain ⟨os₃, s₃, g1, g2, -, g4⟩ := giveUp_ok he (os₀ := os) (s₀ := s) (os := os')
          (s := { s with err := s.err.set 0 0, fd := fd }) (by simpa using hl) j1 j2 rfl rfl
        exact ⟨_, _, _, g1, .inr ⟨rfl, g2, g4⟩⟩

/-- **C75** for listening, whatever the system calls do: on success there is one descriptor more,
that of the object, bound and listening; on failure the descriptors are the old ones and the text of
the object is that of an error that occurred. -/
theorem listen_spec {e : Env} (he : Laws e) {host port : Option (List UInt8)} {os : Os} {s : Sock} (hs : s.fd = -1)
    (hl : s.err.length = 128) (hh : GoodHost host s.family) :
    ∃ rc os' s', listen e host port os s = .ok (rc, os', s') ∧ s'.family = s.family ∧
      (rc = 0 ∧ Got os s os' s' ∧
        (∃ os₁, Bound e host port os s os₁ s'.fd ∧ os'.fds = os₁.fds ∧ os'.log = os₁.log ++ [.listen s'.fd 4096]) ∨
       rc = -1 ∧ Failed os s os' s') := by
  obtain ⟨rc, os', s', h1, h2⟩ := bind_ok he (port := port) (os := os) hs hl hh
  unfold listen
  rw [h1]
  simp only [Res.ok_bind]
  rcases h2 with ⟨rfl, h2, h3, h4, h5⟩ | ⟨rfl, h2, h3⟩
  · rw [if_neg (by simp)]
    obtain ⟨⟨k1, k2, k3⟩, k4⟩ := noted_ok e (.listen s'.fd 4096) os'
    generalize noted e (.listen s'.fd 4096) os' = r at k1 k2 k3 k4 ⊢
    obtain ⟨b, os''⟩ := r
    cases b with
    | true =>
      refine ⟨_, _, _, rfl, h5, .inl ⟨rfl, ⟨?_, h2.new, h2.pos, h2.len, h2.blocking, h2.op⟩, os', h3, k1, k4⟩⟩
      obtain ⟨nb, hf⟩ := h2.fds
      exact ⟨nb, k1.trans hf⟩
    | false =>
      obtain ⟨os₃, s₃, g1, g2, -, g4⟩ := giveUp_ok he (os₀ := os) (s₀ := s) (os := os'') (s := s') h2.len
        (.inl ⟨by obtain ⟨nb, hf⟩ := h2.fds; exact ⟨nb, k1.trans hf⟩, h2.new, h2.pos⟩)
        ((k3 rfl).before h4) h2.blocking h2.op
      exact ⟨_, _, _, g1, g4.trans h5, .inr ⟨rfl, g2⟩⟩
  · rw [if_pos (by simp)]
    exact ⟨_, _, _, rfl, h3, .inr ⟨rfl, h2⟩⟩

end Verif.Sock
