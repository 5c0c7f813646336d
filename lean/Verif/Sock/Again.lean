import Verif.Sock.Connect
import Verif.Sock.Text

/-!
# Which failures mean "try again later"

`sc_sock_send`, `sc_sock_recv`, `sc_sock_accept` and `sc_sock_connect` return -1 both when they fail and
when they cannot go on at once; callers tell the two apart by `errno`. The functions of Windows do not
set `errno`: whatever an earlier call left there is what callers see after a failure. On all systems
`sc_sock_connect` leaves `errno` alone if the name cannot be resolved.
-/

namespace Verif.Sock

/-! ## POSIX -/

namespace Io

/-- **C148, sending and receiving on POSIX.** After any number of interruptions that are over, a
negative result has `errno = EAGAIN` exactly if the system said so in the last call. -/
theorem again_ok {e : IoEnv} (he : Laws e.toEnv) {buf : List UInt8} {len : Int} {w : World} {s : Sock}
    (hs : s.err.length = 128) (hlen : 0 < len) (hb : len ≤ buf.length) {k fuel : Nat} (hk : k < fuel)
    (hi : Interrupted e.call w.os.n k) :
    (∃ rc w' s', send e fuel buf len w s = .ok (some (rc, w', s')) ∧
      (rc < 0 → (w'.os.errno = EAGAIN ↔ e.call (w.os.n + k) = some EAGAIN))) ∧
    (∃ rc w' s' buf', recv e fuel buf len w s = .ok (some (rc, w', s', buf')) ∧
      (rc < 0 → (w'.os.errno = EAGAIN ↔ e.call (w.os.n + k) = some EAGAIN) ∧
        (w'.os.errno = EOF ↔ e.call (w.os.n + k) = some EOF ∨ e.call (w.os.n + k) = none ∧ w.inp = []))) := by
  obtain ⟨rc, w', s', h1, -, -, -, h2⟩ := send_spec he hs hlen hb hk hi
  obtain ⟨rc', w'', s'', buf', g1, -, -, -, g2⟩ := recv_spec he hs hlen hb hk hi
  refine ⟨⟨rc, w', s', h1, fun hr => ?_⟩, ⟨rc', w'', s'', buf', g1, fun hr => ?_⟩⟩
  · unfold Sent at h2
    cases hc : e.call (w.os.n + k) with
    | none => rw [hc] at h2; grind
    | some er => rw [hc] at h2; grind
  · unfold Received at g2
    cases hc : e.call (w.os.n + k) with
    | none =>
      rw [hc] at g2
      simp only at g2
      split at g2
      · next hin =>
        rw [g2.2.1]
        refine ⟨⟨fun h => absurd h (by decide), fun h => by cases h⟩, fun _ => .inr ⟨rfl, hin⟩, fun _ => rfl⟩
      · omega
    | some er =>
      rw [hc] at g2
      simp only at g2
      rw [g2.2.2.2.1]
      simp

end Io

/-- The errors of the calls between two states: `errno` is what it was, or a call has set it. -/
def Since (e : Env) (os os' : Os) : Prop :=
  os.n ≤ os'.n ∧ (os'.errno = os.errno ∨ ∃ n, os.n ≤ n ∧ n < os'.n ∧ e.call n = some os'.errno)

theorem Since.refl (e : Env) (os : Os) : Since e os os := ⟨Nat.le_refl _, .inl rfl⟩

theorem Since.trans {e : Env} {a b c : Os} (h : Since e a b) (g : Since e b c) : Since e a c := by
  obtain ⟨h1, h2⟩ := h
  obtain ⟨g1, g2⟩ := g
  refine ⟨by omega, ?_⟩
  rcases g2 with g2 | ⟨n, i1, i2, i3⟩
  · rcases h2 with h2 | ⟨n, i1, i2, i3⟩
    · exact .inl (g2.trans h2)
    · exact .inr ⟨n, i1, by omega, by rw [g2]; exact i3⟩
  · exact .inr ⟨n, by omega, i2, i3⟩

theorem attempt_since (e : Env) (os : Os) : Since e os (attempt e os).2 := by
  unfold attempt
  cases h : e.call os.n with
  | none => exact ⟨Nat.le_succ _, .inl rfl⟩
  | some er => exact ⟨Nat.le_succ _, .inr ⟨os.n, Nat.le_refl _, Nat.lt_succ_self _, h⟩⟩

theorem noted_since (e : Env) (c : Call) (os : Os) : Since e os (noted e c os).2 :=
  attempt_since e { os with log := os.log ++ [c] }

theorem andThen_since {e : Env} {os : Os} {r : Bool × Os} {f : Os → Bool × Os} (h : Since e os r.2)
    (hf : ∀ o, Since e o (f o).2) : Since e os (andThen r f).2 := by
  unfold andThen
  split
  · exact h.trans (hf _)
  · exact h

theorem socket_since (e : Env) (a b c : Int) (os : Os) : Since e os (socket e a b c os).2 := by
  unfold socket
  have := noted_since e (.socket a b c) os
  generalize noted e (.socket a b c) os = r at this ⊢
  rcases r with ⟨_ | _, o⟩ <;> exact this

theorem setBlocking_since (e : Env) (fd : Int) (b : Bool) (os : Os) : Since e os (setBlocking e fd b os).2 := by
  unfold setBlocking
  refine andThen_since (noted_since ..) fun o => ?_
  simp only
  generalize (if b then false else true) = nb
  have := noted_since e (.setfl fd nb) o
  generalize noted e (.setfl fd nb) o = r at this ⊢
  rcases r with ⟨_ | _, o'⟩ <;> exact this

theorem connectSetup_since (e : Env) (s : Sock) (fd : Int) (os : Os) : Since e os (connectSetup e s fd os).2 :=
  andThen_since (andThen_since (setBlocking_since ..) fun _ => noted_since ..) fun _ => noted_since ..

theorem bindFirst_since (e : Env) (fd : Int) : ∀ (as : List Spec.Addr) (rc : Bool) (os : Os),
    Since e os (bindFirst e fd as rc os).2
  | [], _, os => Since.refl e os
  | p :: ps, rc, os => by
    unfold bindFirst
    have := noted_since e (.bind fd p.family p.addr) os
    rcases h : noted e (.bind fd p.family p.addr) os with ⟨_ | _, o⟩ <;> rw [h] at this
    · exact this.trans (bindFirst_since e fd ps false o)
    · exact this

theorem getaddrinfo_since (e : Env) (h p : Option (List UInt8)) (f : Int) (os : Os) :
    Since e os (getaddrinfo e h p f os).2 := by
  unfold getaddrinfo
  cases e.gai h p f os.n <;> exact ⟨Nat.le_succ _, .inl rfl⟩

theorem sockClose_since {e : Env} {os os' : Os} {s s' : Sock} {rc : Int} (h : sockClose e os s = .ok (rc, os', s')) :
    Since e os os' := by
  unfold sockClose at h
  split at h
  · obtain ⟨⟨ok, o⟩, h1, h2⟩ := Res.bind_eq_ok.1 h
    unfold kclose at h1
    split at h1
    · have := attempt_since e { os with fds := os.fds.filter (fun f => f.num ≠ s.fd) }
      generalize attempt e { os with fds := os.fds.filter (fun f => f.num ≠ s.fd) } = r at h1 this
      cases h1
      cases h2
      exact this
    · cases h1
  · cases h; exact Since.refl e os

theorem bindSrc_since {e : Env} {a p : Option (List UInt8)} {os os' : Os} {s s' : Sock} {rc : Int}
    (h : bindSrc e a p os s = .ok (rc, os', s')) : Since e os os' := by
  unfold bindSrc at h
  have h0 := getaddrinfo_since e a p AF_UNSPEC os
  rcases hg : getaddrinfo e a p AF_UNSPEC os with ⟨_ | as, o⟩ <;> rw [hg] at h h0
  · obtain ⟨s₁, -, h2⟩ := Res.bind_eq_ok.1 h
    cases h2
    exact h0
  · simp only at h
    have h1 := bindFirst_since e s.fd as true o
    rcases hb : bindFirst e s.fd as true o with ⟨_ | _, o'⟩ <;> rw [hb] at h h1
    · obtain ⟨s₁, -, h2⟩ := Res.bind_eq_ok.1 h
      cases h2
      exact h0.trans h1
    · cases h
      exact h0.trans h1

theorem connectTo_since {e : Env} {fd : Int} {p : Spec.Addr} {os os' : Os} {s s' : Sock} {nx : Next}
    (h : connectTo e fd p os s = .ok (nx, os', s')) : nx ≠ .pending → Since e os os' := by
  intro hp
  unfold connectTo at h
  have h0 := noted_since e (.connect fd p.family p.addr) os
  rcases hn : noted e (.connect fd p.family p.addr) os with ⟨_ | _, o⟩ <;> rw [hn] at h h0 <;> simp only at h
  · split at h
    · cases h; exact absurd rfl hp
    · obtain ⟨⟨rc, o', s₁⟩, h1, h2⟩ := Res.bind_eq_ok.1 h
      cases h2
      exact h0.trans (sockClose_since h1)
  · cases h; exact h0

theorem connectOne_since {e : Env} {src srcPort : Option (List UInt8)} {p : Spec.Addr} {os os' : Os} {s s' : Sock} {nx : Next}
    (h : connectOne e src srcPort p os s = .ok (nx, os', s')) (hp : nx ≠ .pending) : Since e os os' := by
  unfold connectOne at h
  have h0 := socket_since e p.family p.type p.proto os
  rcases hn : socket e p.family p.type p.proto os with ⟨_ | fd, o⟩ <;> rw [hn] at h h0 <;> simp only at h
  · cases h; exact h0
  · have h1 := connectSetup_since e { s with family := p.family, fd := fd } fd o
    generalize hc : connectSetup e { s with family := p.family, fd := fd } fd o = r at h h1
    rcases r with ⟨_ | _, o₁⟩ <;> simp only at h
    · cases h; exact h0.trans h1
    · split at h
      · obtain ⟨⟨rc, o₂, s₂⟩, h2, h3⟩ := Res.bind_eq_ok.1 h
        simp only at h3
        split at h3
        · cases h3; exact (h0.trans h1).trans (bindSrc_since h2)
        · exact ((h0.trans h1).trans (bindSrc_since h2)).trans (connectTo_since h3 hp)
      · exact (h0.trans h1).trans (connectTo_since h hp)

theorem connectPass_since {e : Env} {src srcPort : Option (List UInt8)} {family : Int} {i : Nat} {nx : Next}
    (hp : nx ≠ .pending) : ∀ (as : List Spec.Addr) {os os' : Os} {s s' : Sock},
    connectPass e src srcPort family i as os s = .ok (nx, os', s') → Since e os os'
  | [], os, os', s, s', h => by unfold connectPass at h; cases h; exact Since.refl e _
  | p :: ps, os, os', s, s', h => by
    unfold connectPass at h
    split at h
    · exact connectPass_since hp ps h
    · obtain ⟨⟨nx₁, o₁, s₁⟩, h1, h2⟩ := Res.bind_eq_ok.1 h
      simp only at h2
      split at h2
      · next hn =>
        exact (connectOne_since h1 (by rw [hn]; decide)).trans (connectPass_since hp ps h2)
      · cases h2; exact connectOne_since h1 hp

theorem giveUp_since {e : Env} {os os' : Os} {s s' : Sock} {rc : Int} (h : giveUp e os s = .ok (rc, os', s')) :
    Since e os os' := by
  unfold giveUp at h
  obtain ⟨s₁, -, h2⟩ := Res.bind_eq_ok.1 h
  obtain ⟨⟨rc', o', s₂⟩, h3, h4⟩ := Res.bind_eq_ok.1 h2
  cases h4
  exact sockClose_since h3

theorem bindSrc_fd {e : Env} {a p : Option (List UInt8)} {os os' : Os} {s s' : Sock} {rc : Int}
    (h : bindSrc e a p os s = .ok (rc, os', s')) : s'.fd = s.fd := by
  have herr : ∀ {g : Int} {o : Os} {s₁ : Sock}, errstr e g o s = .ok s₁ → s₁.fd = s.fd := by
    intro g o s₁ h
    unfold errstr at h
    obtain ⟨err, -, h2⟩ := Res.bind_eq_ok.1 h
    cases h2
    rfl
  unfold bindSrc at h
  rcases hg : getaddrinfo e a p AF_UNSPEC os with ⟨_ | as, o⟩ <;> rw [hg] at h
  · obtain ⟨s₁, h1, h2⟩ := Res.bind_eq_ok.1 h
    cases h2
    exact herr h1
  · simp only at h
    rcases hb : bindFirst e s.fd as true o with ⟨_ | _, o'⟩ <;> rw [hb] at h
    · obtain ⟨s₁, h1, h2⟩ := Res.bind_eq_ok.1 h
      cases h2
      exact herr h1
    · cases h
      rfl

theorem connectTo_pending {e : Env} {fd : Int} {p : Spec.Addr} {os os' : Os} {s s' : Sock}
    (h : connectTo e fd p os s = .ok (.pending, os', s')) : s' = s := by
  unfold connectTo at h
  rcases hn : noted e (.connect fd p.family p.addr) os with ⟨_ | _, o⟩ <;> rw [hn] at h <;> simp only at h
  · split at h
    · cases h; rfl
    · obtain ⟨⟨rc, o', s₁⟩, h1, h2⟩ := Res.bind_eq_ok.1 h
      cases h2
  · cases h

theorem connectOne_pending {e : Env} (he : Laws e) {src srcPort : Option (List UInt8)} {p : Spec.Addr} {os os' : Os}
    {s s' : Sock} (h : connectOne e src srcPort p os s = .ok (.pending, os', s')) : 0 ≤ s'.fd := by
  unfold connectOne at h
  have h0 : ∀ {fd : Int} {o : Os}, socket e p.family p.type p.proto os = (some fd, o) → 0 ≤ fd := by
    intro fd o h
    unfold socket at h
    split at h
    · cases h
    · cases h; exact he.nonneg _
  rcases hn : socket e p.family p.type p.proto os with ⟨_ | fd, o⟩ <;> rw [hn] at h <;> simp only at h
  · cases h
  · have hfd := h0 hn
    generalize hc : connectSetup e { s with family := p.family, fd := fd } fd o = r at h
    rcases r with ⟨_ | _, o₁⟩ <;> simp only at h
    · cases h
    · split at h
      · obtain ⟨⟨rc, o₂, s₂⟩, h2, h3⟩ := Res.bind_eq_ok.1 h
        simp only at h3
        split at h3
        · cases h3
        · rw [connectTo_pending h3, bindSrc_fd h2]; exact hfd
      · rw [connectTo_pending h]; exact hfd

theorem connectPass_pending {e : Env} (he : Laws e) {src srcPort : Option (List UInt8)} {family : Int} {i : Nat} :
    ∀ (as : List Spec.Addr) {os os' : Os} {s s' : Sock},
    connectPass e src srcPort family i as os s = .ok (.pending, os', s') → 0 ≤ s'.fd
  | [], os, os', s, s', h => by unfold connectPass at h; cases h
  | p :: ps, os, os', s, s', h => by
    unfold connectPass at h
    split at h
    · exact connectPass_pending he ps h
    · obtain ⟨⟨nx₁, o₁, s₁⟩, h1, h2⟩ := Res.bind_eq_ok.1 h
      simp only at h2
      split at h2
      · exact connectPass_pending he ps h2
      · cases h2; exact connectOne_pending he h1

/-- What a call of `sc_sock_connect` for an internet address leaves in `errno`, if no connection is
under way: what was there before, or the number of an error of a system call it made. -/
theorem connect_since {e : Env} (he : Laws e) {dst dstPort src srcPort : Option (List UInt8)} {os os' : Os} {s s' : Sock}
    {rc : Int} (hu : s.family ≠ AF_UNIX) (h : connect e dst dstPort src srcPort os s = .ok (rc, os', s'))
    (hf : s'.fd = -1) : Since e os os' := by
  unfold connect at h
  simp only at h
  rw [if_neg hu] at h
  have h0 := getaddrinfo_since e dst dstPort AF_UNSPEC os
  rcases hg : getaddrinfo e dst dstPort AF_UNSPEC os with ⟨_ | as, o⟩ <;> rw [hg] at h h0
  · obtain ⟨s₁, -, h2⟩ := Res.bind_eq_ok.1 h
    cases h2
    exact h0
  · simp only at h
    obtain ⟨⟨nx, o₁, s₁⟩, h1, h2⟩ := Res.bind_eq_ok.1 h
    obtain ⟨⟨nx₂, o₂, s₂⟩, h3, h4⟩ := Res.bind_eq_ok.1 h2
    simp only at h3
    have hnp : nx₂ ≠ .pending := by
      intro hc
      subst hc
      unfold connectEnd at h4
      cases h4
      have : 0 ≤ s'.fd := by
        split at h3
        · exact connectPass_pending he as h3
        · next hn =>
          cases h3
          exact connectPass_pending he as h1
      omega
    have h5 : Since e o o₂ := by
      split at h3
      · next hn => exact (connectPass_since (by rw [hn]; decide) as h1).trans (connectPass_since hnp as h3)
      · cases h3
        exact connectPass_since hnp as h1
    refine (h0.trans h5).trans ?_
    unfold connectEnd at h4
    cases nx₂ with
    | done => cases h4; exact Since.refl e _
    | pending => exact absurd rfl hnp
    | bindError =>
      obtain ⟨⟨rc', o', s₃⟩, k1, k2⟩ := Res.bind_eq_ok.1 h4
      cases k2
      exact sockClose_since k1
    | next => exact giveUp_since h4
    | error => exact giveUp_since h4

/-- **C148, connecting to an internet address, in part.** A connection that is under way is told with
`errno = EAGAIN`, and the object has its descriptor. After a failure `errno` is `EAGAIN` only if it was
so before or a system call has failed with it. What is missing: that it is not `EAGAIN` although it was
so before, see below. -/
theorem connect_again_partial {e : Env} (he : Laws e) {dst dstPort src srcPort : Option (List UInt8)} {os os' : Os}
    {s s' : Sock} {rc : Int} (hs : s.fd = -1) (hl : s.err.length = 128) (hu : s.family ≠ AF_UNIX)
    (h : connect e dst dstPort src srcPort os s = .ok (rc, os', s')) (hr : rc < 0) :
    (s'.fd ≠ -1 → os'.errno = EAGAIN ∧ s.blocking = false) ∧
    (s'.fd = -1 → os.errno ≠ EAGAIN → (∀ n, os.n ≤ n → n < os'.n → e.call n ≠ some EAGAIN) → os'.errno ≠ EAGAIN) := by
  obtain ⟨rc₁, os₁, s₁, h1, h2⟩ := connect_inet he (dst := dst) (dstPort := dstPort) (src := src) (srcPort := srcPort)
    (os := os) hs hl hu
  rw [h1] at h
  cases h
  refine ⟨fun hf => ?_, fun hf hne hc => ?_⟩
  · rcases h2 with ⟨g, -, -, hF, -⟩ | ⟨as, tried, -, -, -, ⟨h3 | h3, -, -⟩ | ⟨-, hF, -⟩⟩
    · exact absurd hF.fd hf
    · omega
    · exact ⟨h3.2.2, h3.2.1⟩
    · exact absurd hF.fd hf
  · obtain ⟨-, h3 | ⟨n, k1, k2, k3⟩⟩ := connect_since he hu h1 hf
    · rw [h3]; exact hne
    · exact fun h4 => hc n k1 k2 (by rw [k3, h4])

/-- **C148 is violated** by connecting to a name that cannot be resolved: if an earlier call has left
`EAGAIN` in `errno`, say a read with nothing to read, it is still there, and the caller takes the failure
for a connection that is under way. There is none: the object has no descriptor. -/
theorem connect_again_violated {e : Env} (he : Laws e) {dst dstPort src srcPort : Option (List UInt8)} {os : Os}
    {s : Sock} (hs : s.fd = -1) (hl : s.err.length = 128) (hu : s.family ≠ AF_UNIX) {g : Int}
    (hg : e.gai dst dstPort AF_UNSPEC os.n = .error g) (ho : os.errno = EAGAIN) :
    ∃ os' s', connect e dst dstPort src srcPort os s = .ok (-1, os', s') ∧ os'.errno = EAGAIN ∧ s'.fd = -1 ∧
      os'.fds = os.fds := by
  unfold connect getaddrinfo
  simp only
  rw [if_neg hu, hg]
  simp only
  obtain ⟨err, k1, k2, k3⟩ := errstr_ok he (g := g)
      (os := { os with n := os.n + 1, fails := os.fails ++ [e.gaiStr g] }) hl
  rw [k1]
  exact ⟨_, _, rfl, ho, hs, rfl⟩

/-- **C148, accepting on POSIX**: if there is no connection to take, `errno` is what the system said. -/
theorem accept_again {e : Env} (he : Laws e) {os : Os} {s inn : Sock} (hl : s.err.length = 128) {er : Int}
    (hc : e.call os.n = some er) :
    ∃ os' s', accept e os s inn = .ok (-1, os', s', inn) ∧ os'.errno = er ∧ os'.fds = os.fds := by
  unfold accept kaccept noted
  rw [Io.attempt_some (os := { os with log := os.log ++ [.accept s.fd] }) hc]
  simp only
  split
  · next h =>
    exact ⟨_, _, rfl, h.2.symm, rfl⟩
  · obtain ⟨err, k1, k2, k3⟩ := errstr_ok he (g := 0)
      (os := ({ ({ os with log := os.log ++ [.accept s.fd] } : Os) with n := os.n + 1 } : Os).failed e er) hl
    rw [k1]
    exact ⟨_, _, rfl, rfl, rfl⟩

end Verif.Sock
