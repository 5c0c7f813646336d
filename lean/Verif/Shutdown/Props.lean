import Verif.Shutdown.Model

/-!
# Properties: shutdown signals reach the loop (C162)
-/

namespace Verif.Shutdown

open Poll.Epoll (Env EPOLLIN EPOLLET EINTR)

/-- `again` is the condition of the loop in `sc_sock_poll_wait`. -/
theorem waitLoop_again (w : Poll.Epoll.Waits) (timeout : Int) (fuel n t : Nat) :
    Poll.Epoll.waitLoop w timeout (fuel + 1) n t =
      if again (w.result n timeout) then Poll.Epoll.waitLoop w timeout fuel (n + 1) (t + w.took n timeout)
      else some (w.result n timeout, t + w.took n timeout) := by
  conv => lhs; unfold Poll.Epoll.waitLoop
  unfold again
  cases w.result n timeout with
  | ok l => rfl
  | error er => by_cases h : er = EINTR <;> simp [h]

/-! ## Invariants -/

/-- A shutdown signal has arrived. -/
def Arrived (es : List Event) : Prop := ∃ g, Event.sig (.arrive g) ∈ es

/-- What holds for a running handler: it has a descriptor to write to, and has written if it is about to
return. -/
def FrameOk (bytes : Nat) (f : Signal.Frame) : Prop :=
  match f.pc with
  | .noneLog | .noneExit => False
  | .restore => 0 < bytes
  | _ => True

theorem FrameOk.mono {a b : Nat} (hab : a ≤ b) {f : Signal.Frame} (h : FrameOk a f) : FrameOk b f := by
  unfold FrameOk at h ⊢
  split <;> simp_all
  omega

structure Inv (c : Setup) (es : List Event) (s : State) : Prop where
  shut : s.sig.shutFd = c.fd1
  frames : ∀ f ∈ s.sig.frames, FrameOk s.bytes f
  sent : Arrived es → s.sig.exit = none → s.sig.frames ≠ [] ∨ 0 < s.bytes
  why : s.sig.frames ≠ [] ∨ 0 < s.bytes → Arrived es
  poll : ∃ l ds, Poll.Epoll.Runs c.e c.fresh l ds s.poll ∧ Poll.Spec.after l c.pipe .read = true ∧
    Poll.Spec.after l c.pipe .edge = false ∧ ∀ i d, (i, d) ∈ ds → (i = c.pipe ↔ d = c.data)

theorem arrived_mono {es es' : List Event} (h : Arrived es) : Arrived (es ++ es') := by
  obtain ⟨g, h⟩ := h
  exact ⟨g, List.mem_append_left _ h⟩

theorem arrived_iff {es : List Event} {e : Option Event} (h : ∀ g, e ≠ some (.sig (.arrive g))) :
    Arrived (es ++ e.toList) ↔ Arrived es := by
  constructor
  · rintro ⟨g, hg⟩
    rcases List.mem_append.1 hg with hg | hg
    · exact ⟨g, hg⟩
    · cases e with
      | none => simp at hg
      | some e => simp at hg; subst hg; exact absurd rfl (h g)
  · exact arrived_mono

/-- A request for another object leaves what is waited for on the pipe. -/
theorem after_other {e : Env} {σ σ' : Poll.Epoll.State} {r : Option Poll.Spec.Req} {i d k : Nat}
    (hs : Poll.Epoll.Step e σ r i d σ') (hk : i ≠ k) (l : List Poll.Spec.Req) :
    Poll.Spec.after (l ++ r.toList) k = Poll.Spec.after l k := by
  have hk' : k ≠ i := fun h => hk h.symm
  cases hs with
  | add h =>
    split
    · simp [Poll.Epoll.after_snoc, Poll.Spec.apply, hk']
    · simp
  | del h =>
    split
    · simp [Poll.Epoll.after_snoc, Poll.Spec.apply, hk']
    · simp

/-- A step of the handler on top that writes nothing and does not return. -/
theorem Inv.top {c : Setup} {es : List Event} {s : State} (h : Inv c es s) {f : Signal.Frame} {fs : List Signal.Frame}
    (hf : s.sig.frames = f :: fs) {e : Option Event} (he : ∀ g, e ≠ some (.sig (.arrive g))) {f' : Signal.Frame}
    {sig' : Signal.State} {n : Nat} (hn : s.bytes ≤ n) (h1 : sig'.shutFd = s.sig.shutFd) (h2 : sig'.frames = f' :: fs)
    (hok : FrameOk n f') : Inv c (es ++ e.toList) { s with sig := sig', bytes := n } := by
  refine ⟨h1.trans h.shut, ?_, ?_, ?_, h.poll⟩
  · intro g hg
    replace hg : g ∈ sig'.frames := hg
    rw [h2] at hg
    rcases List.mem_cons.1 hg with rfl | hg
    · exact hok
    · exact (h.frames g (by rw [hf]; exact List.mem_cons_of_mem _ hg)).mono hn
  · intro _ _
    left
    show sig'.frames ≠ []
    rw [h2]
    simp
  · intro _
    rw [arrived_iff he]
    exact h.why (.inl (by rw [hf]; simp))

theorem Inv.sig {c : Setup} (hc : c.fd1 ≠ -1) {es : List Event} {s : State} (h : Inv c es s)
    {e : Option Signal.Event} {sig' : Signal.State}
    (hs : Signal.Step s.sig e sig') (hd : sig'.shutFd = s.sig.shutFd) :
    Inv c (es ++ (e.map Event.sig).toList) { s with sig := sig', bytes := store c e s.bytes } := by
  have hne : s.sig.shutFd ≠ -1 := by rw [h.shut]; exact hc
  cases hs with
  | app e' l d hx hf =>
    have ha : Arrived (es ++ ((some Signal.Event.app).map Event.sig).toList) ↔ Arrived es :=
      arrived_iff (by intro g hg; cases hg)
    refine ⟨hd.trans h.shut, h.frames, ?_, ?_, h.poll⟩
    · rw [ha]; exact h.sent
    · rw [ha]; exact h.why
  | arrive g hx hg hb =>
    refine ⟨h.shut, ?_, fun _ _ => .inl (by simp), fun _ => ⟨g, by simp⟩, h.poll⟩
    intro f hf
    rcases List.mem_cons.1 hf with rfl | hf
    · trivial
    · exact h.frames f hf
  | save hx hf hp => exact h.top hf (by intro g hg; cases hg) (Nat.le_refl _) rfl rfl trivial
  | log e' hx hf hl _ =>
    refine h.top hf (by intro g hg; cases hg) (Nat.le_refl _) rfl rfl ?_
    have hok := h.frames _ (by rw [hf]; exact List.mem_cons_self)
    unfold Signal.logOf at hl
    unfold FrameOk at hok
    split at hl <;> cases hl <;> simp_all [FrameOk]
  | check hx hf hp =>
    refine h.top hf (by intro g hg; cases hg) (Nat.le_refl _) rfl rfl ?_
    unfold FrameOk
    split <;> simp_all
    · split at * <;> simp_all
    · split at * <;> simp_all
    · split at * <;> simp_all
  | exit1 hx hf hp =>
    have ha : Arrived (es ++ ((some (Signal.Event.exit 1)).map Event.sig).toList) ↔ Arrived es :=
      arrived_iff (by intro g hg; cases hg)
    exact ⟨h.shut, h.frames, fun _ hx => (by cases hx), fun hw => ha.2 (h.why hw), h.poll⟩
  | exit0 hx hf hp =>
    have ha : Arrived (es ++ ((some (Signal.Event.exit 0)).map Event.sig).toList) ↔ Arrived es :=
      arrived_iff (by intro g hg; cases hg)
    exact ⟨h.shut, h.frames, fun _ hx => (by cases hx), fun hw => ha.2 (h.why hw), h.poll⟩
  | set hx hf hp => exact h.top hf (by intro g hg; cases hg) (Nat.le_refl _) rfl rfl trivial
  | choose hx hf hp =>
    refine h.top hf (by intro g hg; cases hg) (Nat.le_refl _) rfl rfl ?_
    rw [if_pos hne]
    trivial
  | send rc e' hx hf hp =>
    have hb : store c (some (.command s.sig.shutFd rc)) s.bytes = if rc = 1 then s.bytes + 1 else s.bytes := by
      simp [store, h.shut]
    refine h.top hf (by intro g hg; cases hg) ?_ rfl rfl ?_
    · rw [hb]; split <;> omega
    · by_cases hr : rc = 1
      · rw [hb, if_pos hr, if_neg (by simp [hr])]
        exact Nat.succ_pos _
      · rw [if_pos hr]
        trivial
  | @restore f fs hx hf hp =>
    have ha : Arrived (es ++ ((some (Signal.Event.ret f.sig)).map Event.sig).toList) ↔ Arrived es :=
      arrived_iff (by intro g hg; cases hg)
    have hok : 0 < s.bytes := by
      have := h.frames f (by rw [hf]; exact List.mem_cons_self)
      unfold FrameOk at this
      rw [hp] at this
      exact this
    refine ⟨h.shut, ?_, fun _ _ => .inr hok, fun _ => ha.2 (h.why (.inr hok)), h.poll⟩
    intro g hg
    exact h.frames g (by rw [hf]; exact List.mem_cons_of_mem _ hg)

theorem Inv.step {c : Setup} {s₀ : State} (hb : Begin c s₀) {es : List Event} {s s' : State} (h : Inv c es s)
    {e : Option Event} (hs : Step c s e s') : Inv c (es ++ e.toList) s' := by
  cases hs with
  | sig hs hd => exact h.sig hb.fd1 hs hd
  | @request r i d poll' hm hw hi hd hs =>
    simp only [Option.toList, List.append_nil]
    refine ⟨h.shut, h.frames, h.sent, h.why, ?_⟩
    obtain ⟨l, ds, h1, h2, h3, h4⟩ := h.poll
    refine ⟨_, _, .step h1 hs, ?_, ?_, ?_⟩
    · rw [after_other hs hi]; exact h2
    · rw [after_other hs hi]; exact h3
    · intro j x hj
      rcases List.mem_append.1 hj with hj | hj
      · exact h4 j x hj
      · simp only [List.mem_singleton, Prod.mk.injEq] at hj
        obtain ⟨rfl, rfl⟩ := hj
        exact ⟨fun hc => absurd hc hi, fun hc => absurd hc hd⟩
  | enter hm hw =>
    simp only [Option.toList, List.append_nil]
    exact ⟨h.shut, h.frames, h.sent, h.why, h.poll⟩
  | @error er hm hw =>
    have ha : Arrived (es ++ (if again (.error er) then none else some (Event.failed er)).toList) ↔ Arrived es :=
      arrived_iff (by intro g hg; split at hg <;> cases hg)
    exact ⟨h.shut, h.frames, by rw [ha]; exact h.sent, by rw [ha]; exact h.why, h.poll⟩
  | @events now l hm hw hn hl =>
    have ha : Arrived (es ++ (some (Event.events l)).toList) ↔ Arrived es :=
      arrived_iff (by intro g hg; cases hg)
    exact ⟨h.shut, h.frames, by rw [ha]; exact h.sent, by rw [ha]; exact h.why, h.poll⟩

theorem run_inv {c : Setup} {s₀ s : State} (hb : Begin c s₀) {es : List Event} (hr : Run c s₀ es s) : Inv c es s := by
  induction hr with
  | refl =>
    refine ⟨hb.shut, ?_, ?_, ?_, hb.made⟩
    · rw [hb.quiet]; intro f hf; cases hf
    · rintro ⟨g, hg⟩; cases hg
    · rw [hb.quiet, hb.empty]; rintro (h | h) <;> simp at h
  | step _ hs ih => exact ih.step hb hs

/-! ## The properties -/

/-- What is known of the pipe in the poller. -/
theorem registered {c : Setup} {s₀ s : State} (hb : Begin c s₀) {es : List Event} (hr : Run c s₀ es s) :
    ∃ reg, s.poll.w.reg (c.fresh.obj c.pipe).fd = some (reg, c.data) ∧ reg &&& EPOLLIN ≠ 0 ∧ reg &&& EPOLLET = 0 := by
  obtain ⟨l, ds, h1, h2, h3, h4⟩ := (run_inv hb hr).poll
  obtain ⟨hv, -, -⟩ := (Poll.Epoll.interest hb.laws hb.fresh h1).2.1 c.pipe
  rw [← hv] at h2 h3
  cases hreg : s.poll.w.reg (c.fresh.obj c.pipe).fd with
  | none => rw [hreg] at h2; cases h2
  | some x =>
    obtain ⟨reg, d⟩ := x
    rw [hreg] at h2 h3
    have hd : d = c.data := (h4 _ _ (Poll.Epoll.data_given hb.laws hb.fresh h1 hreg)).1 rfl
    simp only [Poll.Epoll.view, bne_iff_ne, ne_eq, bne_eq_false_iff_eq] at h2 h3
    exact ⟨reg, by rw [hd], h2, h3⟩

theorem ready {c : Setup} {s₀ s : State} (hb : Begin c s₀) {es : List Event} (hr : Run c s₀ es s) (ha : Arrived es)
    (hm : s.sig.exit = none) (hf : s.sig.frames = []) {now : Int → BitVec 32} (hn : Now c s.bytes now) :
    ∃ reg, s.poll.w.reg (c.fresh.obj c.pipe).fd = some (reg, c.data) ∧ reg &&& EPOLLET = 0 ∧
      (reg &&& now (c.fresh.obj c.pipe).fd) &&& EPOLLIN ≠ 0 := by
  obtain ⟨reg, h1, h2, h3⟩ := registered hb hr
  have hpos : 0 < s.bytes := by
    rcases (run_inv hb hr).sent ha hm with h | h
    · exact absurd hf h
    · exact h
  refine ⟨reg, h1, h3, ?_⟩
  have := Poll.Epoll.single_bit reg (now (c.fresh.obj c.pipe).fd) 0
  rw [show BitVec.twoPow 32 0 = EPOLLIN by decide] at this
  exact this.2 ⟨h2, hn.input.2 hpos⟩

/-- **C162**, the loop is told: whatever else happens, if a shutdown signal has arrived, at any time
before `sc_sock_poll_wait` returns events, then the pipe is among them, with input, unless there are as
many other events as there is room for. -/
theorem told {c : Setup} {s₀ s s' : State} (hb : Begin c s₀) {es : List Event} (hr : Run c s₀ es s)
    {l : List (BitVec 32 × Nat)} (hs : Step c s (some (.events l)) s') (ha : Arrived es) :
    (∃ ev, (ev, c.data) ∈ l ∧ (Poll.Epoll.event ev).mask .read = true) ∧ s'.told = true ∨ l.length = 1024 := by
  generalize he : some (Event.events l) = e at hs
  cases hs with
  | @sig e _ hs hd => cases e <;> cases he
  | request => cases he
  | enter => cases he
  | error => split at he <;> cases he
  | @events now l' hm hw hn hl =>
    cases he
    obtain ⟨reg, h1, h2, h3⟩ := ready hb hr ha hm.1 hm.2.1 hn
    have h4 : reg &&& now (c.fresh.obj c.pipe).fd ≠ 0 := by
      intro hc
      rw [hc] at h3
      simp at h3
    rcases hl.all _ _ _ h1 h2 h4 with h | h
    · left
      have h5 : (Poll.Epoll.event (reg &&& now (c.fresh.obj c.pipe).fd)).mask .read = true := by
        rw [Poll.Epoll.event_spec]
        simp only [Bool.or_eq_true, bne_iff_ne]
        exact .inl h3
      refine ⟨⟨_, h, h5⟩, ?_⟩
      exact List.any_eq_true.2 ⟨_, h, by simp [isPipe, h5]⟩
    · exact .inr h

/-- **C162**, waiting does not block: once a shutdown signal has been handled there is always something
to report, for the pipe. -/
theorem never_blocks {c : Setup} {s₀ s : State} (hb : Begin c s₀) {es : List Event} (hr : Run c s₀ es s) (ha : Arrived es)
    (hm : s.sig.exit = none) (hf : s.sig.frames = []) {now : Int → BitVec 32} (hn : Now c s.bytes now) :
    Ready s.poll.w now (c.fresh.obj c.pipe).fd ∧ ¬ Answer s.poll.w now [] := by
  obtain ⟨reg, h1, h2, h3⟩ := ready hb hr ha hm hf hn
  have h4 : reg &&& now (c.fresh.obj c.pipe).fd ≠ 0 := by
    intro hc
    rw [hc] at h3
    simp at h3
  refine ⟨⟨reg, _, h1, h2, h4⟩, fun hl => ?_⟩
  rcases hl.all _ _ _ h1 h2 h4 with h | h <;> simp at h

/-- **C162**, signals do not make waiting fail. -/
theorem not_interrupted {c : Setup} {s s' : State} {er : Int} (hs : Step c s (some (.failed er)) s') : er ≠ EINTR := by
  generalize he : some (Event.failed er) = e at hs
  cases hs with
  | @sig e _ hs hd => cases e <;> cases he
  | request => cases he
  | enter => cases he
  | events => cases he
  | error hm hw =>
    split at he
    · cases he
    · rename_i h
      cases he
      rintro rfl
      exact h (by decide)

/-- **C162**, only then: the loop is told about the pipe only if a shutdown signal has arrived. -/
theorem only_then {c : Setup} {s₀ s : State} (hb : Begin c s₀) {es : List Event} (hr : Run c s₀ es s)
    (ht : s.told = true) : Arrived es := by
  induction hr with
  | refl => rw [hb.told] at ht; cases ht
  | @step s s' e es hr hs ih =>
    by_cases hp : s.told = true
    · exact arrived_mono (ih hp)
    cases hs with
    | sig => exact absurd ht hp
    | request => exact absurd ht hp
    | enter => exact absurd ht hp
    | error => exact absurd ht hp
    | @events now l hm hw hn hl =>
      apply arrived_mono
      obtain ⟨x, hx, hxp⟩ := List.any_eq_true.1 ht
      obtain ⟨ev, d⟩ := x
      simp only [isPipe, Bool.and_eq_true, beq_iff_eq] at hxp
      obtain ⟨hread, rfl⟩ := hxp
      obtain ⟨fd, reg, hreg, hev, -⟩ := hl.true_ _ _ hx
      obtain ⟨q, ds, h1, h2, h3, h4⟩ := (run_inv hb hr).poll
      have hin := Poll.Epoll.interest hb.laws hb.fresh h1
      have : ∃ i, fd = (c.fresh.obj i).fd := by
        apply Classical.byContradiction
        intro hc
        rw [hin.2.2 fd (fun i hi => hc ⟨i, hi⟩)] at hreg
        cases hreg
      obtain ⟨i, rfl⟩ := this
      have hi : i = c.pipe := (h4 _ _ (Poll.Epoll.data_given hb.laws hb.fresh h1 hreg)).2 rfl
      subst hi
      have ht := (Poll.Epoll.told hb.laws hb.fresh h1 (i := c.pipe) (now := now (c.fresh.obj c.pipe).fd) (ev := ev)
        ⟨reg, _, hreg, hev⟩).1.1 hread
      rcases ht with ht | ht
      · exact (run_inv hb hr).why (.inr (hn.input.1 ht.2))
      · exact absurd ht hn.whole

end Verif.Shutdown
