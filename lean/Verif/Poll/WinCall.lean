import Verif.Poll.WinDefects

/-!
# Calls for pollers on Windows that fail

What a wait returns that cannot begin, what one returns whose `WSAPoll` failed (C101), and what a request leaves whose
wakeup could not be written (C102).
-/

namespace Verif.Poll.Win

open Spec (Req)

/-- How `sc_sock_poll_wait` begins: it returns at once, or goes on to ask the system. -/
inductive Began where
  | returned (rc : Int) (res : List (Bits × Nat)) (s : Sys)
  | asks (s : Sys)

/-- `sc_sock_poll_wait` up to `WSAPoll`, socket/sc_sock.c:2023-2045. Without the texts. -/
def beginWait (s : Sys) : Res Began :=
  if s.p.events = none then .ok (.returned (-1) [] s)
  else if s.p.polling then .ok (.returned (-1) [] s)
  else if s.p.remaining > 0 then do
    cassert (s.p.offset ≥ 1)
    let (res, p) ← fill s.p
    .ok (.returned res.length res { s with p := p })
  else .ok (.asks { s with p := { s.p with polling := true } })

/-- `sc_sock_poll_wait` after `WSAPoll` failed with `er`, socket/sc_sock.c:2082-2107; `10038` is `WSAENOTSOCK`. -/
def failWait (e : Env) (er : Nat) (s : Sys) : Res (Int × List (Bits × Nat) × Sys) := do
  cassert s.p.polling
  if er = 10038 ∧ 0 < s.p.ops.length then finish e s
  else .ok (-1, [], { s with p := { s.p with polling := false } })

/-- A request with the writing of the wakeup, socket/sc_sock.c:1674-1761: `wrote` is whether the byte could be written. -/
def submitCall (e : Env) (wrote : Bool) (add : Bool) (evs : Bits) (data : Nat) (i : Nat) (s : Sys) : Res (Int × Sys) := do
  let (rc, wake, s) ← submit e add evs data i s
  if rc = 0 ∧ wake = true ∧ wrote = false then .ok (-1, s) else .ok (rc, s)

/-- **C101, on Windows.** In every history a wait has a defined outcome when it begins. It is refused, with −1 and nothing
changed, exactly if another thread waits; it tells at once what is left to tell from the wait before, without asking the
system; otherwise it asks the system, after which requests are deferred. -/
theorem beginWait_spec {e fd₀ G l w} (h : History e fd₀ G l w) :
    (w.ph ≠ .idle → beginWait w.s = .ok (.returned (-1) [] w.s)) ∧
    (w.ph = .idle → 0 < w.s.p.remaining → ∃ res p, fill w.s.p = .ok (res, p) ∧ res.length ≤ 1024 ∧
      beginWait w.s = .ok (.returned res.length res { w.s with p := p })) ∧
    (w.ph = .idle → w.s.p.remaining = 0 → ∃ s, beginWait w.s = .ok (.asks s) ∧ s.p.polling = true ∧ s.obj = w.s.obj ∧
      s.p.events = w.s.p.events) := by
  have hw := h.inv
  obtain ⟨ev, k, wf⟩ := hw.inv.wf
  have hev : w.s.p.events ≠ none := by rw [wf.events]; exact fun hc => by cases hc
  refine ⟨fun hp => ?_, fun hp hr => ?_, fun hp hr => ?_⟩
  · have hpol : w.s.p.polling = true := by
      cases hb : w.s.p.polling with
      | true => rfl
      | false => exact absurd (hw.phase.2 hb) hp
    rw [beginWait, if_neg hev, if_pos hpol]
  · have hpol := hw.phase.1 hp
    obtain ⟨b1, b2⟩ := hw.busy hp hr
    obtain ⟨out, p', stop, g, g2⟩ := fill_ok hw.inv.wf hw.off hw.rem b1
    refine ⟨out, p', g, ?_, ?_⟩
    · exact g2.len
    · rw [beginWait, if_neg hev, if_neg (by rw [hpol]; decide), if_pos hr]
      simp only [cassert, decide_eq_true b2, if_true, g, Res.ok_bind]
  · have hpol := hw.phase.1 hp
    exact ⟨{ w.s with p := { w.s.p with polling := true } },
      by rw [beginWait, if_neg hev, if_neg (by rw [hpol]; decide), if_neg (by omega)], rfl, rfl, rfl⟩

/-- A wait whose `WSAPoll` failed returns −1 if no request is pending, or if the reason is not a socket that was closed;
nothing but the mark that a thread polls is changed, and the next wait asks the system again. -/
theorem failWait_spec {e fd₀ G l w} (h : History e fd₀ G l w) (hp : w.ph = .back false) {er : Nat}
    (her : er ≠ 10038 ∨ w.s.p.ops = []) :
    ∃ s, failWait e er w.s = .ok (-1, [], s) ∧ s = { w.s with p := { w.s.p with polling := false } } ∧
      ∃ s', beginWait s = .ok (.asks s') := by
  have hw := h.inv
  have hpol : w.s.p.polling = true := by
    cases hb : w.s.p.polling with
    | true => rfl
    | false => have := hw.phase.2 hb; rw [hp] at this; cases this
  obtain ⟨ev, k, wf⟩ := hw.inv.wf
  have hev : w.s.p.events ≠ none := by rw [wf.events]; exact fun hc => by cases hc
  have hrem := hw.zero (.inr (.inl hp))
  refine ⟨_, ?_, rfl, { w.s with p := { w.s.p with polling := true } }, ?_⟩
  rotate_left
  · rw [beginWait, if_neg hev, if_neg (by simp), if_neg (by show ¬ w.s.p.remaining > 0; omega)]
  · unfold failWait
    rw [if_neg (by
      rcases her with her | her
      · exact fun hc => her hc.1
      · rw [her]; exact fun hc => absurd hc.2 (by decide))]
    simp only [cassert, hpol, if_true, Res.ok_bind]

/-- A wait whose `WSAPoll` failed because a socket had been closed, while one request or more was pending, returns 0 and tells nothing: the
requests are granted, none is pending then, every object is registered for what was requested last, and no thread polls. -/
theorem failWait_closed {e fd₀ G l w} (h : History e fd₀ G l w) (hp : w.ph = .back false) (hops : w.s.p.ops ≠ [])
    (hroom : w.s.p.count + w.s.p.ops.length ≤ 524288) :
    ∃ s, failWait e 10038 w.s = .ok (0, [], s) ∧ s.p.ops = [] ∧ s.p.polling = false ∧ ∀ i, (s.obj i).op.mask = Spec.after l i := by
  have hw := h.inv
  have hpol : w.s.p.polling = true := by
    cases hb : w.s.p.polling with
    | true => rfl
    | false => have := hw.phase.2 hb; rw [hp] at this; cases this
  obtain ⟨res, s, g, hw', p₁, stop, fin⟩ := finish_ok h.alloc hw hp hroom
  have hres := fin.nothing rfl
  subst hres
  refine ⟨s, ?_, hw'.idle (hw'.phase.1 rfl), hw'.phase.1 rfl, ?_⟩
  · unfold failWait
    rw [if_pos ⟨rfl, List.length_pos_iff.2 hops⟩, g]
    simp only [cassert, hpol, if_true, Res.ok_bind]
    rfl
  · intro i
    refine fin.inv.mask i ?_
    cases hi : (s.obj i).opIndex with
    | none => rfl
    | some m => obtain ⟨k, o, _, hk, _⟩ := fin.inv.index i m hi; simp at hk

/-- While requests are pending no further request wakes the poller. -/
theorem submit_quiet {e : Env} {add : Bool} {evs : Bits} {d i : Nat} {s s' : Sys} {rc : Int} {wake : Bool} (hops : s.p.ops ≠ [])
    (h : submit e add evs d i s = .ok (rc, wake, s')) : wake = false := by
  unfold submit at h
  simp only at h
  cases hi : (s.obj i).opIndex with
  | some k =>
    simp only [opSlot, hi] at h
    obtain ⟨o, -, h⟩ := Res.bind_eq_ok.1 h
    split at h <;> (obtain ⟨ops, -, h⟩ := Res.bind_eq_ok.1 h; cases h; simp)
  | none =>
    have hl : s.p.ops.length ≠ 0 := fun hc => hops (List.length_eq_zero_iff.1 hc)
    simp only [opSlot, hi] at h
    split at h
    · cases h; rfl
    · next index p _ heq =>
      have hidx : index = s.p.ops.length := by
        split at heq
        · cases heq
        · simp only [Prod.mk.injEq, Option.some.injEq] at heq
          exact heq.1.1.symm
      obtain ⟨o, -, h⟩ := Res.bind_eq_ok.1 h
      split at h <;> (obtain ⟨ops, -, h⟩ := Res.bind_eq_ok.1 h; cases h; simp [hidx, hl])

/-- **C102 is violated** if the byte that wakes the poller cannot be written: the request is reported to have failed, but
it is pending and will be granted; and none of the requests that follow while it is pending tries to wake the poller
again. -/
theorem lost_wakeup_violated {e : Env} {add : Bool} {evs : Bits} {d i : Nat} {s : Sys} (hops : s.p.ops = []) (hcap : 0 < s.p.opsCap)
    (hi : (s.obj i).opIndex = none) :
    ∃ s', submitCall e false add evs d i s = .ok (-1, s') ∧ submitCall e true add evs d i s = .ok (0, s') ∧ s'.p.ops.length = 1 ∧
      ∀ e' add' evs' d' j rc wake s'', submit e' add' evs' d' j s' = .ok (rc, wake, s'') → wake = false := by
  have hs : ∃ s', submit e add evs d i s = .ok (0, true, s') ∧ s'.p.ops.length = 1 := by
    have hne : ¬ (0 = s.p.opsCap) := by omega
    unfold submit
    simp only [opSlot, hi, hops, List.length_nil, if_neg hne, List.nil_append]
    rw [rd_lt (by simp)]
    simp only [Res.ok_bind, List.getElem_cons_zero]
    split
    · rw [wr_lt (by simp)]
      exact ⟨_, rfl, rfl⟩
    · rw [wr_lt (by simp)]
      exact ⟨_, rfl, rfl⟩
  obtain ⟨s', h1, h2⟩ := hs
  refine ⟨s', by simp only [submitCall, h1, Res.ok_bind]; rfl, by simp only [submitCall, h1, Res.ok_bind]; rfl, h2, ?_⟩
  intro e' add' evs' d' j rc wake s'' h
  exact submit_quiet (fun hc => by rw [hc] at h2; cases h2) h

/-- The history of `example_history`: the poller is idle with nothing left to tell, so that a wait asks the system; one that
comes while it does is refused. -/
example : ∃ s, beginWait s₆ = .ok (.asks s) ∧ s.p.polling = true ∧ beginWait s = .ok (.returned (-1) [] s) := by
  obtain ⟨s, h1, h2, -, h4⟩ := (beginWait_spec example_history.1).2.2 rfl (by with_unfolding_all rfl)
  refine ⟨s, h1, h2, ?_⟩
  rw [beginWait, if_neg (by rw [h4]; exact fun hc => by cases hc), if_pos h2]

/-- A poller that has room for requests, another thread polls, and the wakeup is lost: object 2 asks in vain. -/
example : (do
    let s : Sys := { enter sys₀ with p := { (enter sys₀).p with opsCap := 16 } }
    let (rc, s) ← submitCall plenty false true READ 5 1 s
    let (rc', wake, s) ← submit plenty true READ 6 2 s
    Res.ok (rc, rc', wake, s.p.ops.length)) = .ok (-1, 0, false, 2) := by with_unfolding_all rfl

end Verif.Poll.Win
