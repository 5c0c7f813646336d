import Verif.Poll.Epoll

/-!
# Model and properties of socket/sc_sock.c: data, results, waiting and resources of the Linux poller
-/

namespace Verif.Poll.Epoll

open Spec (Ev Mask norm nothing Req)

/-! ## Data -/

theorem step_data {e : Env} (he : Laws e) {σ₀ σ σ' : State} {l : List Req} (h : Inv σ₀ σ l) {r : Option Req} {i d : Nat}
    (hs : Step e σ r i d σ') :
    (∀ x, x ≠ (σ₀.obj i).fd → σ'.w.reg x = σ.w.reg x) ∧
    (∀ ev d', σ'.w.reg (σ₀.obj i).fd = some (ev, d') → d' = d ∨ σ.w.reg (σ₀.obj i).fd = some (ev, d')) := by
  rw [← h.fd]
  cases hs with
  | @add _ evs _ rc w f hr =>
    obtain ⟨rc', w', f', h1, h2, h3, h4, h5, h6, h7⟩ := add_ok he (evs := evs) (data := d) h.len (h.good i)
    rw [h1] at hr
    cases hr
    refine ⟨h6, ?_⟩
    intro ev d' hd
    rcases h7 with ⟨-, -, ⟨-, h7⟩ | ⟨-, ev', h7⟩⟩ | ⟨-, -, h7⟩
    · subst h7; exact .inr hd
    · replace hd : w.reg (σ.obj i).fd = some (ev, d') := hd
      rw [h7] at hd
      cases hd
      exact .inl rfl
    · replace hd : w.reg (σ.obj i).fd = some (ev, d') := hd
      rw [h7.reg] at hd
      exact .inr hd
  | @del _ evs _ rc w f hr =>
    obtain ⟨rc', w', f', h1, h2, h3, h4, h5, h6, h7⟩ := del_ok he (evs := evs) (data := d) h.len (h.good i)
    rw [h1] at hr
    cases hr
    refine ⟨h6, ?_⟩
    intro ev d' hd
    replace hd : w.reg (σ.obj i).fd = some (ev, d') := hd
    rcases h7 with ⟨-, -, ⟨-, h7⟩ | ⟨-, h7⟩⟩ | ⟨-, -, h7⟩
    · subst h7; exact .inr hd
    · by_cases hn : f.op = NONE
      · have := h5.none.1 hn
        rw [h4] at this
        rw [this] at hd
        cases hd
      · obtain ⟨ev', h7⟩ := h7 hn
        rw [h7] at hd
        cases hd
        exact .inl rfl
    · rw [h7.reg] at hd
      exact .inr hd

/-- Data that is delivered for an object was given in a call for that object. -/
theorem data_given {e : Env} (he : Laws e) {σ₀ σ : State} (h0 : Start σ₀) {l : List Req} {ds : List (Nat × Nat)} (r : Runs e σ₀ l ds σ)
    {i : Nat} {ev : BitVec 32} {d : Nat} (hd : σ.w.reg (σ₀.obj i).fd = some (ev, d)) : (i, d) ∈ ds := by
  induction r generalizing ev d with
  | refl => rw [h0.reg] at hd; cases hd
  | @step l ds σ σ' q j d' r hs ih =>
    obtain ⟨h1, h2⟩ := step_data he (run_ok he h0 r) hs
    by_cases hj : i = j
    · subst hj
      rcases h2 ev d hd with rfl | h2
      · simp
      · exact List.mem_append_left _ (ih h2)
    · rw [h1 _ (fun hc => hj (h0.inj _ _ hc))] at hd
      exact List.mem_append_left _ (ih hd)

/-- **C100** for callers that always pass the same data for an object: events come with that data.
Missing: calls that give an object different data, see `data_violated`. -/
theorem data_partial {e : Env} (he : Laws e) {σ₀ σ : State} (h0 : Start σ₀) {l : List Req} {ds : List (Nat × Nat)} (r : Runs e σ₀ l ds σ)
    {D : Nat → Nat} (hD : ∀ p ∈ ds, p.2 = D p.1) {i : Nat} {ev : BitVec 32} {d : Nat}
    (hd : σ.w.reg (σ₀.obj i).fd = some (ev, d)) : d = D i :=
  hD _ (data_given he h0 r hd)

/-- The system never fails. -/
def calm : Env := ⟨fun _ => [79, 75] ++ [0], fun _ => none⟩

theorem calm_laws : Laws calm := ⟨fun _ => ⟨[79, 75], CStr.self (by decide)⟩⟩

/-- The second call fails. -/
def bad : Env := ⟨fun _ => [66, 65, 68] ++ [0], fun n => if n = 1 then some 12 else none⟩

theorem bad_laws : Laws bad := ⟨fun _ => ⟨[66, 65, 68], CStr.self (by decide)⟩⟩

/-- Object `i` has descriptor `i + 3`. -/
def fresh : State := ⟨⟨fun _ => none, fun _ => true, 0, 0, false, List.replicate 128 0⟩, fun i => ⟨(i : Int) + 3, NONE⟩⟩

theorem fresh_start : Start fresh := ⟨fun _ => rfl, fun _ => rfl, rfl, rfl, fun _ => rfl, fun i j h => by simp only [fresh] at h; omega⟩

/-- Two calls in a row for object 0, as return codes, registration and mask -/
def two (a b : Fdt → World → Res (Int × World × Fdt)) : Option (Int × Int × Option (BitVec 32 × Nat) × Bits) :=
  match a (fresh.obj 0) fresh.w with
  | .ok (r1, w, f) =>
    match b f w with
    | .ok (r2, w, f) => some (r1, r2, w.reg 3, f.op)
    | .ub => none
  | .ub => none

/-- **C100 is violated**: data given with events that are waited for already is not kept. -/
theorem data_violated : two (add calm READ 7) (add calm READ 8) = some (0, 0, some (0x2019#32, 7), READ) := by
  decide +kernel

/-- ... and deleting one of several events replaces the data. -/
example : two (add calm (READ ||| WRITE) 7) (del calm WRITE 0) = some (0, 0, some (0x2019#32, 0), READ) := by decide +kernel

/-- "Exactly the union of what was added" **is violated** for edge triggering: what is added by itself is
forgotten. -/
theorem edge_violated : two (add calm EDGE 7) (add calm READ 7) = some (0, 0, some (0x2019#32, 7), READ) := by decide +kernel

example : two (add bad READ 7) (add bad WRITE 7) = some (0, -1, some (0x2019#32, 7), READ) := by decide +kernel
example : two (add bad READ 7) (del bad READ 7) = some (0, -1, some (0x2019#32, 7), READ) := by decide +kernel
example : two (add calm (READ ||| EDGE) 7) (add calm WRITE 7) = some (0, 0, some (0x8000201d#32, 7), READ ||| WRITE ||| EDGE) := by
  decide +kernel
example : two (add calm (READ ||| EDGE) 7) (del calm READ 7) = some (0, 0, none, NONE) := by decide +kernel

/-- A history that meets the hypotheses of the theorems -/
example : ∃ l ds σ, Runs calm fresh l ds σ ∧ view (σ.w.reg 3) .write = true ∧ view (σ.w.reg 4) .edge = true := by
  obtain ⟨rc, w, f, h1, -, -, -, -, -, h4⟩ := add_ok calm_laws (evs := WRITE) (data := 1) fresh_start.len (run_ok calm_laws fresh_start .refl |>.good 0)
  have r1 := Runs.step .refl (Step.add h1)
  obtain ⟨rc', w', f', h2, -, -, -, -, -, h3⟩ := add_ok calm_laws (evs := READ ||| EDGE) (data := 2) (run_ok calm_laws fresh_start r1).len
    ((run_ok calm_laws fresh_start r1).good 1)
  have r2 := Runs.step r1 (Step.add h2)
  have e1 : rc = 0 := by
    rcases h4 with ⟨h4, -⟩ | ⟨-, -, h4⟩
    · exact h4
    · exact absurd h4.cause (by simp [calm])
  have e2 : rc' = 0 := by
    rcases h3 with ⟨h3, -⟩ | ⟨-, -, h3⟩
    · exact h3
    · exact absurd h3.cause (by simp [calm])
  subst e1
  subst e2
  have hi := interest calm_laws fresh_start r2
  refine ⟨_, _, _, r2, ?_, ?_⟩
  · have := (hi.2.1 0).1
    simp only [fresh] at this ⊢
    rw [show ((0 : Nat) : Int) + 3 = 3 from rfl] at this
    rw [this]
    decide +kernel
  · have := (hi.2.1 1).1
    simp only [fresh] at this ⊢
    rw [show ((1 : Nat) : Int) + 3 = 4 from rfl] at this
    rw [this]
    decide +kernel

/-! ## Results -/

/-- What an application is told of what the system reported: input or output if that was reported, and
both on an error or a hangup. -/
theorem event_spec (ev : BitVec 32) :
    let alert := ev &&& EPOLLHUP != 0 || ev &&& EPOLLRDHUP != 0 || ev &&& EPOLLERR != 0
    (event ev).mask = fun x => match x with
      | .read => ev &&& EPOLLIN != 0 || alert
      | .write => ev &&& EPOLLOUT != 0 || alert
      | .edge => false := by
  simp only
  have hor : ∀ a b c : BitVec 32, (ev &&& (a ||| b ||| c) ≠ 0) ↔ (ev &&& a != 0 || ev &&& b != 0 || ev &&& c != 0) = true := by
    intro a b c
    simp only [BitVec.and_or_distrib_left, ne_eq, bne_iff_ne, Bool.or_eq_true]
    grind
  funext x
  unfold event
  simp only [hor]
  generalize (ev &&& EPOLLHUP != 0 || ev &&& EPOLLRDHUP != 0 || ev &&& EPOLLERR != 0) = al
  have h1 : (ev &&& EPOLLIN ≠ 0) ↔ (ev &&& EPOLLIN != 0) = true := by simp
  have h2 : (ev &&& EPOLLOUT ≠ 0) ↔ (ev &&& EPOLLOUT != 0) = true := by simp
  simp only [h1, h2]
  generalize (ev &&& EPOLLIN != 0) = a
  generalize (ev &&& EPOLLOUT != 0) = b
  cases x <;> cases al <;> cases a <;> cases b <;> decide

/-- The system reports what is registered and is the case; `now` is the state of the descriptor. -/
def Reports (r : Option (BitVec 32 × Nat)) (now ev : BitVec 32) : Prop :=
  ∃ reg d, r = some (reg, d) ∧ ev = reg &&& now

/-- Something is wrong with the connection, or its end was reached. -/
def Broken (now : BitVec 32) : Prop := now &&& EPOLLHUP ≠ 0 ∨ now &&& EPOLLRDHUP ≠ 0 ∨ now &&& EPOLLERR ≠ 0

theorem single_bit (a now : BitVec 32) (k : Nat) : (a &&& now) &&& BitVec.twoPow 32 k ≠ 0 ↔
    a &&& BitVec.twoPow 32 k ≠ 0 ∧ now &&& BitVec.twoPow 32 k ≠ 0 := by
  have key : ∀ x : BitVec 32, x &&& BitVec.twoPow 32 k ≠ 0 ↔ x.getLsbD k = true := by
    intro x
    constructor
    · intro h
      by_cases hk : x.getLsbD k = true
      · exact hk
      · exfalso
        apply h
        apply BitVec.eq_of_getLsbD_eq
        intro i hi
        simp only [BitVec.getLsbD_and, BitVec.getLsbD_twoPow]
        by_cases hik : k = i
        · subst hik; simp [hk]
        · simp [hik]
    · intro h hc
      have hlt : k < 32 := BitVec.lt_of_getLsbD h
      have := congrArg (fun y : BitVec 32 => y.getLsbD k) hc
      rw [BitVec.getLsbD_eq_getElem hlt] at h
      simp [hlt, h] at this
  rw [key, key, key]
  simp

/-- **C101**, what is told: an application that waits for input of an object is told so when there is
some; it is told of input that it waits for only if there is some, or the connection is broken; and the
same for output. -/
theorem told {e : Env} (he : Laws e) {σ₀ σ : State} (h0 : Start σ₀) {l : List Req} {ds : List (Nat × Nat)} (r : Runs e σ₀ l ds σ)
    {i : Nat} {now ev : BitVec 32} (hr : Reports (σ.w.reg (σ₀.obj i).fd) now ev) :
    ((event ev).mask .read = true ↔ (Spec.after l i .read = true ∧ now &&& EPOLLIN ≠ 0) ∨ Broken now) ∧
    ((event ev).mask .write = true ↔ (Spec.after l i .write = true ∧ now &&& EPOLLOUT ≠ 0) ∨ Broken now) := by
  obtain ⟨h1, h2, -⟩ := (interest he h0 r).2.1 i
  obtain ⟨reg, d, h3, rfl⟩ := hr
  obtain ⟨h5, h6, h7⟩ := h2 _ _ h3
  rw [← h1, h3, event_spec]
  have q1 := single_bit reg now 0
  have q2 := single_bit reg now 2
  have q3 := single_bit reg now 3
  have q4 := single_bit reg now 4
  have q5 := single_bit reg now 13
  rw [show BitVec.twoPow 32 0 = EPOLLIN by decide] at q1
  rw [show BitVec.twoPow 32 2 = EPOLLOUT by decide] at q2
  rw [show BitVec.twoPow 32 3 = EPOLLERR by decide] at q3
  rw [show BitVec.twoPow 32 4 = EPOLLHUP by decide] at q4
  rw [show BitVec.twoPow 32 13 = EPOLLRDHUP by decide] at q5
  simp only [view, Bool.or_eq_true, bne_iff_ne, q1, q2, q3, q4, q5, Broken]
  grind

/-! ## Waiting -/

/-- What the n-th `epoll_wait` with a timeout does: an error or what it stores, and how long it takes. -/
structure Waits where
  result : Nat → Int → Except Int (List (BitVec 32 × Nat))
  took : Nat → Int → Nat

/-- epoll_wait(2): at most as many results as there is room for, and no longer than the timeout, which
is without bound if negative; without a result or an error the whole timeout passes. -/
structure WaitLaws (s : Waits) : Prop where
  count : ∀ n t l, s.result n t = .ok l → l.length ≤ 1024
  time : ∀ n (t : Int), 0 ≤ t → (s.took n t : Int) ≤ t
  idle : ∀ n (t : Int), s.result n t = .ok [] → 0 ≤ t ∧ (s.took n t : Int) = t

/-- The loop of `sc_sock_poll_wait`, socket/sc_sock.c:1309-1311; `t` is the time spent, and `fuel`
bounds the calls. -/
def waitLoop (s : Waits) (timeout : Int) : Nat → Nat → Nat → Option (Except Int (List (BitVec 32 × Nat)) × Nat)
  | 0, _, _ => none
  | fuel + 1, n, t =>
    match s.result n timeout with
    | .error er => if er = EINTR then waitLoop s timeout fuel (n + 1) (t + s.took n timeout) else some (.error er, t + s.took n timeout)
    | .ok l => some (.ok l, t + s.took n timeout)

/-- `"epoll_wait : %s "` -/
def waitText (m : List UInt8) : List UInt8 := [101, 112, 111, 108, 108, 95, 119, 97, 105, 116, 32, 58, 32] ++ m ++ [32]

/-- `"poll : sc_sock_poll is not initialized or already terminated"` -/
def termText : List UInt8 :=
  [112, 111, 108, 108, 32, 58, 32, 115, 99, 95, 115, 111, 99, 107, 95, 112, 111, 108, 108, 32, 105, 115, 32, 110, 111, 116, 32, 105,
   110, 105, 116, 105, 97, 108, 105, 122, 101, 100, 32, 111, 114, 32, 97, 108, 114, 101, 97, 100, 121, 32, 116, 101, 114, 109, 105,
   110, 97, 116, 101, 100]

/-- `sc_sock_poll_wait`, socket/sc_sock.c:1298-1317. `init` is whether there is an array of events;
what the system stored there is the third component. -/
def wait (e : Env) (s : Waits) (init : Bool) (timeout : Int) (fuel : Nat) (w : World) :
    Res (Option (Int × World × List (BitVec 32 × Nat) × Nat)) :=
  if !init then do
    let w ← setErr termText w
    .ok (some (-1, w, [], 0))
  else
    match waitLoop s timeout fuel 0 0 with
    | none => .ok none
    | some (.ok l, t) => .ok (some (l.length, w, l, t))
    | some (.error er, t) => do
      let m ← cstr (e.strerror er) 0
      let w ← setErr (waitText m) { w with errno := er }
      .ok (some (-1, w, [], t))

/-- The first `k` calls are interrupted, the next is not. -/
structure Interrupted (s : Waits) (timeout : Int) (k : Nat) : Prop where
  before : ∀ n, n < k → s.result n timeout = .error EINTR
  last : s.result k timeout ≠ .error EINTR

theorem waitLoop_eq {s : Waits} {timeout : Int} {k : Nat} (h : Interrupted s timeout k) :
    ∀ fuel n t, n ≤ k → k < n + fuel → ∃ t', waitLoop s timeout fuel n t = some (s.result k timeout, t') ∧
      ((t' : Int) ≤ t + (k - n) * timeout + s.took k timeout ∨ (∃ n, (timeout : Int) < s.took n timeout)) ∧
      (n = k → t' = t + s.took k timeout) := by
  intro fuel
  induction fuel with
  | zero => intro n t h1 h2; omega
  | succ fuel ih =>
    intro n t h1 h2
    unfold waitLoop
    by_cases hn : n = k
    · subst hn
      cases hr : s.result n timeout with
      | ok l => exact ⟨_, rfl, .inl (by simp), fun _ => rfl⟩
      | error er =>
        have : er ≠ EINTR := fun hc => h.last (by rw [hr, hc])
        simp only
        rw [if_neg this]
        exact ⟨_, rfl, .inl (by simp), fun _ => rfl⟩
    · rw [h.before n (by omega)]
      simp only [if_true]
      obtain ⟨t', h3, h4, -⟩ := ih (n + 1) (t + s.took n timeout) (by omega) (by omega)
      refine ⟨t', h3, ?_, fun hc => absurd hc hn⟩
      rcases h4 with h4 | h4
      · by_cases hlt : (timeout : Int) < s.took n timeout
        · exact .inr ⟨n, hlt⟩
        · left
          push_cast at h4
          have : ((k : Int) - n) * timeout = ((k : Int) - (n + 1)) * timeout + timeout := by
            rw [show ((k : Int) - n) = ((k : Int) - (n + 1)) + 1 by omega, Int.add_mul, Int.one_mul]
          omega
      · exact .inr h4

/-- **C101**, waiting: the result is that of the first call that is not interrupted; interruptions
never show, there are at most 1024 results, and the text of an error names its cause. -/
theorem wait_spec {e : Env} (he : Laws e) {s : Waits} (hs : WaitLaws s) {timeout : Int} {k : Nat} (hk : Interrupted s timeout k)
    {fuel : Nat} (hf : k < fuel) {w : World} (hl : w.err.length = 128) :
    ∃ rc w' evs t, wait e s true timeout fuel w = .ok (some (rc, w', evs, t)) ∧ w'.reg = w.reg ∧
      (s.result k timeout = .ok evs ∧ rc = evs.length ∧ rc ≤ 1024 ∧ w' = w ∨
       ∃ er m, s.result k timeout = .error er ∧ er ≠ EINTR ∧ rc = -1 ∧ CStr (e.strerror er) 0 m ∧
        CStr w'.err 0 ((waitText m).take 127)) := by
  obtain ⟨t, h1, -, -⟩ := waitLoop_eq hk fuel 0 0 (by omega) (by omega)
  unfold wait
  rw [if_neg (by decide), h1]
  cases hr : s.result k timeout with
  | ok l => exact ⟨_, w, l, t, rfl, rfl, .inl ⟨rfl, rfl, by have := hs.count _ _ _ hr; omega, rfl⟩⟩
  | error er =>
    obtain ⟨m, hm⟩ := he.texts er
    simp only
    rw [cstr_eq hm]
    simp only [Res.ok_bind]
    obtain ⟨err, h2, h3, h4⟩ := setErr_ok (t := waitText m) (w := { w with errno := er }) (by
      intro b hb
      simp only [waitText, List.mem_append] at hb
      rcases hb with (hb | hb) | hb
      · revert b; decide
      · exact hm.nonzero b hb
      · revert b; decide) hl
    rw [h2]
    exact ⟨-1, _, [], t, rfl, rfl, .inr ⟨er, m, rfl, fun hc => hk.last (by rw [hr, hc]), rfl, hm, h4⟩⟩

/-- A wait goes on as long as it is interrupted. -/
theorem wait_forever {e : Env} {s : Waits} {timeout : Int} (h : ∀ n, s.result n timeout = .error EINTR) (fuel : Nat) (w : World) :
    wait e s true timeout fuel w = .ok none := by
  have : ∀ n t, waitLoop s timeout fuel n t = none := by
    induction fuel with
    | zero => intro n t; rfl
    | succ fuel ih => intro n t; unfold waitLoop; rw [h]; simp only [if_true]; exact ih _ _
  unfold wait
  rw [if_neg (by decide), this]

/-- Without an array of events the wait fails with a text. -/
theorem wait_term (e : Env) (s : Waits) (timeout : Int) (fuel : Nat) {w : World} (hl : w.err.length = 128) :
    ∃ w', wait e s false timeout fuel w = .ok (some (-1, w', [], 0)) ∧ w'.reg = w.reg ∧ CStr w'.err 0 termText := by
  unfold wait
  rw [if_pos (by decide)]
  obtain ⟨err, h1, -, h3⟩ := setErr_ok (t := termText) (by decide) hl
  rw [h1]
  exact ⟨_, rfl, rfl, by rw [List.take_of_length_le (by decide)] at h3; exact h3⟩

/-- A wait takes no longer than its timeout, and exactly that without a result, **if it is not
interrupted**. Missing: interruptions, each of which starts the timeout again, see `time_violated`. -/
theorem time_partial {e : Env} (he : Laws e) {s : Waits} (hs : WaitLaws s) {timeout : Int} (h : s.result 0 timeout ≠ .error EINTR)
    {fuel : Nat} (hf : 0 < fuel) {w : World} (hl : w.err.length = 128) :
    ∃ rc w' evs t, wait e s true timeout fuel w = .ok (some (rc, w', evs, t)) ∧ (0 ≤ timeout → (t : Int) ≤ timeout) ∧
      (rc = 0 → (t : Int) = timeout) := by
  obtain ⟨t, h1, -, h2⟩ := waitLoop_eq (k := 0) ⟨by simp, h⟩ fuel 0 0 (by omega) (by omega)
  have ht : t = s.took 0 timeout := by have := h2 rfl; omega
  unfold wait
  rw [if_neg (by decide), h1]
  cases hr : s.result 0 timeout with
  | ok l =>
    refine ⟨_, w, l, t, rfl, fun h0 => by rw [ht]; exact hs.time _ _ h0, ?_⟩
    intro h0
    have : l = [] := List.eq_nil_of_length_eq_zero (by omega)
    subst this
    rw [ht]
    exact (hs.idle _ _ hr).2
  | error er =>
    obtain ⟨m, hm⟩ := he.texts er
    simp only
    rw [cstr_eq hm]
    simp only [Res.ok_bind]
    obtain ⟨err, h2, h3, h4⟩ := setErr_ok (t := waitText m) (w := { w with errno := er }) (by
      intro b hb
      simp only [waitText, List.mem_append] at hb
      rcases hb with (hb | hb) | hb
      · revert b; decide
      · exact hm.nonzero b hb
      · revert b; decide) hl
    rw [h2]
    exact ⟨-1, _, [], t, rfl, fun h0 => by rw [ht]; exact hs.time _ _ h0, by intro hc; omega⟩

/-- Two signals, each near the end of the timeout -/
def signals : Waits := ⟨fun n t => if n < 2 then .error EINTR else if 0 ≤ t then .ok [] else .ok [(1, 7)], fun _ t => t.toNat⟩

theorem signals_laws : WaitLaws signals := by
  refine ⟨?_, ?_, ?_⟩
  · intro n t l h
    simp only [signals] at h
    split at h
    · cases h
    · split at h
      · cases h; simp
      · cases h; simp
  · intro n t h; simp only [signals]; omega
  · intro n t h
    simp only [signals] at h ⊢
    split at h
    · cases h
    · split at h
      · omega
      · cases h

/-- **The bound on time is violated** by signals: a wait of 10 ms takes 30 ms. -/
theorem time_violated : (match wait calm signals true 10 9 fresh.w with
    | .ok (some (rc, _, _, t)) => some (rc, t)
    | _ => none) = some (0, 30) := by decide +kernel

example : Interrupted signals 10 2 := ⟨by intro n h; simp [signals, h], by simp [signals]⟩

/-! ## Resources -/

/-- Memory and descriptors in use -/
structure Res' where
  heap : List Nat
  fds : List Int
  nblk : Nat
  errno : Int
  n : Nat
  err : List UInt8

/-- Of `struct sc_sock_poll` -/
structure Poll where
  events : Option Nat
  fds : Int
  deriving DecidableEq

/-- What the environment decides about a poller -/
structure PEnv extends Env where
  malloc : Nat → Bool
  newfd : Nat → Int

/-- New descriptors are new, and no text contains a `%`, which would be a conversion as texts are used
as formats. -/
structure PLaws (e : PEnv) : Prop extends Laws e.toEnv where
  plain : ∀ er, ∀ b ∈ e.strerror er, b ≠ 37

/-- `sc_sock_poll_set_err` with a text for a format, socket/sc_sock.c:1102-1112 -/
def setFmt (fmt : List UInt8) (s : Res') : Res Res' := do
  cassert (!fmt.contains 37)
  let err ← pollErr fmt s.err
  .ok { s with err := err }

/-- `free` -/
def free (p : Option Nat) (s : Res') : Res Res' :=
  match p with
  | none => .ok s
  | some b => if b ∈ s.heap then .ok { s with heap := s.heap.erase b } else .ub

/-- The error path of `sc_sock_poll_init`, socket/sc_sock.c:1135-1142 -/
def initErr (e : PEnv) (events : Option Nat) (s : Res') : Res (Int × Poll × Res') := do
  let m ← cstr (e.strerror s.errno) 0
  let s ← setFmt m s
  let s ← free events s
  .ok (-1, ⟨none, -1⟩, s)

/-- `sc_sock_poll_init`, socket/sc_sock.c:1116-1143, and 1321-1347 with `kqueue` for `epoll_create1` -/
def pollInit (e : PEnv) (s : Res') : Res (Int × Poll × Res') :=
  let s := { s with n := s.n + 1 }
  if !e.malloc s.n then initErr e none { s with errno := ENOMEM }
  else
    let b := s.nblk
    let s := { s with heap := b :: s.heap, nblk := b + 1 }
    match e.call s.n with
    | some er => initErr e (some b) { s with errno := er }
    | none => .ok (0, ⟨some b, e.newfd s.n⟩, { s with fds := e.newfd s.n :: s.fds })

/-- `sc_sock_poll_term`, socket/sc_sock.c:1145-1164, and the same again 1349-1368. A `close` that fails has released the
descriptor. -/
def pollTerm (e : PEnv) (p : Poll) (s : Res') : Res (Int × Poll × Res') :=
  match p.events with
  | none => .ok (0, p, s)
  | some b => do
    let s ← free (some b) s
    let s := { s with n := s.n + 1, fds := s.fds.erase p.fds }
    match e.call s.n with
    | none => .ok (0, ⟨none, -1⟩, s)
    | some er => do
      let m ← cstr (e.strerror er) 0
      let s ← setFmt m { s with errno := er }
      .ok (-1, ⟨none, -1⟩, s)

theorem setFmt_ok {t : List UInt8} (ht : ∀ b ∈ t, b ≠ 0) (hp : ∀ b ∈ t, b ≠ 37) {s : Res'} (hl : s.err.length = 128) :
    ∃ err, setFmt t s = .ok { s with err := err } ∧ err.length = 128 ∧ CStr err 0 (t.take 127) := by
  obtain ⟨err, h1, h2, h3⟩ := pollErr_ok ht hl
  refine ⟨err, ?_, h2, h3⟩
  unfold setFmt
  have : (!t.contains 37) = true := by
    simp only [Bool.not_eq_true', List.contains_eq_mem, decide_eq_false_iff_not]
    exact fun hc => hp 37 hc rfl
  simp only [this, cassert, if_true, Res.ok_bind, h1]

/-- What a poller holds, on top of `heap` and `fds` -/
def Holds (p : Poll) (heap : List Nat) (fds : List Int) (s : Res') : Prop :=
  match p.events with
  | none => s.heap = heap ∧ s.fds = fds
  | some b => s.heap = b :: heap ∧ s.fds = p.fds :: fds

theorem text_plain {e : PEnv} (he : PLaws e) {er : Int} {t : List UInt8} (ht : CStr (e.strerror er) 0 t) : ∀ b ∈ t, b ≠ 37 := by
  intro b hb
  obtain ⟨i, hi, rfl⟩ := List.getElem_of_mem hb
  have := ht.bytes i hi
  rw [Nat.zero_add] at this
  exact he.plain er _ (List.mem_of_getElem? this)

/-- `sc_sock_poll_init`: on success the poller holds its memory and descriptor; on failure nothing is
held, and the text names the cause. -/
theorem pollInit_ok {e : PEnv} (he : PLaws e) {s : Res'} (hl : s.err.length = 128) :
    ∃ rc p s', pollInit e s = .ok (rc, p, s') ∧ Holds p s.heap s.fds s' ∧ s'.err.length = 128 ∧
      (rc = 0 ∧ p.events.isSome ∨ rc = -1 ∧ p = ⟨none, -1⟩ ∧
        ∃ t, CStr (e.strerror s'.errno) 0 t ∧ CStr s'.err 0 (t.take 127) ∧
          (s'.errno = ENOMEM ∨ e.call (s.n + 1) = some s'.errno)) := by
  unfold pollInit
  simp only
  by_cases hm : e.malloc (s.n + 1) = true
  · rw [if_neg (by simp [hm])]
    cases hc : e.call (s.n + 1) with
    | none => exact ⟨0, _, _, rfl, ⟨rfl, rfl⟩, hl, .inl ⟨rfl, rfl⟩⟩
    | some er =>
      simp only
      unfold initErr
      obtain ⟨t, ht⟩ := he.texts er
      rw [cstr_eq ht]
      simp only [Res.ok_bind]
      obtain ⟨err, h1, h2, h3⟩ := setFmt_ok ht.nonzero (text_plain he ht)
        (s := { s with heap := s.nblk :: s.heap, nblk := s.nblk + 1, errno := er, n := s.n + 1 }) hl
      rw [h1]
      simp only [Res.ok_bind, free]
      rw [if_pos (by simp)]
      simp only [Res.ok_bind]
      exact ⟨-1, _, _, rfl, ⟨by simp, rfl⟩, h2, .inr ⟨rfl, rfl, t, ht, h3, .inr rfl⟩⟩
  · rw [if_pos (by simp [hm])]
    unfold initErr
    obtain ⟨t, ht⟩ := he.texts ENOMEM
    simp only
    rw [cstr_eq ht]
    simp only [Res.ok_bind]
    obtain ⟨err, h1, h2, h3⟩ := setFmt_ok ht.nonzero (text_plain he ht)
      (s := { s with errno := ENOMEM, n := s.n + 1 }) hl
    rw [h1]
    simp only [Res.ok_bind, free]
    exact ⟨-1, _, _, rfl, ⟨rfl, rfl⟩, h2, .inr ⟨rfl, rfl, t, ht, h3, .inl rfl⟩⟩

/-- `sc_sock_poll_term` gives everything back, whatever `close` says, and may be called again. -/
theorem pollTerm_ok {e : PEnv} (he : PLaws e) {p : Poll} {s : Res'} {heap : List Nat} {fds : List Int} (hl : s.err.length = 128)
    (hp : Holds p heap fds s) :
    ∃ rc p' s', pollTerm e p s = .ok (rc, p', s') ∧ p'.events = none ∧ s'.heap = heap ∧ s'.fds = fds ∧ s'.err.length = 128 := by
  unfold pollTerm
  unfold Holds at hp
  cases hev : p.events with
  | none =>
    rw [hev] at hp
    exact ⟨0, p, s, rfl, hev, hp.1, hp.2, hl⟩
  | some b =>
    rw [hev] at hp
    simp only [free]
    rw [if_pos (by rw [hp.1]; simp)]
    simp only [Res.ok_bind]
    cases hc : e.call (s.n + 1) with
    | none => exact ⟨0, _, _, rfl, rfl, by simp [hp.1], by simp [hp.2], hl⟩
    | some er =>
      simp only
      obtain ⟨t, ht⟩ := he.texts er
      rw [cstr_eq ht]
      simp only [Res.ok_bind]
      obtain ⟨err, h1, h2, h3⟩ := setFmt_ok ht.nonzero (text_plain he ht)
        (s := { s with heap := s.heap.erase b, errno := er, n := s.n + 1, fds := s.fds.erase p.fds }) hl
      rw [h1]
      exact ⟨-1, _, _, rfl, rfl, by simp [hp.1], by simp [hp.2], h2⟩

/-- The life of a poller: it is created when there is none, and destroyed any number of times. -/
inductive Life (e : PEnv) (s₀ : Res') : Poll → Res' → Prop
  | start : Life e s₀ ⟨none, -1⟩ s₀
  | init {p s rc p' s'} : Life e s₀ p s → p.events = none → pollInit e s = .ok (rc, p', s') → Life e s₀ p' s'
  | term {p s rc p' s'} : Life e s₀ p s → pollTerm e p s = .ok (rc, p', s') → Life e s₀ p' s'

/-- **C101**, resources: a poller that was destroyed, or could not be created, holds nothing. -/
theorem no_leak {e : PEnv} (he : PLaws e) {s₀ : Res'} (hl : s₀.err.length = 128) {p : Poll} {s : Res'} (h : Life e s₀ p s) :
    Holds p s₀.heap s₀.fds s ∧ s.err.length = 128 := by
  induction h with
  | start => exact ⟨⟨rfl, rfl⟩, hl⟩
  | @init p s rc p' s' h hp hr ih =>
    obtain ⟨_, _, _, h1, h2, h3, -⟩ := pollInit_ok he ih.2
    rw [h1] at hr
    cases hr
    have := ih.1
    unfold Holds at this
    rw [hp] at this
    rw [← this.1, ← this.2]
    exact ⟨h2, h3⟩
  | @term p s rc p' s' h hr ih =>
    obtain ⟨_, _, _, h1, h2, h3, h4, h5⟩ := pollTerm_ok he ih.2 ih.1
    rw [h1] at hr
    cases hr
    refine ⟨?_, h5⟩
    unfold Holds
    rw [h2]
    exact ⟨h3, h4⟩

/-- The descriptor cannot be had; then it can, and closing fails. -/
def penv : PEnv := ⟨⟨fun _ => [66, 65, 68] ++ [0], fun n => if n = 1 ∨ n = 3 then some 24 else none⟩, fun _ => true, fun n => n + 10⟩

theorem penv_laws : PLaws penv := ⟨⟨fun _ => ⟨[66, 65, 68], CStr.self (by decide)⟩⟩, fun _ => by simp only [penv]; decide⟩

/-- What is in use after each of: a failed creation, a creation, a destruction -/
def life : Option (List (Int × Poll × List Nat × List Int)) :=
  match pollInit penv ⟨[], [], 5, 0, 0, List.replicate 128 0⟩ with
  | .ok (rc, p, s) => (match pollInit penv s with
    | .ok (rc2, p2, s2) => (match pollTerm penv p2 s2 with
      | .ok (rc3, p3, s3) => some [(rc, p, s.heap, s.fds), (rc2, p2, s2.heap, s2.fds), (rc3, p3, s3.heap, s3.fds)]
      | .ub => none)
    | .ub => none)
  | .ub => none

example : life = some [(-1, ⟨none, -1⟩, [], []), (0, ⟨some 6, 12⟩, [6], [12]), (-1, ⟨none, -1⟩, [], [])] := by decide +kernel

end Verif.Poll.Epoll
