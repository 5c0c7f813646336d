import Verif.Poll.Kqueue

/-! # Properties of the poller for macOS and FreeBSD -/

namespace Verif.Poll.Kqueue

open Spec (Ev Mask norm nothing Req)
open Epoll (Fdt ENOENT EINTR waitLoop waitLoop_eq Interrupted termText after_snoc)

/-! ## Histories -/

structure State where
  w : World
  obj : Nat → Fdt

def State.set (σ : State) (w : World) (i : Nat) (f : Fdt) : State := ⟨w, fun j => if j = i then f else σ.obj j⟩

/-- One call, and the request if it was granted; `d` is the data. -/
inductive Step (e : Env) : State → Option Req → Nat → Nat → State → Prop
  | add {σ i evs d rc w f} : add e evs d (σ.obj i) σ.w = .ok (rc, w, f) →
    Step e σ (if rc = 0 then some (.add i evs.mask) else none) i d (σ.set w i f)
  | del {σ i evs d rc w f} : del e evs d (σ.obj i) σ.w = .ok (rc, w, f) →
    Step e σ (if rc = 0 then some (.del i evs.mask) else none) i d (σ.set w i f)

/-- A history: the requests that were granted, and which object was used with which data. -/
inductive Runs (e : Env) (σ₀ : State) : List Req → List (Nat × Nat) → State → Prop
  | refl : Runs e σ₀ [] [] σ₀
  | step {l ds σ σ' r i d} : Runs e σ₀ l ds σ → Step e σ r i d σ' → Runs e σ₀ (l ++ r.toList) (ds ++ [(i, d)]) σ'

/-- A new poller: nothing is registered, and the objects have different descriptors, which are open. -/
structure Start (σ : State) : Prop where
  reg : ∀ fd g, σ.w.reg fd g = none
  op : ∀ i, (σ.obj i).op = NONE
  wrong : σ.w.wrong = false
  len : σ.w.err.length = 128
  live : ∀ i, σ.w.isOpen (σ.obj i).fd = true
  inj : ∀ i j, (σ.obj i).fd = (σ.obj j).fd → i = j

structure Inv (σ₀ σ : State) (l : List Req) : Prop where
  fd : ∀ i, (σ.obj i).fd = (σ₀.obj i).fd
  good : ∀ i, Good σ.w (σ.obj i)
  mask : ∀ i, (σ.obj i).op.mask = Spec.after l i
  wrong : σ.w.wrong = false
  len : σ.w.err.length = 128
  others : ∀ fd, (∀ i, fd ≠ (σ₀.obj i).fd) → ∀ g, σ.w.reg fd g = none

theorem Inv.step {σ₀ σ : State} (h0 : Start σ₀) {l : List Req} (h : Inv σ₀ σ l) {i : Nat} {w : World} {f : Fdt}
    {r : Option Req} (hf : f.fd = (σ.obj i).fd) (hw : w.wrong = false) (hl : w.err.length = 128) (hg : Good w f)
    (ho : ∀ x, x ≠ (σ.obj i).fd → w.reg x = σ.w.reg x) (hp : w.isOpen = σ.w.isOpen)
    (hm : ∀ j, Spec.after (l ++ r.toList) j = if j = i then f.op.mask else Spec.after l j) :
    Inv σ₀ (σ.set w i f) (l ++ r.toList) := by
  have hne : ∀ j, j ≠ i → (σ.obj j).fd ≠ (σ.obj i).fd := fun j hj hc => hj (h0.inj _ _ (by rw [← h.fd, ← h.fd, hc]))
  refine ⟨?_, ?_, ?_, hw, hl, ?_⟩
  · intro j
    by_cases hj : j = i
    · simp only [State.set, hj, if_true]; rw [hf, h.fd]
    · simp only [State.set, hj, if_false]; exact h.fd j
  · intro j
    by_cases hj : j = i
    · simp only [State.set, hj, if_true]; exact hg
    · simp only [State.set, hj, if_false]
      have := h.good j
      have hr := ho _ (hne j hj)
      exact ⟨by rw [hp]; exact this.live, this.normal, by rw [hr]; exact this.waits⟩
  · intro j
    rw [hm]
    by_cases hj : j = i
    · simp [State.set, hj]
    · simp only [State.set, hj, if_false]; exact h.mask j
  · intro fd hfd g
    show w.reg fd g = none
    rw [ho fd (by rw [h.fd]; exact hfd i)]
    exact h.others fd hfd g

theorem step_ok {e : Env} (he : Laws e) (ht : Tame e) {σ₀ σ σ' : State} (h0 : Start σ₀) {l : List Req} (h : Inv σ₀ σ l)
    {r : Option Req} {i d : Nat} (hs : Step e σ r i d σ') : Inv σ₀ σ' (l ++ r.toList) := by
  cases hs with
  | @add _ evs _ rc w f hr =>
    obtain ⟨rc', w', f', h1, h2, h3, h4, h5, h6, h7⟩ := add_ok he ht (evs := evs) (data := d) h.len (h.good i)
    rw [h1] at hr
    cases hr
    apply h.step h0 h4 (by rw [h2]; exact h.wrong) h3 h5 h6 (add_isOpen h1)
    intro j
    rcases h7 with ⟨rfl, h7, -⟩ | ⟨rfl, h7, -⟩
    · rw [if_pos rfl]
      simp only [Option.toList]
      rw [after_snoc]
      simp only [Spec.apply]
      by_cases hj : j = i
      · rw [if_pos hj, if_pos hj, h7, h.mask]
      · rw [if_neg hj, if_neg hj]
    · rw [if_neg (by decide)]
      simp only [Option.toList, List.append_nil]
      by_cases hj : j = i
      · rw [if_pos hj, h7, h.mask, hj]
      · rw [if_neg hj]
  | @del _ evs _ rc w f hr =>
    obtain ⟨rc', w', f', h1, h2, h3, h4, h5, h6, h7⟩ := del_ok he ht (evs := evs) (data := d) h.len (h.good i)
    rw [h1] at hr
    cases hr
    apply h.step h0 h4 (by rw [h2]; exact h.wrong) h3 h5 h6 (del_isOpen h1)
    intro j
    rcases h7 with ⟨rfl, h7, -⟩ | ⟨rfl, h7, -⟩
    · rw [if_pos rfl]
      simp only [Option.toList]
      rw [after_snoc]
      simp only [Spec.apply]
      by_cases hj : j = i
      · rw [if_pos hj, if_pos hj, h7, h.mask]
      · rw [if_neg hj, if_neg hj]
    · rw [if_neg (by decide)]
      simp only [Option.toList, List.append_nil]
      by_cases hj : j = i
      · rw [if_pos hj, h7, h.mask, hj]
      · rw [if_neg hj]

theorem run_ok {e : Env} (he : Laws e) (ht : Tame e) {σ₀ σ : State} (h0 : Start σ₀) {l : List Req} {ds : List (Nat × Nat)}
    (r : Runs e σ₀ l ds σ) : Inv σ₀ σ l := by
  induction r with
  | refl =>
    refine ⟨fun _ => rfl, ?_, ?_, h0.wrong, h0.len, fun fd _ g => h0.reg fd g⟩
    · intro i
      refine ⟨h0.live i, by rw [h0.op]; unfold Bits.Normal; decide, ?_⟩
      rw [h0.reg, h0.reg, h0.op, mask_none]
      exact ⟨rfl, rfl, (fun _ _ h => nomatch h), (fun _ _ h => nomatch h)⟩
    · intro i; rw [h0.op, mask_none]; rfl
  | step r hs ih => exact step_ok he ht h0 ih hs

/-- **C72** for macOS and FreeBSD, if calls that fail do so at their first change and adding a filter
again modifies all its parameters: the system waits for what was added and not deleted in calls that
succeeded, and for nothing else; no call was wrong. Missing: other failures, see `atomic_violated`, and
systems that keep the flag of a filter, see `keep_violated`. -/
theorem interest_partial {e : Env} (he : Laws e) (ht : Tame e) {σ₀ σ : State} (h0 : Start σ₀) {l : List Req} {ds : List (Nat × Nat)}
    (r : Runs e σ₀ l ds σ) :
    σ.w.wrong = false ∧
    (∀ i, Waits' (σ.w.reg (σ₀.obj i).fd .read) (σ.w.reg (σ₀.obj i).fd .write) (Spec.after l i)) ∧
    (∀ fd, (∀ i, fd ≠ (σ₀.obj i).fd) → ∀ g, σ.w.reg fd g = none) := by
  have h := run_ok he ht h0 r
  refine ⟨h.wrong, ?_, h.others⟩
  intro i
  rw [← h.fd, ← h.mask]
  exact (h.good i).waits

/-- Under the same conditions a call that fails changes nothing. -/
theorem failed_partial {e : Env} (he : Laws e) (ht : Tame e) {σ₀ σ σ' : State} (h0 : Start σ₀) {l : List Req} {ds : List (Nat × Nat)}
    (r : Runs e σ₀ l ds σ) {i d : Nat} (hs : Step e σ none i d σ') :
    σ'.w.reg = σ.w.reg ∧ σ'.obj = σ.obj ∧ ∃ er t, e.call σ.w.n = some (0, er) ∧ CStr (e.strerror er) 0 t ∧
      CStr σ'.w.err 0 ((ctlText t).take 127) := by
  have h := run_ok he ht h0 r
  generalize hr : (none : Option Req) = q at hs
  cases hs with
  | @add _ evs _ rc w f hr' =>
    obtain ⟨rc', w', f', h1, h2, h3, h4, h5, h6, h7⟩ := add_ok he ht (evs := evs) (data := d) h.len (h.good i)
    rw [h1] at hr'
    cases hr'
    rcases h7 with ⟨rfl, h7, -⟩ | ⟨rfl, h7, h8⟩
    · simp at hr
    · refine ⟨h8.reg, ?_, ?_⟩
      · funext j
        by_cases hj : j = i <;> simp [State.set, hj, h7]
      · obtain ⟨t, ht, ht'⟩ := h8.text
        exact ⟨_, t, h8.cause, ht, ht'⟩
  | @del _ evs _ rc w f hr' =>
    obtain ⟨rc', w', f', h1, h2, h3, h4, h5, h6, h7⟩ := del_ok he ht (evs := evs) (data := d) h.len (h.good i)
    rw [h1] at hr'
    cases hr'
    rcases h7 with ⟨rfl, h7, -⟩ | ⟨rfl, h7, h8⟩
    · simp at hr
    · refine ⟨h8.reg, ?_, ?_⟩
      · funext j
        by_cases hj : j = i <;> simp [State.set, hj, h7]
      · obtain ⟨t, ht, ht'⟩ := h8.text
        exact ⟨_, t, h8.cause, ht, ht'⟩

/-! ## Data -/

theorem step_data {e : Env} (he : Laws e) (ht : Tame e) {σ₀ σ σ' : State} {l : List Req} (h : Inv σ₀ σ l) {r : Option Req} {i d : Nat}
    (hs : Step e σ r i d σ') :
    (∀ x, x ≠ (σ₀.obj i).fd → σ'.w.reg x = σ.w.reg x) ∧
    (∀ g c d', σ'.w.reg (σ₀.obj i).fd g = some (c, d') → d' = d ∨ ∃ c', σ.w.reg (σ₀.obj i).fd g = some (c', d')) := by
  rw [← h.fd]
  cases hs with
  | @add _ evs _ rc w f hr =>
    obtain ⟨rc', w', f', h1, h2, h3, h4, h5, h6, h7⟩ := add_ok he ht (evs := evs) (data := d) h.len (h.good i)
    rw [h1] at hr
    cases hr
    refine ⟨h6, ?_⟩
    intro g c d' hd
    replace hd : w.reg (σ.obj i).fd g = some (c, d') := hd
    rcases h7 with ⟨-, -, ⟨-, h7⟩ | ⟨-, h7⟩⟩ | ⟨-, -, h7⟩
    · subst h7; exact .inr ⟨c, hd⟩
    · exact .inl (h7 g c d' hd)
    · rw [h7.reg] at hd
      exact .inr ⟨c, hd⟩
  | @del _ evs _ rc w f hr =>
    obtain ⟨rc', w', f', h1, h2, h3, h4, h5, h6, h7⟩ := del_ok he ht (evs := evs) (data := d) h.len (h.good i)
    rw [h1] at hr
    cases hr
    refine ⟨h6, ?_⟩
    intro g c d' hd
    replace hd : w.reg (σ.obj i).fd g = some (c, d') := hd
    rcases h7 with ⟨-, -, h7⟩ | ⟨-, -, h7⟩
    · exact h7 g c d' hd
    · rw [h7.reg] at hd
      exact .inr ⟨c, hd⟩

/-- **C100** for macOS and FreeBSD and callers that always pass the same data for an object: events come
with that data. Missing: as in `interest_partial`, and calls that give an object different data, see
`data_violated`. -/
theorem data_partial {e : Env} (he : Laws e) (ht : Tame e) {σ₀ σ : State} (h0 : Start σ₀) {l : List Req} {ds : List (Nat × Nat)}
    (r : Runs e σ₀ l ds σ) {D : Nat → Nat} (hD : ∀ p ∈ ds, p.2 = D p.1) {i : Nat} {g : Filter} {c : Bool} {d : Nat}
    (hd : σ.w.reg (σ₀.obj i).fd g = some (c, d)) : d = D i := by
  have : (i, d) ∈ ds := by
    clear hD
    induction r generalizing c d with
    | refl => rw [h0.reg] at hd; cases hd
    | @step l ds σ σ' q j d' r hs ih =>
      obtain ⟨h1, h2⟩ := step_data he ht (run_ok he ht h0 r) hs
      by_cases hj : i = j
      · subst hj
        rcases h2 g c d hd with rfl | ⟨c', h2⟩
        · simp
        · exact List.mem_append_left _ (ih h2)
      · rw [h1 _ (fun hc => hj (h0.inj _ _ hc))] at hd
        exact List.mem_append_left _ (ih hd)
  exact hD _ this

/-! ## Violations -/

/-- The system never fails. -/
def calm : Env := ⟨fun _ => [79, 75] ++ [0], fun _ => none, false⟩

theorem calm_laws : Laws calm := ⟨fun _ => ⟨[79, 75], CStr.self (by decide)⟩⟩
theorem calm_tame : Tame calm := ⟨(fun _ _ _ h => nomatch h), rfl⟩

/-- The first call fails at its second change. -/
def half : Env := ⟨fun _ => [66, 65, 68] ++ [0], fun n => if n = 0 then some (1, 12) else none, false⟩

theorem half_laws : Laws half := ⟨fun _ => ⟨[66, 65, 68], CStr.self (by decide)⟩⟩

/-- The second call fails at its second change. -/
def half2 : Env := ⟨fun _ => [66, 65, 68] ++ [0], fun n => if n = 1 then some (1, 12) else none, false⟩

/-- The flag of a filter cannot be changed. -/
def sticky : Env := ⟨fun _ => [79, 75] ++ [0], fun _ => none, true⟩

/-- Object `i` has descriptor `i + 3`. -/
def fresh : State := ⟨⟨fun _ _ => none, fun _ => true, 0, 0, false, List.replicate 128 0⟩, fun i => ⟨(i : Int) + 3, NONE⟩⟩

theorem fresh_start : Start fresh := ⟨fun _ _ => rfl, fun _ => rfl, rfl, rfl, fun _ => rfl, fun i j h => by simp only [fresh] at h; omega⟩

/-- Calls in a row for object 0: return codes, filters for input and output, whether a call was wrong -/
def several : List (Fdt → World → Res (Int × World × Fdt)) → Fdt → World →
    Option (List Int × Option (Bool × Nat) × Option (Bool × Nat) × Bool)
  | [], _, w => some ([], w.reg 3 .read, w.reg 3 .write, w.wrong)
  | a :: as, f, w =>
    match a f w with
    | .ok (r, w, f) => (several as f w).map fun q => (r :: q.1, q.2)
    | .ub => none

/-- **C72 is violated** when a call fails at its second change: adding input and output fails, but output
is waited for from then on, and deleting it succeeds and does nothing. -/
theorem atomic_violated : several [add half (READ ||| WRITE) 7, del half (READ ||| WRITE) 7] (fresh.obj 0) fresh.w =
    some ([-1, 0], none, some (false, 7), false) := by decide +kernel

/-- ... deleting both fails after the first, and from then on deleting both fails for ever, as the first
is no longer there. -/
theorem stuck_violated : several [add half2 (READ ||| WRITE) 7, del half2 (READ ||| WRITE) 7, del half2 (READ ||| WRITE) 7]
    (fresh.obj 0) fresh.w = some ([0, -1, -1], none, some (false, 7), true) := by decide +kernel

/-- ... and where the flag cannot be changed, edge triggering is not had by adding it later. -/
theorem keep_violated : several [add sticky READ 7, add sticky EDGE 7] (fresh.obj 0) fresh.w =
    some ([0, 0], some (false, 7), none, false) := by decide +kernel

/-- **C100 is violated** as on Linux. -/
theorem data_violated : several [add calm READ 7, add calm READ 8] (fresh.obj 0) fresh.w =
    some ([0, 0], some (false, 7), none, false) := by decide +kernel

example : several [add calm (READ ||| EDGE) 7, add calm WRITE 8, del calm EDGE 9, del calm READ 10] (fresh.obj 0) fresh.w =
    some ([0, 0, 0, 0], none, some (false, 9), false) := by decide +kernel

/-- A history that meets the hypotheses of the theorems -/
example : ∃ l ds σ, Runs calm fresh l ds σ ∧ (σ.w.reg 3 .write).isSome = true ∧ (σ.w.reg 4 .read).isSome = true := by
  obtain ⟨rc, w, f, h1, -, -, -, -, -, h4⟩ := add_ok calm_laws calm_tame (evs := WRITE) (data := 1) fresh_start.len
    (run_ok calm_laws calm_tame fresh_start .refl |>.good 0)
  have r1 := Runs.step .refl (Step.add h1)
  obtain ⟨rc', w', f', h2, -, -, -, -, -, h3⟩ := add_ok calm_laws calm_tame (evs := READ ||| EDGE) (data := 2)
    (run_ok calm_laws calm_tame fresh_start r1).len ((run_ok calm_laws calm_tame fresh_start r1).good 1)
  have r2 := Runs.step r1 (Step.add h2)
  have e1 : rc = 0 := by
    rcases h4 with ⟨h4, -⟩ | ⟨-, -, h4⟩
    · exact h4
    · exact absurd h4.cause (by simp [calm])
  have e2 : rc' = 0 := by
    rcases h3 with ⟨h3, -⟩ | ⟨-, -, h3⟩
    · exact h3
    · exact absurd h3.cause (by simp [calm])
  subst e1
  subst e2
  have hi := interest_partial calm_laws calm_tame fresh_start r2
  refine ⟨_, _, _, r2, ?_, ?_⟩
  · have := (hi.2.1 0).write
    simp only [fresh] at this ⊢
    rw [show ((0 : Nat) : Int) + 3 = 3 from rfl] at this
    rw [this]
    decide +kernel
  · have := (hi.2.1 1).read
    simp only [fresh] at this ⊢
    rw [show ((1 : Nat) : Int) + 3 = 4 from rfl] at this
    rw [this]
    decide +kernel

/-! ## Results and waiting -/

/-- What an application is told of what the system reported: input or output, and both at the end of the
stream. -/
theorem event_spec (f : Filter) (eof : Bool) :
    (event f eof).mask = fun x => match x with
      | .read => decide (f = .read) || eof
      | .write => decide (f = .write) || eof
      | .edge => false := by
  funext x
  cases x <;> cases f <;> cases eof <;> decide

/-- Under the conditions of `interest_partial`, the application is told of input only if it waits for
it, or at the end of the stream; the system reports filters that are registered. -/
theorem told_partial {e : Env} (he : Laws e) (ht : Tame e) {σ₀ σ : State} (h0 : Start σ₀) {l : List Req} {ds : List (Nat × Nat)}
    (r : Runs e σ₀ l ds σ) {i : Nat} {g : Filter} {eof : Bool} (hg : (σ.w.reg (σ₀.obj i).fd g).isSome = true) :
    ((event g eof).mask .read = true → Spec.after l i .read = true ∨ eof = true) ∧
    ((event g eof).mask .write = true → Spec.after l i .write = true ∨ eof = true) := by
  have h := (interest_partial he ht h0 r).2.1 i
  rw [event_spec, ← h.read, ← h.write]
  constructor
  · intro hh
    simp only [Bool.or_eq_true, decide_eq_true_eq] at hh
    rcases hh with rfl | hh
    · exact .inl hg
    · exact .inr hh
  · intro hh
    simp only [Bool.or_eq_true, decide_eq_true_eq] at hh
    rcases hh with rfl | hh
    · exact .inl hg
    · exact .inr hh

/-- The `struct timespec` of `sc_sock_poll_wait`, socket/sc_sock.c:1497-1501; division in C rounds
towards zero. -/
def timespec (timeout : Int) : Option (Int × Int) :=
  if timeout ≥ 0 then some (timeout.tdiv 1000, timeout.tmod 1000 * 1000000) else none

/-- It is the timeout, in range, and none if negative. -/
theorem timespec_spec (t : Int) :
    (t < 0 ∧ timespec t = none) ∨
    (0 ≤ t ∧ ∃ s ns, timespec t = some (s, ns) ∧ 0 ≤ s ∧ 0 ≤ ns ∧ ns < 1000000000 ∧ s * 1000000000 + ns = t * 1000000) := by
  unfold timespec
  by_cases h : t ≥ 0
  · right
    rw [if_pos h]
    refine ⟨h, _, _, rfl, ?_⟩
    rw [Int.tdiv_eq_ediv_of_nonneg h, Int.tmod_eq_emod_of_nonneg h]
    omega
  · left
    rw [if_neg h]
    exact ⟨by omega, rfl⟩

/-- What the n-th `kevent` without changes does: an error or the filters and their ends it stores with
the data, and how long it takes -/
structure KWaits where
  result : Nat → Option (Int × Int) → Except Int (List (BitVec 32 × Nat))
  took : Nat → Option (Int × Int) → Nat

/-- At most as many results as there is room for, and no longer than the timeout. -/
structure KWaitLaws (s : KWaits) : Prop where
  count : ∀ n t l, s.result n t = .ok l → l.length ≤ 1024
  time : ∀ n a b, 0 ≤ a → 0 ≤ b → (s.took n (some (a, b)) : Int) * 1000000 ≤ a * 1000000000 + b
  idle : ∀ n t, s.result n t = .ok [] → ∃ a b, t = some (a, b) ∧ (s.took n t : Int) * 1000000 = a * 1000000000 + b

/-- The calls as those of `Epoll.waitLoop`, with the timeout converted for each: the loop of
`sc_sock_poll_wait`, socket/sc_sock.c:1496-1502. The reported events are opaque here. -/
def KWaits.loop (s : KWaits) : Epoll.Waits := ⟨fun n t => s.result n (timespec t), fun n t => s.took n (timespec t)⟩

theorem loop_laws {s : KWaits} (h : KWaitLaws s) : Epoll.WaitLaws s.loop := by
  refine ⟨fun n t l hr => h.count _ _ _ hr, ?_, ?_⟩
  · intro n t ht
    rcases timespec_spec t with ⟨h1, -⟩ | ⟨-, a, b, h1, h2, h3, h4, h5⟩
    · omega
    · have := h.time n a b h2 h3
      simp only [KWaits.loop]
      rw [h1]
      omega
  · intro n t hr
    obtain ⟨a, b, h1, h2⟩ := h.idle _ _ hr
    rcases timespec_spec t with ⟨-, h3⟩ | ⟨h0, a', b', h3, -, -, -, h5⟩
    · rw [h3] at h1; cases h1
    · rw [h3] at h1
      cases h1
      refine ⟨h0, ?_⟩
      simp only [KWaits.loop]
      omega

/-- `sc_sock_poll_wait`, socket/sc_sock.c:1485-1509 -/
def wait (e : Env) (s : KWaits) (init : Bool) (timeout : Int) (fuel : Nat) (w : World) :
    Res (Option (Int × World × List (BitVec 32 × Nat) × Nat)) :=
  if !init then do
    let w ← setErr termText w
    .ok (some (-1, w, [], 0))
  else
    match waitLoop s.loop timeout fuel 0 0 with
    | none => .ok none
    | some (.ok l, t) => .ok (some (l.length, w, l, t))
    | some (.error er, t) => do
      let m ← cstr (e.strerror er) 0
      let w ← setErr (ctlText m) { w with errno := er }
      .ok (some (-1, w, [], t))

/-- **C101**, waiting, for macOS and FreeBSD: as `Epoll.wait_spec`. -/
theorem wait_spec {e : Env} (he : Laws e) {s : KWaits} (hs : KWaitLaws s) {timeout : Int} {k : Nat}
    (hk : Interrupted s.loop timeout k) {fuel : Nat} (hf : k < fuel) {w : World} (hl : w.err.length = 128) :
    ∃ rc w' evs t, wait e s true timeout fuel w = .ok (some (rc, w', evs, t)) ∧ w'.reg = w.reg ∧
      (s.result k (timespec timeout) = .ok evs ∧ rc = evs.length ∧ rc ≤ 1024 ∧ w' = w ∨
       ∃ er m, s.result k (timespec timeout) = .error er ∧ er ≠ EINTR ∧ rc = -1 ∧ CStr (e.strerror er) 0 m ∧
        CStr w'.err 0 ((ctlText m).take 127)) ∧
      (k = 0 → (0 ≤ timeout → (t : Int) ≤ timeout) ∧ (rc = 0 → (t : Int) = timeout)) := by
  obtain ⟨t, h1, -, h2⟩ := waitLoop_eq hk fuel 0 0 (by omega) (by omega)
  have hl' := loop_laws hs
  unfold wait
  rw [if_neg (by decide), h1]
  cases hr : s.loop.result k timeout with
  | ok l =>
    refine ⟨_, w, l, t, rfl, rfl, .inl ⟨hr, rfl, by have := hs.count _ _ _ hr; omega, rfl⟩, ?_⟩
    intro h0
    subst h0
    have ht := h2 rfl
    refine ⟨fun hp => by have := hl'.time 0 _ hp; omega, fun hz => ?_⟩
    have : l = [] := List.eq_nil_of_length_eq_zero (by omega)
    subst this
    have := (hl'.idle _ _ hr).2
    omega
  | error er =>
    obtain ⟨m, hm⟩ := he.texts er
    simp only
    rw [cstr_eq hm]
    simp only [Res.ok_bind]
    obtain ⟨err, h3, h4, h5⟩ := setErr_ok (ctlText_nonzero hm.nonzero) (w := { w with errno := er }) hl
    rw [h3]
    refine ⟨-1, _, [], t, rfl, rfl, .inr ⟨er, m, hr, fun hc => hk.last (by rw [hr, hc]), rfl, hm, h5⟩, ?_⟩
    intro h0
    subst h0
    have ht := h2 rfl
    exact ⟨fun hp => by have := hl'.time 0 _ hp; omega, fun hz => by omega⟩

/-- Without an array of events the wait fails with a text. -/
theorem wait_term (e : Env) (s : KWaits) (timeout : Int) (fuel : Nat) {w : World} (hl : w.err.length = 128) :
    ∃ w', wait e s false timeout fuel w = .ok (some (-1, w', [], 0)) ∧ w'.reg = w.reg ∧ CStr w'.err 0 termText := by
  unfold wait
  rw [if_pos (by decide)]
  obtain ⟨err, h1, -, h3⟩ := setErr_ok (t := termText) (by decide) hl
  rw [h1]
  exact ⟨_, rfl, rfl, by rw [List.take_of_length_le (by decide)] at h3; exact h3⟩

/-- A system that reports one event after a signal -/
def signals : KWaits := ⟨fun n _ => if n < 1 then .error EINTR else .ok [(1, 7)], fun _ _ => 0⟩

theorem signals_laws : KWaitLaws signals := by
  refine ⟨?_, ?_, ?_⟩
  · intro n t l h
    simp only [signals] at h
    split at h <;> cases h
    simp
  · intro n a b h1 h2; simp only [signals]; omega
  · intro n t h
    simp only [signals] at h
    split at h <;> cases h

example : Interrupted signals.loop 2500 1 := ⟨by intro n h; simp [signals, KWaits.loop]; omega, by simp [signals, KWaits.loop]⟩
example : timespec 2500 = some (2, 500000000) := by decide
example : timespec (-1) = none := by decide

end Verif.Poll.Kqueue
