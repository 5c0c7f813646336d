import Verif.Poll.WinProps

/-!
# What the poller for Windows does not do, and a history as an example
-/

namespace Verif.Poll.Win

open Table (dataInner)
open Spec (Req)

/-- Memory is always there. -/
def plenty : Env := ⟨fun _ => true, fun _ => true⟩

/-- Descriptors of objects -/
def fds : Nat → Int := fun j => 3 + j

/-- The poller as it starts -/
def sys₀ : Sys := ⟨first 3, fun j => if j = 0 then ⟨3, READ, some (dataInner 0), none⟩ else ⟨fds j, NONE, none, none⟩⟩

example : start fds = .ok ⟨sys₀, .idle, 0, 0⟩ := by with_unfolding_all rfl

/-- `sc_sock_poll_wait` up to `WSAPoll`, socket/sc_sock.c:2044-2045 -/
def enter (s : Sys) : Sys := { s with p := { s.p with polling := true } }

/-- Deregistering an object that is not registered does nothing, unless another thread polls: then the poller follows a null
pointer when it returns. -/
theorem del_violated : (do
    let (_, _, s) ← del plenty READ 0 1 (enter sys₀)
    let (_, _, s) ← finish plenty s
    Res.ok s.p) = .ub := by with_unfolding_all rfl

/-- The same happens if an object is registered and deregistered before the poller returns... -/
theorem add_del_violated : (do
    let (_, _, s) ← add plenty READ 0 1 (enter sys₀)
    let (_, _, s) ← del plenty READ 0 1 s
    let (_, _, s) ← finish plenty s
    Res.ok s.p) = .ub := by with_unfolding_all rfl

/-- ... and if it is registered for changes of nothing. -/
theorem add_edge_violated : (do
    let (_, _, s) ← add plenty EDGE 0 1 (enter sys₀)
    let (_, _, s) ← finish plenty s
    Res.ok s.p) = .ub := by with_unfolding_all rfl

/-- None of them is undefined when nobody polls. -/
theorem idle_fine :
    (do
      let (_, _, s) ← del plenty READ 0 1 sys₀
      Res.ok (s.obj 1).op) = .ok NONE ∧
    (do
      let (_, _, s) ← add plenty READ 0 1 sys₀
      let (_, _, s) ← del plenty READ 0 1 s
      Res.ok (s.obj 1).op) = .ok NONE ∧
    (do
      let (_, _, s) ← add plenty EDGE 0 1 sys₀
      Res.ok (s.obj 1).op) = .ok NONE := by
  refine ⟨?_, ?_, ?_⟩ <;> with_unfolding_all rfl

/-- An event is told of which the object was deregistered before the wait returned. -/
theorem stale_violated : (do
    let (_, _, s) ← add plenty (READ ||| WRITE) 7 1 sys₀
    let (rc, _, s) ← del plenty WRITE 7 1 (enter s)
    let p ← polled (fun i => if i = 1 then ⟨false, true, false, false⟩ else Rev.zero) s.p
    let (_, res, s) ← finish plenty { s with p := { p with remaining := 1 } }
    Res.ok (rc, res, (s.obj 1).op)) = .ok (0, [(WRITE, 7)], READ) := by with_unfolding_all rfl

/-- Requests change places if `WSAPoll` fails while one is pending: the object stays registered although the last request
deregisters it. -/
theorem order_violated : (do
    let (rc, _, s) ← add plenty READ 7 1 (enter sys₀)
    let s := { s with p := { s.p with polling := false } }
    let (rc', _, s) ← del plenty READ 7 1 s
    let (rc'', _, s) ← finish plenty (enter s)
    Res.ok (rc, rc', rc'', (s.obj 1).op)) = .ok (0, 0, 0, READ) := by with_unfolding_all rfl

/-- Deregistering `EDGE` and registering it again lets events be told again, but not if another thread polls: the two requests
become one that does nothing. -/
theorem edge_violated :
    let told := do
      let (_, _, s) ← add plenty (READ ||| EDGE) 7 1 sys₀
      let p ← polled (fun i => if i = 1 then ⟨true, false, false, false⟩ else Rev.zero) (enter s).p
      let (_, _, s) ← finish plenty { s with p := { p with remaining := 1 } }
      Res.ok s
    (do
      let s ← told
      let (_, _, s) ← del plenty EDGE 7 1 s
      let (_, _, s) ← add plenty EDGE 7 1 s
      let c ← getCell s.p (dataInner 1)
      Res.ok ((s.obj 1).op, c.edge)) = .ok (READ ||| EDGE, EDGE) ∧
    (do
      let s ← told
      let (_, _, s) ← del plenty EDGE 7 1 (enter s)
      let (_, _, s) ← add plenty EDGE 7 1 s
      let (_, _, s) ← finish plenty s
      let c ← getCell s.p (dataInner 1)
      Res.ok ((s.obj 1).op, c.edge)) = .ok (READ ||| EDGE, READ ||| EDGE) := by
  refine ⟨?_, ?_⟩ <;> with_unfolding_all rfl

/-- Registering objects 1 to `n` -/
def addMany (e : Env) : Nat → Sys → Res Sys
  | 0, s => .ok s
  | n + 1, s => do
    let s ← addMany e n s
    let (_, _, s) ← add e READ 0 (n + 1) s
    .ok s

/-- The first allocation, of the array, succeeds; the second, of the chunk, fails. -/
def scarce : Env := ⟨fun n => n == 0, fun _ => true⟩

/-- If memory for entries runs out, registering an object fails, and the next wait uses memory that was released. -/
theorem memory_violated : ∃ s err s', addMany scarce 15 sys₀ = .ok s ∧ add scarce READ 0 16 s = .ok (-1, err, s') ∧
    polled (fun _ => Rev.zero) s'.p = .ub := by
  refine ⟨_, _, _, by with_unfolding_all rfl, by with_unfolding_all rfl, by with_unfolding_all rfl⟩

/-- If memory runs out while the poller does pending requests, a request that was granted is lost: the wait says
-1, the object has no events, and nothing is pending. -/
theorem granted_violated : (do
    let s ← addMany plenty 15 sys₀
    let (rc, _, s) ← add plenty READ 0 16 (enter s)
    let (rc', _, s) ← finish ⟨fun _ => false, fun _ => true⟩ s
    Res.ok (rc, rc', (s.obj 16).op, (s.obj 16).opIndex, s.p.ops)) = .ok (0, -1, NONE, none, []) := by with_unfolding_all rfl

/-- The time given to `WSAPoll`, socket/sc_sock.c:2021 -/
def waitTime (timeout : Int) : Int := if timeout = -1 then 16 else timeout

/-- To wait without limit, the header says, is to give -1; the wait ends after 16 ms. -/
theorem waitTime_violated : waitTime (-1) = 16 ∧ ¬ ∀ t : Int, (t = -1 → waitTime t < 0) := ⟨rfl, fun h => absurd (h (-1) rfl) (by decide)⟩

theorem waitTime_partial (t : Int) (h : t ≠ -1) : waitTime t = t := by
  unfold waitTime; rw [if_neg h]

/-! ## An example

Object 1 is registered, a thread polls, another one registers object 2 and deregisters 1, and writes to the wakeup pipe. -/

/-- Any data -/
def any : Nat → Nat → Prop := fun _ _ => True

def history : List Req := start₀ ++ [.add 1 READ.mask] ++ [.add 2 (READ ||| EDGE).mask] ++ [.del 1 READ.mask]

/-- The state that is left -/
def out (r : Res (Int × Bool × Sys)) : Sys :=
  match r with
  | .ok (_, _, s) => s
  | .ub => sys₀

def s₁ : Sys := out (add plenty READ 5 1 sys₀)
def s₂ : Sys := out (add plenty (READ ||| EDGE) 6 2 (enter s₁))
def s₃ : Sys := out (del plenty READ 5 1 s₂)

/-- There is input for the wakeup pipe, and for object 1. -/
def revs : Nat → Rev := fun i => if i ≤ 1 then ⟨true, false, false, false⟩ else Rev.zero

def p₄ : P := match polled revs s₃.p with
  | .ok p => p
  | .ub => blank

def p₅ : P := match eventInner 0 { p₄ with remaining := 2 } with
  | .ok (_, p) => p
  | .ub => blank

def s₆ : Sys := match finish plenty ⟨p₅, s₃.obj⟩ with
  | .ok (_, _, s) => s
  | .ub => sys₀

/-- The events of object 1 are not told. -/
example : (do
    let (rc, res, _) ← finish plenty ⟨p₅, s₃.obj⟩
    Res.ok (rc, res)) = .ok (0, []) := by with_unfolding_all rfl

theorem example_runs : Runs plenty any ⟨sys₀, .idle, 0, 0⟩ start₀ (history ++ []) ⟨s₆, .idle, 0, 0⟩ := by
  have r0 : Runs plenty any ⟨sys₀, .idle, 0, 0⟩ start₀ start₀ ⟨sys₀, .idle, 0, 0⟩ := .refl
  have r1 := r0.step (.add (w := ⟨sys₀, .idle, 0, 0⟩) (i := 1) (evs := READ) (d := 5) (rc := 0) (wake := false) (s := s₁)
    ⟨by decide, (fun hc => by cases hc), fun _ _ _ => by decide⟩ trivial (by with_unfolding_all rfl))
  have r2 := r1.step (.enter rfl (by show (0 : Int) ≤ 0; decide))
  have r3 := r2.step (.add (w := ⟨enter s₁, .inPoll, 0, 0⟩) (i := 2) (evs := READ ||| EDGE) (d := 6) (rc := 0) (wake := true) (s := s₂)
    ⟨by decide, fun _ _ hc => absurd (congrFun hc .read) (by with_unfolding_all decide), (fun hc => by cases hc)⟩ trivial (by with_unfolding_all rfl))
  have r4 := r3.step (.del (w := ⟨s₂, .inPoll, 0, 1⟩) (i := 1) (evs := READ) (d := 5) (rc := 0) (wake := false) (s := s₃)
    ⟨by decide, fun _ hc => absurd hc (by with_unfolding_all decide), (fun hc => by cases hc)⟩ trivial (by with_unfolding_all rfl))
  have r5 := r4.step (.write (w := ⟨s₃, .inPoll, 0, 1⟩) (k := 0) rfl)
  have r6 := r5.step (.ret (w := ⟨s₃, .inPoll, 1, 0⟩) (revs := revs) (n := 2) (p := p₄) rfl (by with_unfolding_all rfl) (by with_unfolding_all rfl)
    ⟨fun _ => by decide, fun _ => rfl⟩)
  have r7 := r6.step (.drain (w := ⟨⟨p₄, s₃.obj⟩, .got 2, 1, 0⟩) (n := 1) (evs := READ) (p := p₅) rfl (by with_unfolding_all rfl))
  have r8 := r7.step (.finish (w := ⟨⟨p₅, s₃.obj⟩, .back true, 0, 0⟩) (ok := true) (rc := 0) (res := []) (s := s₆) rfl (fun hc => by cases hc)
    (by with_unfolding_all decide) (by with_unfolding_all rfl))
  exact r8

theorem example_history : History plenty fds any history ⟨s₆, .idle, 0, 0⟩ ∧ (s₆.obj 1).op = NONE ∧ (s₆.obj 2).op = READ ||| EDGE := by
  refine ⟨⟨fun _ => rfl, fun j => by show (3 + (j : Int)) ≠ -1; omega, trivial, ⟨sys₀, .idle, 0, 0⟩, by with_unfolding_all rfl, ?_⟩, ?_, ?_⟩
  · have := example_runs
    rw [List.append_nil] at this
    exact this
  · with_unfolding_all rfl
  · with_unfolding_all rfl

end Verif.Poll.Win
