import Verif.Cond.Win
import Verif.Queue.Props

/-!
# Handing over work with a queue, a mutex and a condition

The program most users write around `sc_queue`, `sc_mutex` and `sc_cond`. A thread that has work adds it to the queue and then signals;
a thread that wants work waits and, each time the wait returns, takes from the queue until it is empty. Every operation on the queue is
done with the mutex locked; a mutex is locked by one thread at a time (C87), so an operation on the queue is one step here. Steps of
different threads mix in any way. The threads, how many there are and in which order they do what are not fixed.
-/

namespace Verif.Cond.Handover

open Spec (Op Event)

/-- What a thread does next -/
inductive Role where
  /-- whatever it wants -/
  | free
  /-- it has added work, and signals -/
  | owes
  /-- it is inside `sc_cond_signal` or `sc_cond_wait` -/
  | called
  /-- its wait has returned, and it takes from the queue until that is empty -/
  | drains
  deriving DecidableEq

/-- The condition, the queue, the threads, and what has been added and taken so far -/
structure Prog (σ : Type) where
  cond : σ
  q : Queue.Q Nat
  role : Nat → Role
  added : List Nat
  taken : List Nat

def Prog.set (p : Prog σ) (t : Nat) (r : Role) : Prog σ := { p with role := fun i => if i = t then r else p.role i }

/-- After `sc_queue_init` (queue/sc_queue.h:101-117) has got memory with any content and `sc_cond_init` has succeeded -/
def start (c : σ) (fill : Nat → Nat) : Prog σ := ⟨c, Queue.init (some fill), fun _ => .free, [], []⟩

/-- The steps of the program; `step` are those of the condition. `true` marks what the program does on its own: threads do what they
have begun to do, but add no new work, start no new wait, and do not wake for no reason. -/
inductive PStep (step : σ → Label → σ → Prop) : Prog σ → Bool → Prog σ → Prop
  /-- `sc_queue_add_last` with success, queue/sc_queue.h:206-215 -/
  | add {p t x al q} : p.role t = .free → Queue.addLast al p.q x = .ok q → q.oom = false →
      PStep step p false { p.set t .owes with q := q, added := p.added ++ [x] }
  /-- the same without memory: the thread is told by `sc_queue_oom` -/
  | addFails {p t x al q} : p.role t = .free → Queue.addLast al p.q x = .ok q → q.oom = true → PStep step p false { p with q := q }
  /-- the call of `sc_cond_signal` that has to follow -/
  | signal {p t d c} : p.role t = .owes → step p.cond (.ev (.call t (.signal d))) c → PStep step p true { p.set t .called with cond := c }
  /-- a signal for another reason -/
  | signalAnyway {p t d c} : p.role t = .free → step p.cond (.ev (.call t (.signal d))) c →
      PStep step p false { p.set t .called with cond := c }
  | signalled {p t d v c} : step p.cond (.ev (.ret t (.signal d) v)) c → PStep step p true { p.set t .free with cond := c }
  | wait {p t c} : p.role t = .free → step p.cond (.ev (.call t .wait)) c → PStep step p false { p.set t .called with cond := c }
  | waited {p t v c} : step p.cond (.ev (.ret t .wait v)) c → PStep step p true { p.set t .drains with cond := c }
  | inside {p c} : step p.cond .tau c → PStep step p true { p with cond := c }
  | spurious {p c} : step p.cond .spurious c → PStep step p false { p with cond := c }
  /-- `sc_queue_empty` says no, and `sc_queue_del_first`, queue/sc_queue.h:247-256 -/
  | take {p t x q} : p.role t = .drains → Queue.empty p.q = false → Queue.delFirst p.q = .ok (q, x) →
      PStep step p true { p with q := q, taken := p.taken ++ [x] }
  /-- `sc_queue_empty` says yes, queue/sc_queue.h:154 -/
  | finish {p t} : p.role t = .drains → Queue.empty p.q = true → PStep step p true (p.set t .free)

/-- Executions -/
inductive Reach (step : σ → Label → σ → Prop) (p₀ : Prog σ) : Prog σ → Prop
  | refl : Reach step p₀ p₀
  | step {p b p'} : Reach step p₀ p → PStep step p b p' → Reach step p₀ p'

/-- Executions of a number of steps that the program does on its own -/
inductive Settle (step : σ → Label → σ → Prop) (p₀ : Prog σ) : Nat → Prog σ → Prop
  | refl : Settle step p₀ 0 p₀
  | step {n p p'} : Settle step p₀ n p → PStep step p true p' → Settle step p₀ (n + 1) p'

/-- The program does nothing more on its own. -/
def Rest (step : σ → Label → σ → Prop) (p : Prog σ) : Prop := ∀ p', ¬ PStep step p true p'

/-! ## What always holds -/

/-- Somebody will still look at the queue, or has a signal under way that will make somebody look. -/
def Cared (p : Prog State) : Prop :=
  (∃ t, p.role t = .owes) ∨ (∃ t d, p.cond.th t = .sLock d ∨ p.cond.th t = .sData d ∨ p.cond.th t = .sDone d) ∨
  p.cond.done = true ∨ (∃ t v, p.cond.th t = .wUnlock v) ∨ ∃ t, p.role t = .drains

structure Inv (p : Prog State) : Prop where
  wf : WF p.cond
  called : ∀ t, p.role t = .called ↔ p.cond.th t ≠ .idle
  queue : ∃ l, Queue.Rep p.q l ∧ p.added = p.taken ++ l ∧ (l ≠ [] → Cared p)

@[simp] theorem set_role (p : Prog σ) (t : Nat) (r : Role) (i : Nat) : (p.set t r).role i = if i = t then r else p.role i := rfl
@[simp] theorem set_cond (p : Prog σ) (t : Nat) (r : Role) : (p.set t r).cond = p.cond := rfl

/-- A signal is under way, the flag is set, or a wait is about to return. -/
def Moving (c : State) : Prop :=
  (∃ t d, c.th t = .sLock d ∨ c.th t = .sData d ∨ c.th t = .sDone d) ∨ c.done = true ∨ ∃ t v, c.th t = .wUnlock v

theorem cared_iff {p : Prog State} : Cared p ↔ (∃ t, p.role t = .owes) ∨ Moving p.cond ∨ ∃ t, p.role t = .drains := by
  unfold Cared Moving
  grind

theorem moving_step {c c' : State} {l : Label} (st : Step c l c') (h : Moving c) : Moving c' ∨ ∃ t v, l = .ev (.ret t .wait v) := by
  unfold Moving at *
  cases st with
  | wUnlock h => exact .inr ⟨_, _, rfl⟩
  | @sWake t d p h' hp =>
    refine .inl ?_
    simp only [State.set, State.wake]
    rcases h with ⟨t', d', h⟩ | h | ⟨t', v', h⟩
    · exact .inl ⟨t', d', by grind⟩
    · exact .inr (.inl h)
    · exact .inr (.inr ⟨t', v', by grind⟩)
  | @sDone t d h' => exact .inl (.inr (.inl rfl))
  | @wDone t v h' => exact .inl (.inr (.inr ⟨t, v, by simp [State.set]⟩))
  | _ =>
    refine .inl ?_
    simp only [State.set]
    rcases h with ⟨t', d', h⟩ | h | ⟨t', v', h⟩
    · exact .inl ⟨t', d', by grind⟩
    · exact .inr (.inl h)
    · exact .inr (.inr ⟨t', v', by grind⟩)

/-- Who is inside a function, before and after a step of the condition -/
theorem idle_step {c c' : State} {l : Label} (st : Step c l c') (i : Nat) :
    c'.th i ≠ .idle ↔ match l with
      | .ev (.call t _) => i = t ∨ c.th i ≠ .idle
      | .ev (.ret t _ _) => i ≠ t ∧ c.th i ≠ .idle
      | _ => c.th i ≠ .idle := by
  cases st with
  | call t op h => cases op <;> simp only [State.set, Op.entry] <;> grind
  | @sWake t d p h hp => simp only [set_th, wake_th]; grind
  | _ => simp only [State.set] ; grind

theorem call_moving {c c' : State} {t d : Nat} (st : Step c (.ev (.call t (.signal d))) c') : Moving c' ∧ c.th t = .idle := by
  cases st with
  | call _ _ h => exact ⟨.inl ⟨t, d, .inl (by simp [State.set, Op.entry])⟩, h⟩

theorem Inv.step {p p' : Prog State} {b : Bool} (i : Inv p) (st : PStep Step p b p') : Inv p' := by
  obtain ⟨wf, hc, l, hr, ha, hq⟩ := i
  cases st with
  | @add t x al q hf hadd ho =>
    refine ⟨wf, fun u => ?_, l ++ [x], ?_, ?_, fun _ => .inl ⟨t, by simp⟩⟩
    · have := hc u; have := hc t; simp only [set_role, set_cond]; grind
    · rcases Queue.addLast_cases hr al x with ⟨q', e, r, -⟩ | ⟨e, -⟩
      · rw [hadd] at e; cases e; exact r
      · rw [hadd] at e; cases e; cases ho
    · show p.added ++ [x] = p.taken ++ (l ++ [x]); rw [ha, List.append_assoc]
  | @addFails t x al q hf hadd ho =>
    refine ⟨wf, hc, l, ?_, ha, hq⟩
    rcases Queue.addLast_cases hr al x with ⟨q', e, -, h⟩ | ⟨e, -⟩
    · rw [hadd] at e; cases e; rw [ho] at h; cases h
    · rw [hadd] at e; cases e; exact hr.with_oom true
  | @signal t d c ho st | @signalAnyway t d c ho st =>
    refine ⟨wf.step st, fun u => ?_, l, hr, ha, fun _ => cared_iff.2 (.inr (.inl (call_moving st).1))⟩
    have := idle_step st u; have := hc u; simp only [set_role] at *; grind
  | @signalled t d v c st =>
    have hrole : p.role t = .called := (hc t).2 (by cases st with | sUnlock h => simp [h])
    refine ⟨wf.step st, fun u => ?_, l, hr, ha, fun hl => cared_iff.2 ?_⟩
    · have := idle_step st u; have := hc u; simp only [set_role] at *; grind
    · rcases cared_iff.1 (hq hl) with ⟨u, hu⟩ | h | ⟨u, hu⟩
      · exact .inl ⟨u, by simp only [set_role]; grind⟩
      · rcases moving_step st h with h | ⟨_, _, h⟩
        · exact .inr (.inl h)
        · cases h
      · exact .inr (.inr ⟨u, by simp only [set_role]; grind⟩)
  | @wait t c hf st =>
    refine ⟨wf.step st, fun u => ?_, l, hr, ha, fun hl => cared_iff.2 ?_⟩
    · have := idle_step st u; have := hc u; simp only [set_role] at *; grind
    · rcases cared_iff.1 (hq hl) with ⟨u, hu⟩ | h | ⟨u, hu⟩
      · exact .inl ⟨u, by simp only [set_role]; grind⟩
      · rcases moving_step st h with h | ⟨_, _, h⟩
        · exact .inr (.inl h)
        · cases h
      · exact .inr (.inr ⟨u, by simp only [set_role]; grind⟩)
  | @waited t v c st =>
    refine ⟨wf.step st, fun u => ?_, l, hr, ha, fun hl => .inr (.inr (.inr (.inr ⟨t, by simp⟩)))⟩
    have := idle_step st u; have := hc u; simp only [set_role] at *; grind
  | @inside c st | @spurious c st =>
    refine ⟨wf.step st, fun u => ?_, l, hr, ha, fun hl => cared_iff.2 ?_⟩
    · have := idle_step st u; have := hc u; grind
    · rcases cared_iff.1 (hq hl) with h | h | h
      · exact .inl h
      · rcases moving_step st h with h | ⟨_, _, h⟩
        · exact .inr (.inl h)
        · cases h
      · exact .inr (.inr h)
  | @take t x q hd he ht =>
    cases l with
    | nil => rw [hr.empty] at he; cases he
    | cons y l =>
      obtain ⟨q', e, r, -⟩ := hr.delFirst
      rw [ht] at e; cases e
      refine ⟨wf, hc, l, r, ?_, fun _ => .inr (.inr (.inr (.inr ⟨t, hd⟩)))⟩
      show p.added = p.taken ++ [x] ++ l
      rw [ha, List.append_assoc]; rfl
  | @finish t hd he =>
    refine ⟨wf, fun u => ?_, l, hr, ha, fun hl => ?_⟩
    · have := hc u; have := hc t; simp only [set_role, set_cond]; grind
    · rw [hr.empty, List.isEmpty_iff] at he; exact absurd he hl

theorem Inv.reach {fill : Nat → Nat} {p : Prog State} (r : Reach Step (start .fresh fill) p) : Inv p := by
  induction r with
  | refl =>
    refine ⟨WF.fresh, fun t => ?_, [], Queue.rep_init fill, rfl, fun h => absurd rfl h⟩
    simp [start, State.fresh]
  | step _ st ih => exact ih.step st

/-! ## The theorems -/

/-- **C157.** At every moment what has been added is what has been taken followed by what is in the queue, in that order; and every
operation on the queue that a thread may do is defined. -/
theorem in_order {fill : Nat → Nat} {p : Prog State} (r : Reach Step (start .fresh fill) p) :
    ∃ rest, p.added = p.taken ++ rest ∧ Queue.Observes p.q ⟨rest, p.q.oom⟩ ∧ (∀ al x, ∃ q, Queue.addLast al p.q x = .ok q) ∧
      (Queue.empty p.q = false → ∃ q x, Queue.delFirst p.q = .ok (q, x)) := by
  obtain ⟨-, -, l, hr, ha, -⟩ := Inv.reach r
  refine ⟨l, ha, hr.observes, fun al x => ?_, fun he => ?_⟩
  · rcases Queue.addLast_cases hr al x with ⟨q', e, -⟩ | ⟨e, -⟩ <;> exact ⟨_, e⟩
  · cases l with
    | nil => rw [hr.empty] at he; cases he
    | cons y l => obtain ⟨q', e, -⟩ := hr.delFirst; exact ⟨_, _, e⟩

/-- Where the program rests the condition does. -/
theorem Rest.stuck {step : σ → Label → σ → Prop} {p : Prog σ} (h : Rest step p) (l : Label) (c : σ) (st : step p.cond l c) : ¬ l.own := by
  intro ho
  cases l with
  | tau => exact h _ (.inside st)
  | spurious => exact ho
  | ev e =>
    cases e with
    | call => exact ho
    | ret t op v =>
      cases op with
      | signal d => exact h _ (.signalled st)
      | wait => exact h _ (.waited st)

theorem handed {p : Prog State} (i : Inv p) (hs : Stuck p.cond) (ho : ∀ t, p.role t ≠ .owes ∧ p.role t ≠ .drains) (t : Nat) :
    (p.role t = .free ∨ p.cond.th t = .blocked) ∧ (p.role t = .called → p.taken = p.added ∧ Queue.empty p.q = true) := by
  obtain ⟨wf, hc, l, hr, ha, hq⟩ := i
  have st := stuck_th wf hs
  refine ⟨?_, fun hw => ?_⟩
  · have := hc t; have := st t; have := ho t
    cases e : p.role t <;> simp_all
  · have hb : p.cond.th t = .blocked := by have := (hc t).1 hw; have := st t; simp_all
    cases l with
    | nil => exact ⟨by simp [ha], by rw [hr.empty]; rfl⟩
    | cons y l =>
      exfalso
      rcases hq (by simp) with ⟨u, h⟩ | ⟨u, d, h⟩ | h | ⟨u, v, h⟩ | ⟨u, h⟩
      · exact (ho u).1 h
      · rcases st u with e | e <;> simp [e] at h
      · obtain ⟨i, hi⟩ := awake_cares.1 (wf.awake h ⟨t, hb⟩)
        rcases st i with e | e <;> rw [e] at hi <;> cases hi
      · rcases st u with e | e <;> simp [e] at h
      · exact (ho u).2 h

/-- **C157.** When nothing moves any more, every thread is free or waits; and if one waits, all work that was ever added has been
taken, in the order it was added, and the queue is empty. -/
theorem handed_over {fill : Nat → Nat} {p : Prog State} (r : Reach Step (start .fresh fill) p) (h : Rest Step p) (t : Nat) :
    (p.role t = .free ∨ p.cond.th t = .blocked) ∧ (p.role t = .called → p.taken = p.added ∧ Queue.empty p.q = true) := by
  have i := Inv.reach r
  refine handed i h.stuck (fun u => ⟨fun ho => ?_, fun hd => ?_⟩) t
  · have hi : p.cond.th u = .idle := by have := i.called u; simp_all
    exact h _ (.signal (d := 0) ho (.call u _ hi))
  · obtain ⟨-, -, -, -, hdel⟩ := in_order r
    cases he : Queue.empty p.q with
    | true => exact h _ (.finish hd he)
    | false => obtain ⟨q, x, e⟩ := hdel he; exact h _ (.take hd he e)

/-! ## It comes to rest -/

/-- How much a thread has promised to do -/
def Role.work (n : Nat) : Role → Nat
  | .owes => 24 * n + 16
  | .drains => 1
  | _ => 0

/-- How much can still be done with `n` threads: inside the functions, promised, and in the queue -/
def todo (p : Prog State) (n : Nat) : Nat := 3 * p.cond.work n + total (fun i => (p.role i).work n) n + Queue.size p.q

/-- Only the threads below `n` do anything. -/
def within (p : Prog State) (n : Nat) : Prop := ∀ i, n ≤ i → p.role i = .free

theorem Inv.within {p : Prog State} (i : Inv p) {n : Nat} (w : within p n) : p.cond.within n := fun u hu => by
  have := i.called u
  rw [w u hu] at this
  simpa using this

theorem roles_set {p : Prog σ} {n t : Nat} {r : Role} (ht : t < n) :
    total (fun i => ((p.set t r).role i).work n) n + (p.role t).work n = total (fun i => (p.role i).work n) n + r.work n := by
  have := total_upd (f := fun i => (p.role i).work n) (g := fun i => ((p.set t r).role i).work n) ht
    (fun i _ hi => by simp only [set_role, if_neg hi])
  simp only [set_role, if_pos] at this ⊢
  exact this

theorem within_set {p : Prog State} {n t : Nat} {r : Role} (w : within p n) (h : p.role t ≠ .free) :
    t < n ∧ ∀ i, n ≤ i → (p.set t r).role i = .free := by
  have ht : t < n := by
    by_cases ht : t < n
    · exact ht
    · exact absurd (w t (by omega)) h
  exact ⟨ht, fun i hi => by simp only [set_role]; rw [if_neg (by omega)]; exact w i hi⟩

theorem todo_step {p p' : Prog State} {n : Nat} (i : Inv p) (w : within p n) (st : PStep Step p true p') :
    within p' n ∧ todo p' n < todo p n := by
  cases st with
  | @signal t d c ho st =>
    obtain ⟨ht, w'⟩ := within_set (r := .called) w (by rw [ho]; intro h; cases h)
    refine ⟨w', ?_⟩
    have h1 := roles_set (p := p) (n := n) (r := .called) ht
    have h2 : c.work n = p.cond.work n + (8 * n + 5) := by
      cases st with
      | call _ _ h =>
        have := total_upd (f := fun i => (p.cond.th i).work n) (g := fun i => ((p.cond.set t (Op.entry (.signal d))).th i).work n) ht
          (fun i _ hi => by simp only [set_th, if_neg hi])
        rw [h, set_th, if_pos rfl] at this
        change total (fun i => ((p.cond.set t (Op.entry (.signal d))).th i).work n) n + 0 = _ + (8 * n + 5) at this
        exact this
    rw [ho] at h1
    change _ + (24 * n + 16) = _ + 0 at h1
    unfold todo
    show 3 * c.work n + total (fun i => ((p.set t .called).role i).work n) n + Queue.size p.q < _
    rw [h2]
    omega
  | @signalled t d v c st =>
    have hrole : p.role t = .called := (i.called t).2 (by cases st with | sUnlock h => simp [h])
    obtain ⟨ht, w'⟩ := within_set (r := .free) w (by rw [hrole]; intro h; cases h)
    obtain ⟨-, h2⟩ := work_step (i.within w) st trivial
    refine ⟨w', ?_⟩
    have h1 := roles_set (p := p) (n := n) (r := .free) ht
    rw [hrole] at h1
    change _ + 0 = _ + 0 at h1
    show 3 * c.work n + total (fun i => ((p.set t .free).role i).work n) n + Queue.size p.q < _
    unfold todo
    omega
  | @waited t v c st =>
    have hrole : p.role t = .called := (i.called t).2 (by cases st with | wUnlock h => simp [h])
    obtain ⟨ht, w'⟩ := within_set (r := .drains) w (by rw [hrole]; intro h; cases h)
    obtain ⟨-, h2⟩ := work_step (i.within w) st trivial
    refine ⟨w', ?_⟩
    have h1 := roles_set (p := p) (n := n) (r := .drains) ht
    rw [hrole] at h1
    change _ + 0 = _ + 1 at h1
    show 3 * c.work n + total (fun i => ((p.set t .drains).role i).work n) n + Queue.size p.q < _
    unfold todo
    omega
  | @inside c st =>
    obtain ⟨-, h2⟩ := work_step (i.within w) st trivial
    refine ⟨w, ?_⟩
    show 3 * c.work n + total (fun i => (p.role i).work n) n + Queue.size p.q < _
    unfold todo
    omega
  | @take t x q hd he hdel =>
    refine ⟨w, ?_⟩
    obtain ⟨-, -, l, hr, -, -⟩ := i
    cases l with
    | nil => rw [hr.empty] at he; cases he
    | cons y l =>
      obtain ⟨q', e, r, -⟩ := hr.delFirst
      rw [hdel] at e; cases e
      show 3 * p.cond.work n + total (fun i => (p.role i).work n) n + Queue.size q < _
      unfold todo
      rw [r.size, hr.size, List.length_cons]
      omega
  | @finish t hd he =>
    obtain ⟨ht, w'⟩ := within_set (r := .free) w (by rw [hd]; intro h; cases h)
    refine ⟨w', ?_⟩
    have h1 := roles_set (p := p) (n := n) (r := .free) ht
    rw [hd] at h1
    change _ + 1 = _ + 0 at h1
    show 3 * p.cond.work n + total (fun i => ((p.set t .free).role i).work n) n + Queue.size p.q < _
    unfold todo
    omega

theorem todo_settle {p p' : Prog State} {n k : Nat} (i : Inv p) (w : within p n) (h : Settle Step p k p') :
    Inv p' ∧ within p' n ∧ k + todo p' n ≤ todo p n := by
  induction h with
  | refl => exact ⟨i, w, by omega⟩
  | step _ st ih =>
    obtain ⟨h1, h2, h3⟩ := ih
    obtain ⟨h4, h5⟩ := todo_step h1 h2 st
    exact ⟨h1.step st, h4, by omega⟩

/-- **C157.** With finitely many threads the program comes to rest, whoever runs when, after a bounded number of steps that it takes on
its own: work handed to somebody who waits is done. -/
theorem rests {fill : Nat → Nat} {p : Prog State} (r : Reach Step (start .fresh fill) p) (n : Nat) (w : ∀ i, n ≤ i → p.role i = .free) :
    ∃ bound, ∀ k p', Settle Step p k p' → k ≤ bound :=
  ⟨todo p n, fun k p' h => by have := (todo_settle (Inv.reach r) w h).2.2; omega⟩

/-! ## Windows -/

/-- The same program, with the condition as on Windows -/
def upP (p : Prog State) : Prog Win.WState := ⟨Win.up p.cond, p.q, p.role, p.added, p.taken⟩

theorem pstep_up {p : Prog State} (w : WF p.cond) {b : Bool} {p' : Prog Win.WState} (st : PStep Win.Step (upP p) b p') :
    ∃ p₁, PStep Step p b p₁ ∧ p' = upP p₁ := by
  cases st with
  | add h1 h2 h3 => exact ⟨_, .add h1 h2 h3, rfl⟩
  | addFails h1 h2 h3 => exact ⟨_, .addFails h1 h2 h3, rfl⟩
  | signal h st => obtain ⟨c, h1, rfl⟩ := Win.step_up w st; exact ⟨_, .signal h h1, rfl⟩
  | signalAnyway h st => obtain ⟨c, h1, rfl⟩ := Win.step_up w st; exact ⟨_, .signalAnyway h h1, rfl⟩
  | signalled st => obtain ⟨c, h1, rfl⟩ := Win.step_up w st; exact ⟨_, .signalled h1, rfl⟩
  | wait h st => obtain ⟨c, h1, rfl⟩ := Win.step_up w st; exact ⟨_, .wait h h1, rfl⟩
  | waited st => obtain ⟨c, h1, rfl⟩ := Win.step_up w st; exact ⟨_, .waited h1, rfl⟩
  | inside st => obtain ⟨c, h1, rfl⟩ := Win.step_up w st; exact ⟨_, .inside h1, rfl⟩
  | spurious st => obtain ⟨c, h1, rfl⟩ := Win.step_up w st; exact ⟨_, .spurious h1, rfl⟩
  | take h1 h2 h3 => exact ⟨_, .take h1 h2 h3, rfl⟩
  | finish h1 h2 => exact ⟨_, .finish h1 h2, rfl⟩

theorem reach_up {fill : Nat → Nat} {p' : Prog Win.WState} (r : Reach Win.Step (start .fresh fill) p') :
    ∃ p, Reach Step (start .fresh fill) p ∧ p' = upP p := by
  induction r with
  | refl => exact ⟨_, .refl, rfl⟩
  | step _ st ih =>
    obtain ⟨p, h1, rfl⟩ := ih
    obtain ⟨p₁, h2, rfl⟩ := pstep_up (Inv.reach h1).wf st
    exact ⟨p₁, .step h1 h2, rfl⟩

/-- **C157, Windows.** The order is kept, and the operations on the queue are defined. -/
theorem in_order_win {fill : Nat → Nat} {p : Prog Win.WState} (r : Reach Win.Step (start .fresh fill) p) :
    ∃ rest, p.added = p.taken ++ rest ∧ Queue.Observes p.q ⟨rest, p.q.oom⟩ ∧ (∀ al x, ∃ q, Queue.addLast al p.q x = .ok q) ∧
      (Queue.empty p.q = false → ∃ q x, Queue.delFirst p.q = .ok (q, x)) := by
  obtain ⟨p, h, rfl⟩ := reach_up r
  exact in_order h

/-- **C157, Windows.** When nothing moves any more, every thread is free or waits; and if one waits, all work has been taken. -/
theorem handed_over_win {fill : Nat → Nat} {p : Prog Win.WState} (r : Reach Win.Step (start .fresh fill) p) (h : Rest Win.Step p) (t : Nat) :
    (p.role t = .free ∨ p.cond.th t = .blocked) ∧ (p.role t = .called → p.taken = p.added ∧ Queue.empty p.q = true) := by
  obtain ⟨p, hr, rfl⟩ := reach_up r
  have i := Inv.reach hr
  refine handed i (Win.stuck_up h.stuck) (fun u => ⟨fun ho => ?_, fun hd => ?_⟩) t
  · have hi : p.cond.th u = .idle := by have := i.called u; simp_all
    exact h _ (.signal (t := u) (d := 0) ho (.call u _ hi))
  · obtain ⟨-, -, -, -, hdel⟩ := in_order hr
    cases he : Queue.empty p.q with
    | true => exact h _ (.finish (t := u) hd he)
    | false => obtain ⟨q, x, e⟩ := hdel he; exact h _ (.take (t := u) hd he e)

/-- **C157, Windows.** It comes to rest. -/
theorem rests_win {fill : Nat → Nat} {p : Prog Win.WState} (r : Reach Win.Step (start .fresh fill) p) (n : Nat)
    (w : ∀ i, n ≤ i → p.role i = .free) : ∃ bound, ∀ k p', Settle Win.Step p k p' → k ≤ bound := by
  obtain ⟨p, hr, rfl⟩ := reach_up r
  refine ⟨todo p n, fun k p' h => ?_⟩
  have : ∃ p₁, Settle Step p k p₁ ∧ p' = upP p₁ ∧ Inv p₁ := by
    clear r
    induction h with
    | refl => exact ⟨p, .refl, rfl, Inv.reach hr⟩
    | step _ st ih =>
      obtain ⟨p₁, h1, rfl, i⟩ := ih
      obtain ⟨p₂, h2, rfl⟩ := pstep_up i.wf st
      exact ⟨p₂, .step h1 h2, rfl, i.step h2⟩
  obtain ⟨p₁, h1, -, -⟩ := this
  have := (todo_settle (Inv.reach hr) w h1).2.2
  omega

/-! ## A case -/

theorem rest_of {p : Prog State} (h1 : ∀ t, p.cond.th t = .idle ∨ p.cond.th t = .blocked) (h2 : ∀ t, p.role t = .free ∨ p.role t = .called) :
    Rest Step p := by
  intro p' st
  cases st with
  | @signal t _ _ h => have := h2 t; simp_all
  | @take t _ _ h => have := h2 t; simp_all
  | @finish t h => have := h2 t; simp_all
  | @signalled t _ _ _ st => cases st with | sUnlock h => have := h1 t; simp_all
  | @waited t _ _ st => cases st with | wUnlock h => have := h1 t; simp_all
  | inside st => cases st with | @sLock t | @sData t | @sDone t | @sWake t | @wLock t | @wTest t | @wBlock t | @relock t | @wRead t | @wData t | @wDone t => have := h1 t; simp_all

/-- Threads 1 and 3 wait; thread 2 adds 5 and 6, each followed by a signal, before anybody runs on; thread 1 takes both; thread 3 finds
the flag cleared, and both wait again. -/
theorem example_handover : ∃ p, Reach Step (start .fresh fun _ => 9) p ∧ Rest Step p ∧ p.role 1 = .called ∧ p.added = [5, 6] := by
  have r := Reach.refl (step := Step) (p₀ := start .fresh fun _ => 9)
  replace r := r.step (.wait (t := 1) rfl (.call 1 .wait rfl))
  replace r := r.step (.inside (.wLock (t := 1) rfl rfl))
  replace r := r.step (.inside (.wTest (t := 1) rfl))
  replace r := r.step (.inside (.wBlock (t := 1) rfl))
  replace r := r.step (.wait (t := 3) rfl (.call 3 .wait rfl))
  replace r := r.step (.inside (.wLock (t := 3) rfl rfl))
  replace r := r.step (.inside (.wTest (t := 3) rfl))
  replace r := r.step (.inside (.wBlock (t := 3) rfl))
  replace r := r.step (.add (t := 2) (x := 5) (al := none) rfl rfl rfl)
  replace r := r.step (.signal (t := 2) (d := 0) rfl (.call 2 _ rfl))
  replace r := r.step (.inside (.sLock (t := 2) (d := 0) rfl rfl))
  replace r := r.step (.inside (.sData (t := 2) (d := 0) rfl))
  replace r := r.step (.inside (.sDone (t := 2) (d := 0) rfl))
  replace r := r.step (.inside (.sWake (t := 2) (d := 0) (fun i => i == 1) rfl (fun _ => ⟨1, rfl, rfl⟩)))
  replace r := r.step (.signalled (.sUnlock (t := 2) (d := 0) rfl))
  replace r := r.step (.add (t := 2) (x := 6) (al := none) rfl rfl rfl)
  replace r := r.step (.signal (t := 2) (d := 0) rfl (.call 2 _ rfl))
  replace r := r.step (.inside (.sLock (t := 2) (d := 0) rfl rfl))
  replace r := r.step (.inside (.sData (t := 2) (d := 0) rfl))
  replace r := r.step (.inside (.sDone (t := 2) (d := 0) rfl))
  replace r := r.step (.inside (.sWake (t := 2) (d := 0) (fun i => i == 3) rfl (fun _ => ⟨3, rfl, rfl⟩)))
  replace r := r.step (.signalled (.sUnlock (t := 2) (d := 0) rfl))
  replace r := r.step (.inside (.relock (t := 1) rfl rfl))
  replace r := r.step (.inside (.wTest (t := 1) rfl))
  replace r := r.step (.inside (.wRead (t := 1) rfl))
  replace r := r.step (.inside (.wData (t := 1) (v := 0) rfl))
  replace r := r.step (.inside (.wDone (t := 1) (v := 0) rfl))
  replace r := r.step (.waited (.wUnlock (t := 1) (v := 0) rfl))
  replace r := r.step (.take (t := 1) rfl rfl rfl)
  replace r := r.step (.take (t := 1) rfl rfl rfl)
  replace r := r.step (.finish (t := 1) rfl rfl)
  replace r := r.step (.wait (t := 1) rfl (.call 1 .wait rfl))
  replace r := r.step (.inside (.wLock (t := 1) rfl rfl))
  replace r := r.step (.inside (.wTest (t := 1) rfl))
  replace r := r.step (.inside (.wBlock (t := 1) rfl))
  replace r := r.step (.inside (.relock (t := 3) rfl rfl))
  replace r := r.step (.inside (.wTest (t := 3) rfl))
  replace r := r.step (.inside (.wBlock (t := 3) rfl))
  refine ⟨_, r, fun p' st => ?_, rfl, rfl⟩
  refine rest_of (fun t => ?_) (fun t => ?_) p' st
  · simp [State.set, State.wake, start, State.fresh, Op.entry]; grind
  · simp [Prog.set, start]; grind

end Verif.Cond.Handover
