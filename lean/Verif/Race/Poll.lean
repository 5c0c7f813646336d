import Verif.Race.Lemmas

/-!
# The poller on Windows and data races

While one thread waits in `sc_sock_poll_wait`, others may add and remove sockets. The memory they
share is accessed under the lock, or by the waiting thread while a flag says that it waits. Two reads
are done without either: whether the poller is initialised, and where a socket is registered when
nothing can be sent or received. The text of the last error is not modelled.
-/

namespace Verif.Poll.Race

open Verif.Race (Trace At HB Racy Passed Owner keep last lt_of_some)

/-- Groups of fields of `struct sc_sock_poll`, socket/sc_sock.h, and of the sockets. -/
inductive Place where
  /-- `polling` -/
  | polling
  /-- `ops`, `ops_count`, `ops_cap` and what `ops` points to -/
  | ops
  /-- `fdt->op`, `fdt->op_index` of a socket -/
  | fdt
  /-- `fdt->poll_data` of a socket -/
  | slot
  /-- `events`, `cap`, `data` -/
  | table
  /-- `count` -/
  | count
  /-- what `events` and `data` point to, but for the masks, which are changed by interlocked functions -/
  | entries
  /-- `results_remaining`, `results_offset` -/
  | rest
  /-- what `results` points to -/
  | results
  deriving DecidableEq

/-- A read without the lock. -/
inductive Mark where
  | loose (x : Place)
  deriving DecidableEq

abbrev Doing := Verif.Race.Act Unit Place Mark

/-- Where a thread is. -/
inductive St where
  | idle
  /-- in `sc_sock_poll_add` or `sc_sock_poll_del`, inside the critical section -/
  | op
  /-- about to leave the critical section -/
  | done
  /-- in `sc_sock_poll_wait`, about to enter the critical section -/
  | wait
  /-- inside, the first time -/
  | first
  /-- outside, the flag is set -/
  | out
  /-- inside, the second time -/
  | second
  deriving DecidableEq

/-- The owner of the critical section, the flag, the threads. -/
structure State where
  lock : Option Nat
  polling : Bool
  th : Nat → St

/-- After `sc_sock_poll_init`. -/
def State.fresh : State := ⟨none, false, fun _ => .idle⟩

def State.set (s : State) (t : Nat) (x : St) : State := { s with th := fun i => if i = t then x else s.th i }

/-- What the threads do. Thread `p` is the one that polls: it alone uses the results, and others that
call `sc_sock_poll_wait` do so while it polls, and are told so. -/
inductive Step (p : Nat) : State → Nat → List Doing → State → Prop
  /-- socket/sc_sock.c:1800, 1886 -/
  | lock {s t} : s.th t = .idle → s.lock = none → Step p s t [.acq ()] { s.set t .op with lock := some t }
  /-- socket/sc_sock.c:1804-1807, 1890-1893 and `sc_sock_poll_submit`, 1674-1750 -/
  | submit {s t} : s.th t = .op → s.polling = true →
      Step p s t [.rd .polling, .rd .ops, .rd .fdt, .rd .slot, .wr .ops, .wr .slot, .wr .fdt] (s.set t .done)
  /-- socket/sc_sock.c:1809-1868, 1895-1926, with `sc_sock_poll_expand`, 1613-1672, which replaces
  the table when it is full -/
  | apply {s t} (full : Bool) : s.th t = .op → s.polling = false →
      Step p s t ([.rd .polling, .rd .fdt, .rd .count, .rd .table] ++ (if full then [.wr .table] else []) ++
        [.wr .count, .rd .entries, .wr .entries, .rd .slot, .wr .slot, .wr .fdt]) (s.set t .done)
  /-- socket/sc_sock.c:1752, 1871, 1929, 2139 -/
  | unlock {s t} : s.th t = .done → Step p s t [.rel ()] { s.set t .idle with lock := none }
  /-- socket/sc_sock.c:2023 -/
  | test {s t} : s.th t = .idle → Step p s t [.ev (.loose .table)] (s.set t .wait)
  /-- socket/sc_sock.c:2028 -/
  | wait {s t} : s.th t = .wait → s.lock = none → Step p s t [.acq ()] { s.set t .first with lock := some t }
  /-- socket/sc_sock.c:2029-2033 -/
  | busy {s t} : s.th t = .first → s.polling = true → Step p s t [.rd .polling] (s.set t .done)
  /-- socket/sc_sock.c:2034-2040 and `sc_sock_poll_fill_results`, 1989-2015 -/
  | more {s} : s.th p = .first → s.polling = false →
      Step p s p [.rd .polling, .rd .rest, .rd .table, .rd .entries, .wr .results, .wr .rest] (s.set p .done)
  /-- socket/sc_sock.c:2034, 2045-2046 -/
  | begin {s} : s.th p = .first → s.polling = false →
      Step p s p [.rd .polling, .rd .rest, .wr .polling, .rel ()] { s.set p .out with lock := none, polling := true }
  /-- socket/sc_sock.c:2051-2087: `WSAPoll` writes what it has found into the entries -/
  | poll {s} : s.th p = .out →
      Step p s p [.rd .table, .rd .entries, .wr .entries, .wr .rest] s
  /-- socket/sc_sock.c:2089 -/
  | again {s} : s.th p = .out → s.lock = none → Step p s p [.acq ()] { s.set p .second with lock := some p }
  /-- socket/sc_sock.c:2092-2136; what was submitted is done with the lock entered again -/
  | finish {s} : s.th p = .second →
      Step p s p [.rd .polling, .wr .polling, .rd .ops, .wr .ops, .rd .fdt, .rd .slot, .wr .slot, .wr .fdt, .rd .table,
        .wr .table, .rd .count, .wr .count, .rd .entries, .wr .entries, .wr .results, .wr .rest] { s.set p .done with polling := false }
  /-- `sc_sock_poll_data` and `sc_sock_poll_event`, socket/sc_sock.c:1933-1941 -/
  | result {s} : s.th p = .idle → Step p s p [.rd .results] s
  /-- `sc_sock_send` and `sc_sock_recv`, socket/sc_sock.c:636, 674 -/
  | unmask {s t} : s.th t = .idle → Step p s t [.ev (.loose .slot)] s

/-- Executions and what the threads do in them. -/
inductive Exec (p : Nat) : State → Trace Unit Place Mark → State → Prop
  | refl {s} : Exec p s [] s
  | step {s s' s'' tr t es} : Exec p s tr s' → Step p s' t es s'' → Exec p s (tr ++ es.map fun a => (t, a)) s''

/-- A loose read is a read. -/
def whole (tr : Trace Unit Place Mark) : Trace Unit Place Mark :=
  tr.map fun (t, a) => (t, match a with
    | .ev (.loose x) => .rd x
    | a => a)

/-! ## Invariant -/

/-- What is guarded by the lock alone, by the lock or the flag, and what is the poller's. -/
inductive Group where
  | lock
  | flag
  | mine

def group : Place → Group
  | .polling | .ops | .fdt | .slot => .lock
  | .table | .count | .entries | .rest => .flag
  | .results => .mine

def holder (o : Option Nat) : Owner Unit :=
  match o with
  | some t => .thread t
  | none => .left ()

def owners (p : Nat) (s : State) : Group → Owner Unit
  | .lock => holder s.lock
  | .flag => if s.polling then .thread p else holder s.lock
  | .mine => .thread p

def St.inside : St → Bool
  | .op | .done | .first | .second => true
  | _ => false

structure Inv (p : Nat) (tr : Trace Unit Place Mark) (s : State) : Prop where
  passed : Passed group tr (owners p s)
  own : ∀ t, (s.th t).inside = true ↔ s.lock = some t
  flag : (s.th p = .out ∨ s.th p = .second) ↔ s.polling = true
  other : ∀ t, t ≠ p → s.th t ≠ .out ∧ s.th t ≠ .second

theorem passed_all {tr : Trace Unit Place Mark} {o : Group → Owner Unit} {t : Nat} (h : Passed group tr o)
    (es : List Doing) (he : ∀ a ∈ es, match a with
      | .rd x => o (group x) = .thread t
      | .wr x => o (group x) = .thread t
      | .ev _ => True
      | _ => False) : Passed group (tr ++ es.map fun a => (t, a)) o := by
  induction es generalizing tr with
  | nil => simpa using h
  | cons a es ih =>
    have := he a (by simp)
    have ht : Passed group (tr ++ [(t, a)]) o := by
      cases a with
      | rd x => exact .rd t x h this
      | wr x => exact .wr t x h this
      | ev e => exact .ev t e h
      | acq l => exact this.elim
      | rel l => exact this.elim
    have := ih ht fun a ha => he a (by simp [ha])
    simpa using this

/-- Nothing of interest changes but where a thread is. -/
theorem Inv.move {p : Nat} {tr : Trace Unit Place Mark} {s : State} (h : Inv p tr s) {t : Nat} {x : St} {l : Option Nat} {f : Bool}
    {es : List Doing} (hp : Passed group (tr ++ es.map fun a => (t, a)) (owners p ⟨l, f, s.th⟩))
    (ho : x.inside = true ↔ l = some t) (hl : ∀ i, i ≠ t → (l = some i ↔ s.lock = some i))
    (hf : t = p → ((x = .out ∨ x = .second) ↔ f = true)) (hf' : t ≠ p → f = s.polling ∧ x ≠ .out ∧ x ≠ .second) :
    Inv p (tr ++ es.map fun a => (t, a)) { s.set t x with lock := l, polling := f } := by
  refine ⟨hp, fun i => ?_, ?_, fun i hi => ?_⟩
  · by_cases e : i = t
    · subst e; simpa [State.set] using ho
    · simp only [State.set, if_neg e]; rw [h.own i, hl i e]
  · by_cases e : t = p
    · have := hf e
      simpa [State.set, e] using this
    · have e' : p ≠ t := fun c => e c.symm
      simp only [State.set, if_neg e', (hf' e).1]
      exact h.flag
  · by_cases e : i = t
    · subst e
      simp only [State.set, if_pos]
      exact (hf' hi).2
    · simp only [State.set, if_neg e]
      exact h.other i hi

theorem Inv.step {p : Nat} {tr : Trace Unit Place Mark} {s s' : State} {t : Nat} {es : List Doing} (h : Inv p tr s)
    (st : Step p s t es s') : Inv p (tr ++ es.map fun a => (t, a)) s' := by
  have ow : ∀ t, (s.th t).inside = true → s.lock = some t := fun t => (h.own t).1
  have np : s.polling = true → ∀ t, s.th t ≠ .out → s.th t ≠ .second → t ≠ p := fun hf t h1 h2 e => by
    subst e
    rcases h.flag.2 hf with c | c
    · exact h1 c
    · exact h2 c
  have calm : ∀ t x, s.th t ≠ .out → s.th t ≠ .second → x ≠ St.out → x ≠ St.second →
      (t = p → ((x = .out ∨ x = .second) ↔ s.polling = true)) ∧ (t ≠ p → s.polling = s.polling ∧ x ≠ .out ∧ x ≠ .second) := by
    intro t x h1 h2 h3 h4
    refine ⟨fun e => ⟨fun c => ?_, fun c => absurd e (np c t h1 h2)⟩, fun _ => ⟨rfl, h3, h4⟩⟩
    rcases c with c | c
    · exact absurd c h3
    · exact absurd c h4
  have free : s.lock = none → ∀ t i, i ≠ t → (some t = some i ↔ s.lock = some i) := by
    intro hl t i hi
    rw [hl]
    exact ⟨fun c => absurd (Option.some.inj c).symm hi, fun c => by cases c⟩
  have left : ∀ t, s.lock = some t → ∀ i, i ≠ t → ((none : Option Nat) = some i ↔ s.lock = some i) := by
    intro t hl i hi
    rw [hl]
    exact ⟨fun c => (by cases c), fun c => absurd (Option.some.inj c).symm hi⟩
  -- entering and leaving when the flag is as it is
  have enter : ∀ t, s.lock = none → Passed group (tr ++ [Verif.Race.Act.acq ()].map fun a => (t, a)) (owners p ⟨some t, s.polling, s.th⟩) := by
    intro t hl
    refine .acq t () h.passed fun k => ?_
    cases k with
    | lock => exact .inr ⟨by simp [owners, holder, hl], by simp [owners, holder]⟩
    | flag =>
      cases hf : s.polling with
      | true => exact .inl (by simp [owners, hf])
      | false => exact .inr ⟨by simp [owners, holder, hl, hf], by simp [owners, holder]⟩
    | mine => exact .inl rfl
  have leave : ∀ t, s.lock = some t → Passed group (tr ++ [Verif.Race.Act.rel ()].map fun a => (t, a)) (owners p ⟨none, s.polling, s.th⟩) := by
    intro t hl
    refine .rel t () h.passed fun k => ?_
    cases k with
    | lock => exact .inr ⟨by simp [owners, holder, hl], by simp [owners, holder]⟩
    | flag =>
      cases hf : s.polling with
      | true => exact .inl (by simp [owners, hf])
      | false => exact .inr ⟨by simp [owners, holder, hl, hf], by simp [owners, holder]⟩
    | mine => exact .inl rfl
  have gl : ∀ t, s.lock = some t → owners p s .lock = .thread t := fun t hl => by simp [owners, holder, hl]
  have gf : ∀ t, s.lock = some t → s.polling = false → owners p s .flag = .thread t := fun t hl hf => by simp [owners, holder, hl, hf]
  have gp : s.polling = true → owners p s .flag = .thread p := fun hf => by simp [owners, hf]
  cases st with
  | lock hi hl =>
    have c := calm t .op (by rw [hi]; simp) (by rw [hi]; simp) (by simp) (by simp)
    exact h.move (enter t hl) (by simp [St.inside]) (free hl t) c.1 c.2
  | submit hi hf =>
    have hl := ow t (by rw [hi]; rfl)
    have c := calm t .done (by rw [hi]; simp) (by rw [hi]; simp) (by simp) (by simp)
    refine h.move (passed_all h.passed _ ?_) (by simp [St.inside, hl]) (fun i _ => Iff.rfl) c.1 c.2
    intro a ha
    simp at ha
    rcases ha with rfl | rfl | rfl | rfl | rfl | rfl | rfl <;> exact gl t hl
  | apply full hi hf =>
    have hl := ow t (by rw [hi]; rfl)
    have c := calm t .done (by rw [hi]; simp) (by rw [hi]; simp) (by simp) (by simp)
    refine h.move (passed_all h.passed _ ?_) (by simp [St.inside, hl]) (fun i _ => Iff.rfl) c.1 c.2
    intro a ha
    simp at ha
    rcases ha with rfl | rfl | rfl | rfl | ⟨-, rfl⟩ | rfl | rfl | rfl | rfl | rfl | rfl <;> first | exact gl t hl | exact gf t hl hf
  | unlock hi =>
    have hl := ow t (by rw [hi]; rfl)
    have c := calm t .idle (by rw [hi]; simp) (by rw [hi]; simp) (by simp) (by simp)
    exact h.move (leave t hl) (by simp [St.inside]) (left t hl) c.1 c.2
  | test hi =>
    have c := calm t .wait (by rw [hi]; simp) (by rw [hi]; simp) (by simp) (by simp)
    have hn : s.lock ≠ some t := fun e => by have := (h.own t).2 e; rw [hi] at this; cases this
    refine h.move (passed_all h.passed _ ?_) (by simp [St.inside, hn]) (fun i _ => Iff.rfl) c.1 c.2
    intro a ha
    simp at ha; subst ha; trivial
  | wait hi hl =>
    have c := calm t .first (by rw [hi]; simp) (by rw [hi]; simp) (by simp) (by simp)
    exact h.move (enter t hl) (by simp [St.inside]) (free hl t) c.1 c.2
  | busy hi hf =>
    have hl := ow t (by rw [hi]; rfl)
    have c := calm t .done (by rw [hi]; simp) (by rw [hi]; simp) (by simp) (by simp)
    refine h.move (passed_all h.passed _ ?_) (by simp [St.inside, hl]) (fun i _ => Iff.rfl) c.1 c.2
    intro a ha
    simp at ha; subst ha; exact gl t hl
  | more hi hf =>
    have hl := ow p (by rw [hi]; rfl)
    have c := calm p .done (by rw [hi]; simp) (by rw [hi]; simp) (by simp) (by simp)
    refine h.move (passed_all h.passed _ ?_) (by simp [St.inside, hl]) (fun i _ => Iff.rfl) c.1 c.2
    intro a ha
    simp at ha
    rcases ha with rfl | rfl | rfl | rfl | rfl | rfl <;> first | rfl | exact gl p hl | exact gf p hl hf
  | begin hi hf =>
    have hl := ow p (by rw [hi]; rfl)
    refine h.move ?_ (by simp [St.inside]) (left p hl) (by simp) (fun c => absurd rfl c)
    have q := passed_all (t := p) h.passed [.rd .polling, .rd .rest, .wr .polling] (by
      intro a ha
      simp at ha
      rcases ha with rfl | rfl | rfl <;> first | exact gl p hl | exact gf p hl hf)
    have q := Passed.rel p () q (o' := owners p ⟨none, true, s.th⟩) (by
      intro k
      cases k with
      | lock => exact .inr ⟨gl p hl, by simp [owners, holder]⟩
      | flag => exact .inl (by rw [gf p hl hf]; simp [owners])
      | mine => exact .inl rfl)
    simpa using q
  | poll hi =>
    have hf := h.flag.1 (.inl hi)
    refine ⟨passed_all h.passed _ ?_, h.own, h.flag, h.other⟩
    intro a ha
    simp at ha
    rcases ha with rfl | rfl | rfl | rfl <;> exact gp hf
  | again hi hl =>
    have hf := h.flag.1 (.inl hi)
    exact h.move (enter p hl) (by simp [St.inside]) (free hl p) (by simp [State.set, hf]) (fun c => absurd rfl c)
  | finish hi =>
    have hf := h.flag.1 (.inr hi)
    have hl := ow p (by rw [hi]; rfl)
    refine h.move ?_ (by simp [St.inside, State.set, hl]) (fun i _ => Iff.rfl) (by simp) (fun c => absurd rfl c)
    have e : owners p ⟨s.lock, false, s.th⟩ = owners p s := by
      funext k
      cases k with
      | lock => rfl
      | flag => simp [owners, hf, hl, holder]
      | mine => rfl
    rw [show (s.set p .done).lock = s.lock from rfl, e]
    refine passed_all h.passed _ ?_
    intro a ha
    simp at ha
    rcases ha with rfl | rfl | rfl | rfl | rfl | rfl | rfl | rfl | rfl | rfl | rfl | rfl | rfl | rfl | rfl | rfl <;>
      first | rfl | exact gl p hl | exact gp hf
  | result hi =>
    refine ⟨passed_all h.passed _ ?_, h.own, h.flag, h.other⟩
    intro a ha
    simp at ha; subst ha; rfl
  | unmask hi =>
    refine ⟨passed_all h.passed _ ?_, h.own, h.flag, h.other⟩
    intro a ha
    simp at ha; subst ha; trivial

theorem inv_exec {p : Nat} {tr : Trace Unit Place Mark} {s : State} (r : Exec p .fresh tr s) : Inv p tr s := by
  generalize hs : State.fresh = s₀ at r
  induction r with
  | refl =>
    subst hs
    exact ⟨.nil _, fun t => by simp [State.fresh, St.inside], by simp [State.fresh], fun t _ => by simp [State.fresh]⟩
  | step _ st ih => exact ih.step st

/-! ## Main theorems -/

/-- The order of things does not depend on loose reads. -/
theorem hb_whole {tr : Trace Unit Place Mark} {i j : Nat} (h : HB tr i j) : HB (whole tr) i j := by
  have key : ∀ {i t a}, At tr i t a → ∃ b, At (whole tr) i t b ∧ (∀ l, a = .rel l → b = .rel l) ∧ (∀ l, a = .acq l → b = .acq l) := by
    intro i t a h
    have h : tr[i]? = some (t, a) := h
    refine ⟨_, by show (whole tr)[i]? = _; rw [whole, List.getElem?_map, h]; rfl, ?_, ?_⟩
    · rintro l rfl; rfl
    · rintro l rfl; rfl
  induction h with
  | thread h a b =>
    obtain ⟨_, a, -⟩ := key a
    obtain ⟨_, b, -⟩ := key b
    exact .thread h a b
  | mutex h a b =>
    obtain ⟨_, a, e, -⟩ := key a
    obtain ⟨_, b, -, f⟩ := key b
    exact .mutex h (e _ rfl ▸ a) (f _ rfl ▸ b)
  | trans _ _ a b => exact .trans a b

theorem loose_where {p : Nat} {tr : Trace Unit Place Mark} {s s' : State} (r : Exec p s tr s') {i t : Nat} {x : Place}
    (h : At tr i t (.ev (.loose x))) : x = .table ∨ x = .slot := by
  replace h : (t, .ev (.loose x)) ∈ tr := List.mem_of_getElem? h
  induction r with
  | refl => simp at h
  | step _ st ih =>
    rw [List.mem_append] at h
    rcases h with h | h
    · exact ih h
    · obtain ⟨a, ha, e⟩ := List.mem_map.1 h
      obtain ⟨-, rfl⟩ := Prod.mk.inj e
      cases st <;> simp at ha
      · exact .inl ha
      · exact .inr ha

theorem at_whole {tr : Trace Unit Place Mark} {i t : Nat} {a : Doing} (h : At (whole tr) i t a) :
    At tr i t a ∨ ∃ x, a = .rd x ∧ At tr i t (.ev (.loose x)) := by
  have h : (whole tr)[i]? = some (t, a) := h
  rw [whole, List.getElem?_map, Option.map_eq_some_iff] at h
  obtain ⟨⟨u, b⟩, hb, e⟩ := h
  obtain ⟨rfl, rfl⟩ := Prod.mk.inj e
  match b, hb with
  | .ev (.loose x), hb => exact .inr ⟨x, rfl, hb⟩
  | .rd x, hb => exact .inl hb
  | .wr x, hb => exact .inl hb
  | .acq x, hb => exact .inl hb
  | .rel x, hb => exact .inl hb

/-- If two accesses race, one of them is one of the two reads without the lock: of the fields that
tell whether the poller is initialised, or of the fields of a socket that is sent to or received from. -/
theorem poll_races_partial {p : Nat} {tr : Trace Unit Place Mark} {s : State} (r : Exec p .fresh tr s) {i j t u : Nat}
    {a b : Doing} {x : Place} (hi : At (whole tr) i t a) (hj : At (whole tr) j u b) (ne : t ≠ u) (ha : a.touches x)
    (hb : b.touches x) (n1 : ¬ HB (whole tr) i j) (n2 : ¬ HB (whole tr) j i) :
    (x = .table ∨ x = .slot) ∧ (At tr i t (.ev (.loose x)) ∨ At tr j u (.ev (.loose x))) := by
  rcases at_whole hi with hi' | ⟨y, rfl, hi'⟩
  · rcases at_whole hj with hj' | ⟨y, rfl, hj'⟩
    · exfalso
      rcases Nat.lt_trichotomy i j with c | c | c
      · exact n1 (hb_whole ((inv_exec r).passed.ordered c hi' hj' ha hb))
      · subst c; cases Option.some.inj (hi.symm.trans hj); exact ne rfl
      · exact n2 (hb_whole ((inv_exec r).passed.ordered c hj' hi' hb ha))
    · have hb : y = x := hb
      subst hb
      exact ⟨loose_where r hj', .inr hj'⟩
  · have ha : y = x := ha
    subst ha
    exact ⟨loose_where r hi', .inl hi'⟩

/-- A thread calls `sc_sock_poll_wait` while another adds a socket. -/
def initTrace : Trace Unit Place Mark :=
  [(1, .ev (.loose .table)), (2, .acq ()), (2, .rd .polling), (2, .rd .fdt), (2, .rd .count), (2, .rd .table), (2, .wr .table),
   (2, .wr .count), (2, .rd .entries), (2, .wr .entries), (2, .rd .slot), (2, .wr .slot), (2, .wr .fdt)]

/-- **C141 is violated** by `sc_sock_poll_wait` on Windows: whether the poller is initialised is read
without the lock, and `sc_sock_poll_add` in another thread may replace that pointer. -/
theorem poll_init_race_violated : ∃ s, Exec 1 .fresh initTrace s ∧ Racy (whole initTrace) := by
  have r1 : Exec 1 .fresh _ _ := .step .refl (.test (t := 1) rfl)
  have r2 := Exec.step r1 (.lock (t := 2) rfl rfl)
  have r3 := Exec.step r2 (.apply (t := 2) true rfl rfl)
  refine ⟨_, r3, 0, 6, 1, 2, .rd .table, .wr .table, .table, rfl, rfl, by decide, rfl, rfl, .inr rfl, ?_, fun h => ?_⟩
  · refine Verif.Race.no_hb_of_last (a := .rd .table) rfl (t := 1) (fun j b hj h => ?_) (by simp) 6
    have hl := lt_of_some h
    have key : ∀ j, j < 13 → 0 < j → (whole initTrace)[j]?.map (·.1) = some 2 := by decide
    have := key j hl hj
    rw [show (whole initTrace)[j]? = some (1, b) from h] at this
    cases this
  · have := h.lt; omega

/-- A thread adds a socket while another polls, and then receives from it. -/
def maskTrace : Trace Unit Place Mark :=
  [(1, .ev (.loose .table)), (1, .acq ()), (1, .rd .polling), (1, .rd .rest), (1, .wr .polling), (1, .rel ()),
   (2, .acq ()), (2, .rd .polling), (2, .rd .ops), (2, .rd .fdt), (2, .rd .slot), (2, .wr .ops), (2, .wr .slot), (2, .wr .fdt), (2, .rel ()),
   (2, .ev (.loose .slot)),
   (1, .acq ()), (1, .rd .polling), (1, .wr .polling), (1, .rd .ops), (1, .wr .ops), (1, .rd .fdt), (1, .rd .slot), (1, .wr .slot), (1, .wr .fdt),
   (1, .rd .table), (1, .wr .table), (1, .rd .count), (1, .wr .count), (1, .rd .entries), (1, .wr .entries), (1, .wr .results), (1, .wr .rest)]

/-- **C141 is violated** by `sc_sock_send` and `sc_sock_recv` on Windows: they read without the lock
where the socket is registered, which the polling thread stores when it does what was submitted. -/
theorem poll_mask_race_violated : ∃ s, Exec 1 .fresh maskTrace s ∧ Racy (whole maskTrace) := by
  have r1 : Exec 1 .fresh _ _ := .step .refl (.test (t := 1) rfl)
  have r2 := Exec.step r1 (.wait (t := 1) rfl rfl)
  have r3 := Exec.step r2 (.begin rfl rfl)
  have r4 := Exec.step r3 (.lock (t := 2) rfl rfl)
  have r5 := Exec.step r4 (.submit (t := 2) rfl rfl)
  have r6 := Exec.step r5 (.unlock (t := 2) rfl)
  have r7 := Exec.step r6 (.unmask (t := 2) rfl)
  have r8 := Exec.step r7 (.again rfl rfl)
  have r9 := Exec.step r8 (.finish rfl)
  refine ⟨_, r9, 15, 23, 2, 1, .rd .slot, .wr .slot, .slot, rfl, rfl, by decide, rfl, rfl, .inr rfl, ?_, fun h => ?_⟩
  · refine Verif.Race.no_hb_of_last (a := .rd .slot) rfl (t := 2) (fun j b hj h => ?_) (by simp) 23
    have hl := lt_of_some h
    have key : ∀ j, j < 33 → 15 < j → (whole maskTrace)[j]?.map (·.1) = some 1 := by decide
    have := key j hl hj
    rw [show (whole maskTrace)[j]? = some (2, b) from h] at this
    cases this
  · have := h.lt; omega

end Verif.Poll.Race
