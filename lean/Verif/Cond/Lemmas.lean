import Verif.Cond.Model

/-! # Invariants of the condition object, and its simulation by a box -/

namespace Verif.Cond

open Spec (Op Event Phase Box Act)

@[simp] theorem set_th (s : State) (t : Nat) (x : Status) (i : Nat) :
    (s.set t x).th i = if i = t then x else s.th i := rfl
@[simp] theorem set_lock (s : State) (t : Nat) (x : Status) : (s.set t x).lock = s.lock := rfl
@[simp] theorem set_done (s : State) (t : Nat) (x : Status) : (s.set t x).done = s.done := rfl
@[simp] theorem set_data (s : State) (t : Nat) (x : Status) : (s.set t x).data = s.data := rfl
@[simp] theorem wake_th (s : State) (p : Nat → Bool) (i : Nat) :
    (s.wake p).th i = if s.th i = .blocked ∧ p i = true then .relock else s.th i := rfl
@[simp] theorem wake_lock (s : State) (p : Nat → Bool) : (s.wake p).lock = s.lock := rfl
@[simp] theorem wake_done (s : State) (p : Nat → Bool) : (s.wake p).done = s.done := rfl
@[simp] theorem wake_data (s : State) (p : Nat → Bool) : (s.wake p).data = s.data := rfl

/-- The thread is between locking and unlocking the mutex. -/
def Status.inside : Status → Bool
  | .sData _ | .sDone _ | .sWake _ | .sUnlock _ => true
  | .wTest | .wBlock | .wRead | .wData _ | .wDone _ | .wUnlock _ => true
  | _ => false

/-- The thread is in a wait, awake, and the flag decides whether it will take the value. -/
def Status.awake : Status → Bool
  | .wLock | .relock | .wTest | .wRead | .wData _ | .wDone _ => true
  | _ => false

/-- What the thread knows about the flag. -/
def Status.knows (d : Bool) : Status → Prop
  | .sWake _ | .sUnlock _ | .wRead | .wData _ | .wDone _ => d = true
  | .wBlock | .wUnlock _ => d = false
  | _ => True

structure WF (s : State) : Prop where
  own : ∀ t, (s.th t).inside = true ↔ s.lock = some t
  knows : ∀ t, (s.th t).knows s.done
  awake : s.done = true → (∃ i, s.th i = .blocked) →
    (∃ t d, s.th t = .sWake d) ∨ ∃ t, (s.th t).awake = true

theorem WF.fresh : WF .fresh :=
  ⟨fun t => by simp [State.fresh, Status.inside], fun t => by simp [State.fresh, Status.knows],
    fun h => by simp [State.fresh] at h⟩

/-- Two threads are not inside together. -/
theorem WF.alone {s : State} (h : WF s) {t i : Nat} (ht : (s.th t).inside = true)
    (hi : (s.th i).inside = true) : i = t := by
  have a := (h.own t).1 ht
  have b := (h.own i).1 hi
  rw [a] at b; exact (Option.some.inj b).symm

theorem knows_out {x : Status} (h : x.inside = false) (d : Bool) : x.knows d := by
  cases x <;> simp_all [Status.inside, Status.knows]

/-- The thread will take the value or wake somebody who can. -/
def Status.cares : Status → Bool
  | .sWake _ => true
  | x => x.awake

theorem cares_iff {x : Status} : x.cares = true ↔ (∃ d, x = .sWake d) ∨ x.awake = true := by
  cases x <;> simp [Status.cares, Status.awake]

theorem awake_cares {s : State} : ((∃ t d, s.th t = .sWake d) ∨ ∃ t, (s.th t).awake = true) ↔
    ∃ t, (s.th t).cares = true := by
  constructor
  · rintro (⟨t, d, h⟩ | ⟨t, h⟩)
    · exact ⟨t, cares_iff.2 (.inl ⟨d, h⟩)⟩
    · exact ⟨t, cares_iff.2 (.inr h)⟩
  · rintro ⟨t, h⟩
    rcases cares_iff.1 h with ⟨d, h⟩ | h
    · exact .inl ⟨t, d, h⟩
    · exact .inr ⟨t, h⟩

/-- A thread moves on and maybe changes the fields. -/
theorem WF.move {s : State} (h : WF s) {t : Nat} {x : Status} {l : Option Nat} {d : Bool} {v : Nat}
    (own : x.inside = true ↔ l = some t) (oth : ∀ i, i ≠ t → (l = some i ↔ s.lock = some i))
    (kn : x.knows d) (kd : d = s.done ∨ (s.th t).inside = true)
    (nb : x = .blocked → d = false)
    (aw : d = true → x.cares = true ∨ (s.done = true ∧ (s.th t).cares = false)) :
    WF { s.set t x with lock := l, done := d, data := v } := by
  refine ⟨fun i => ?_, fun i => ?_, fun hd hb => ?_⟩
  · by_cases hi : i = t
    · subst hi; simpa using own
    · simp only [set_th, if_neg hi]; rw [h.own, oth i hi]
  · by_cases hi : i = t
    · subst hi; simpa using kn
    · simp only [set_th, if_neg hi]
      rcases kd with kd | kd
      · rw [kd]; exact h.knows i
      · refine knows_out ?_ d
        by_cases hx : (s.th i).inside = true
        · exact absurd (h.alone kd hx) hi
        · simpa using hx
  · rw [awake_cares]
    simp only [set_th]
    rcases aw hd with hx | ⟨h1, h2⟩
    · exact ⟨t, by simpa using hx⟩
    · obtain ⟨i, hi⟩ := hb
      simp only [set_th] at hi
      have hb' : ∃ i, s.th i = .blocked := by
        by_cases e : i = t
        · rw [if_pos e] at hi; rw [nb hi] at hd; cases hd
        · rw [if_neg e] at hi; exact ⟨i, hi⟩
      obtain ⟨j, hj⟩ := awake_cares.1 (h.awake h1 hb')
      have : j ≠ t := by rintro rfl; rw [h2] at hj; cases hj
      exact ⟨j, by rw [if_neg this]; exact hj⟩

/-- Waking blocked threads. -/
theorem WF.wake {s : State} (h : WF s) (p : Nat → Bool) : WF (s.wake p) := by
  refine ⟨fun i => ?_, fun i => ?_, fun hd hb => ?_⟩
  · have := h.own i
    simp only [wake_th, wake_lock]
    split
    · rename_i hc; rw [hc.1] at this; simpa [Status.inside] using this
    · exact this
  · simp only [wake_th, wake_done]
    split
    · exact trivial
    · exact h.knows i
  · have hb' : ∃ i, s.th i = .blocked := by
      obtain ⟨i, hi⟩ := hb
      simp only [wake_th] at hi
      split at hi
      · cases hi
      · exact ⟨i, hi⟩
    obtain ⟨j, hj⟩ := awake_cares.1 (h.awake hd hb')
    refine awake_cares.2 ⟨j, ?_⟩
    simp only [wake_th]
    rw [if_neg]
    · exact hj
    · rintro ⟨e, -⟩; rw [e] at hj; cases hj

theorem WF.step {s s' : State} {l : Label} (h : WF s) (st : Step s l s') : WF s' := by
  have nl : ∀ t, (s.th t).inside = false → s.lock ≠ some t := fun t e hl => by
    rw [(h.own t).2 hl] at e; cases e
  have ow : ∀ t, (s.th t).inside = true → s.lock = some t := fun t => (h.own t).1
  have kn := h.knows
  have other : ∀ t, (s.th t).inside = true → ∀ i, i ≠ t → ((none : Option Nat) = some i ↔ s.lock = some i) := by
    intro t e i hi
    rw [ow t e]; simp; exact fun h => hi h.symm
  have gain : s.lock = none → ∀ t i, i ≠ t → (some t = some i ↔ s.lock = some i) := by
    intro e t i hi
    rw [e]; simp; exact fun h => hi h.symm
  cases st with
  | call t op hi =>
    have hl := nl t (by rw [hi]; rfl)
    refine h.move (t := t) (x := Op.entry op) (l := s.lock) (d := s.done) (v := s.data) ?_ (fun _ _ => Iff.rfl) ?_ (.inl rfl) ?_ ?_
    · cases op <;> simpa [Op.entry, Status.inside] using hl
    · cases op <;> trivial
    · cases op <;> simp [Op.entry]
    · exact fun e => .inr ⟨e, by rw [hi]; rfl⟩
  | sLock hi hl =>
    exact h.move (by simp [Status.inside]) (gain hl _) trivial (.inl rfl) (by simp) (fun e => .inr ⟨e, by rw [hi]; rfl⟩)
  | sData hi =>
    exact h.move (by simp [Status.inside, ow _ (by rw [hi]; rfl)]) (fun _ _ => Iff.rfl) trivial (.inl rfl) (by simp)
      (fun e => .inr ⟨e, by rw [hi]; rfl⟩)
  | sDone hi =>
    exact h.move (by simp [Status.inside, ow _ (by rw [hi]; rfl)]) (fun _ _ => Iff.rfl) rfl (.inr (by rw [hi]; rfl)) (by simp)
      (fun e => .inl rfl)
  | @sWake t d p hi hp =>
    have hk : s.done = true := by have := kn t; rw [hi] at this; exact this
    have hw := h.wake p
    have hi' : (s.wake p).th t = .sWake d := by simp [hi]
    refine ⟨fun i => ?_, fun i => ?_, fun hd hb => ?_⟩
    · have := hw.own i
      by_cases e : i = t
      · subst e; simp only [set_th, if_pos, set_lock]; rw [← hw.own, hi']; rfl
      · simpa [e] using this
    · by_cases e : i = t
      · subst e; simpa [Status.knows] using hk
      · simpa [e] using hw.knows i
    · obtain ⟨i, hb⟩ := hb
      simp only [set_th] at hb
      split at hb
      · cases hb
      · simp only [wake_th] at hb
        split at hb
        · cases hb
        · obtain ⟨j, h1, h2⟩ := hp ⟨i, hb⟩
          have e : j ≠ t := by rintro rfl; rw [hi] at h1; cases h1
          exact .inr ⟨j, by simp [e, h1, h2, Status.awake]⟩
  | sUnlock hi =>
    exact h.move (by simp [Status.inside]) (other _ (by rw [hi]; rfl)) trivial (.inl rfl) (by simp)
      (fun e => .inr ⟨e, by rw [hi]; rfl⟩)
  | wLock hi hl =>
    exact h.move (by simp [Status.inside]) (gain hl _) trivial (.inl rfl) (by simp) (fun e => .inl rfl)
  | @wTest t hi =>
    have hlk := ow t (by rw [hi]; rfl)
    refine h.move (t := t) (x := if s.done = false then .wBlock else .wRead) (l := s.lock) (d := s.done) (v := s.data)
      ?_ (fun _ _ => Iff.rfl) ?_ (.inl rfl) ?_ ?_
    · split <;> simpa [Status.inside] using hlk
    · split
      · assumption
      · simpa [Status.knows] using ‹¬ s.done = false›
    · split <;> simp
    · intro e; rw [if_neg (by simp [e])]; exact .inl rfl
  | @wBlock t hi =>
    have hk : s.done = false := by have := kn t; rw [hi] at this; exact this
    exact h.move (by simp [Status.inside]) (other _ (by rw [hi]; rfl)) trivial (.inl rfl) (fun _ => hk)
      (fun e => by simp [hk] at e)
  | @spurious t hi =>
    have hl := nl t (by rw [hi]; rfl)
    exact h.move (t := t) (x := .relock) (l := s.lock) (d := s.done) (v := s.data) (by simpa [Status.inside] using hl)
      (fun _ _ => Iff.rfl) trivial (.inl rfl) (by simp) (fun _ => .inl rfl)
  | relock hi hl =>
    exact h.move (by simp [Status.inside]) (gain hl _) trivial (.inl rfl) (by simp) (fun e => .inl rfl)
  | @wRead t hi =>
    have hk : s.done = true := by have := kn t; rw [hi] at this; exact this
    exact h.move (t := t) (x := .wData s.data) (l := s.lock) (d := s.done) (v := s.data)
      (by simp [Status.inside, ow t (by rw [hi]; rfl)])
      (fun _ _ => Iff.rfl) hk (.inl rfl) (by simp) (fun _ => .inl rfl)
  | @wData t v hi =>
    have hk : s.done = true := by have := kn t; rw [hi] at this; exact this
    exact h.move (by simp [Status.inside, ow t (by rw [hi]; rfl)])
      (fun _ _ => Iff.rfl) hk (.inl rfl) (by simp) (fun _ => .inl rfl)
  | @wDone t v hi =>
    exact h.move (by simp [Status.inside, ow t (by rw [hi]; rfl)])
      (fun _ _ => Iff.rfl) rfl (.inr (by rw [hi]; rfl)) (by simp) (fun e => by cases e)
  | @wUnlock t v hi =>
    exact h.move (by simp [Status.inside]) (other _ (by rw [hi]; rfl)) trivial (.inl rfl) (by simp)
      (fun e => .inr ⟨e, by rw [hi]; rfl⟩)

theorem WF.run {s s' : State} {es : List Event} (h : WF s) (r : Run s es s') : WF s' := by
  induction r with
  | refl => exact h
  | step _ st ih => exact ih.step st

/-! ## The simulation -/

/-- Where the thread of a box is. -/
def Status.phase : Status → Phase
  | .idle => .idle
  | .sLock d | .sData d | .sDone d => .pending (.signal d)
  | .sWake d | .sUnlock d => .finished (.signal d) 0
  | .wLock | .wTest | .wBlock | .blocked | .relock | .wRead => .pending .wait
  | .wData v | .wDone v | .wUnlock v => .finished .wait v

/-- The thread is in the middle of changing the fields. -/
def Status.mid : Status → Bool
  | .sDone _ | .wData _ | .wDone _ => true
  | _ => false

/-- The box corresponds to the object. -/
structure Sim (s : State) (b : Box) : Prop where
  th : ∀ t, b.th t = (s.th t).phase
  slot : (∀ t, (s.th t).mid = false) → b.slot = if s.done then some s.data else none
  clear : ∀ t v, s.th t = .wData v ∨ s.th t = .wDone v → b.slot = none
  val : ∀ t d, s.th t = .sDone d → s.data = d

theorem Sim.fresh : Sim .fresh .empty :=
  ⟨fun _ => rfl, fun _ => by simp [State.fresh, Box.empty], fun t v h => by simp [State.fresh] at h,
    fun t v h => by simp [State.fresh] at h⟩

theorem mid_inside {x : Status} (h : x.mid = true) : x.inside = true := by
  cases x <;> simp_all [Status.mid, Status.inside]

/-- A thread moves on, the box follows. -/
theorem Sim.move {s : State} {b b' : Box} (w : WF s) (m : Sim s b) {t : Nat} {x : Status} {l : Option Nat}
    {d : Bool} {v : Nat} (hth : ∀ i, b'.th i = if i = t then x.phase else b.th i)
    (hs : x.mid = false → (∀ i, i ≠ t → (s.th i).mid = false) → b'.slot = if d then some v else none)
    (hc : ∀ u, x = .wData u ∨ x = .wDone u → b'.slot = none)
    (hv : ∀ u, x = .sDone u → v = u)
    (ho : (b'.slot = b.slot ∧ v = s.data) ∨ (s.th t).inside = true) :
    Sim { s.set t x with lock := l, done := d, data := v } b' := by
  have out : (s.th t).inside = true → ∀ i, i ≠ t → (s.th i).inside = false := by
    intro a i hi
    by_cases e : (s.th i).inside = true
    · exact absurd (w.alone a e) hi
    · simpa using e
  refine ⟨fun i => ?_, fun h => ?_, fun i u h => ?_, fun i u h => ?_⟩
  · by_cases e : i = t
    · subst e; simp [hth]
    · simp [hth, e, m.th]
  · refine hs (by simpa using h t) fun i hi => ?_
    have := h i
    simpa [hi] using this
  · by_cases e : i = t
    · subst e; simp only [set_th, if_pos] at h; exact hc u h
    · simp only [set_th, if_neg e] at h
      rcases ho with ⟨ho, -⟩ | ho
      · rw [ho]; exact m.clear i u h
      · have := out ho i e; rcases h with h | h <;> rw [h] at this <;> cases this
  · by_cases e : i = t
    · subst e; simp only [set_th, if_pos] at h; exact hv u h
    · simp only [set_th, if_neg e] at h
      rcases ho with ⟨-, ho⟩ | ho
      · rw [ho]; exact m.val i u h
      · have := out ho i e; rw [h] at this; cases this

/-- Every step of the object is followed by steps of the box that look the same. -/
theorem Sim.step {s s' : State} {l : Label} {b : Box} (w : WF s) (m : Sim s b) (st : Step s l s') :
    ∃ acts b', (acts = [] ∧ b' = b ∨ ∃ a, acts = [a] ∧ Spec.Step b a b') ∧
      acts.filterMap Act.seen = l.seen ∧ Sim s' b' := by
  have quiet : ∀ {t}, (s.th t).inside = true → (s.th t).mid = false → ∀ i, (s.th i).mid = false := by
    intro t a c i
    by_cases e : i = t
    · rw [e]; exact c
    · by_cases f : (s.th i).mid = true
      · exact absurd (w.alone a (mid_inside f)) e
      · simpa using f
  have all : ∀ {t}, (s.th t).mid = false → (∀ i, i ≠ t → (s.th i).mid = false) → ∀ i, (s.th i).mid = false := by
    intro t a c i
    by_cases e : i = t
    · rw [e]; exact a
    · exact c i e
  cases st with
  | call t op hi =>
    refine ⟨[.ev (.call t op)], _, .inr ⟨_, rfl, .call t op (by rw [m.th, hi]; rfl)⟩, rfl, ?_⟩
    refine m.move w (t := t) (x := Op.entry op) (l := s.lock) (d := s.done) (v := s.data) (fun i => ?_) (fun _ h => ?_) ?_ ?_ (.inl ⟨rfl, rfl⟩)
    · cases op <;> rfl
    · exact m.slot (all (by rw [hi]; rfl) h)
    · cases op <;> simp [Op.entry]
    · cases op <;> simp [Op.entry]
  | @sLock t d hi hl =>
    refine ⟨[], b, .inl ⟨rfl, rfl⟩, rfl, ?_⟩
    refine m.move w (fun i => ?_) (fun _ h => ?_) (by simp) (by simp) (.inl ⟨rfl, rfl⟩)
    · rw [m.th]; split
      · next e => rw [e, hi]; rfl
      · rfl
    · exact m.slot (all (by rw [hi]; rfl) h)
  | @sData t d hi =>
    refine ⟨[], b, .inl ⟨rfl, rfl⟩, rfl, ?_⟩
    refine m.move w (fun i => ?_) (fun h => by cases h) (by simp) (by simp) (.inr (by rw [hi]; rfl))
    rw [m.th]; split
    · next e => rw [e, hi]; rfl
    · rfl
  | @sDone t d hi =>
    refine ⟨[.put t d], _, .inr ⟨_, rfl, .put (by rw [m.th, hi]; rfl)⟩, rfl, ?_⟩
    refine m.move w (fun i => rfl) (fun _ _ => ?_) (by simp) (by simp) (.inr (by rw [hi]; rfl))
    simp [m.val t d hi]
  | @sWake t d p hi hp =>
    refine ⟨[], b, .inl ⟨rfl, rfl⟩, rfl, ?_⟩
    have key : ∀ i, ((s.wake p).set t (.sUnlock d)).th i = s.th i ∨ (i = t ∧ ((s.wake p).set t (.sUnlock d)).th i = .sUnlock d) ∨
        (s.th i = .blocked ∧ ((s.wake p).set t (.sUnlock d)).th i = .relock) := by
      intro i
      simp only [set_th, wake_th]
      by_cases e : i = t
      · simp [e]
      · rw [if_neg e]; split
        · next h => exact .inr (.inr ⟨h.1, rfl⟩)
        · exact .inl rfl
    refine ⟨fun i => ?_, fun h => ?_, fun i u h => ?_, fun i u h => ?_⟩
    · rcases key i with k | ⟨e, k⟩ | ⟨e, k⟩
      · rw [k, m.th]
      · rw [k, m.th, e, hi]; rfl
      · rw [k, m.th, e]; rfl
    · exact m.slot (quiet (t := t) (by rw [hi]; rfl) (by rw [hi]; rfl))
    · rcases key i with k | ⟨e, k⟩ | ⟨e, k⟩
      · rw [k] at h; exact m.clear i u h
      · rw [k] at h; rcases h with h | h <;> cases h
      · rw [k] at h; rcases h with h | h <;> cases h
    · rcases key i with k | ⟨e, k⟩ | ⟨e, k⟩
      · rw [k] at h; exact m.val i u h
      · rw [k] at h; cases h
      · rw [k] at h; cases h
  | @sUnlock t d hi =>
    refine ⟨[.ev (.ret t (.signal d) 0)], _, .inr ⟨_, rfl, .ret (by rw [m.th, hi]; rfl)⟩, rfl, ?_⟩
    refine m.move w (fun i => rfl) (fun _ h => ?_) (by simp) (by simp) (.inl ⟨rfl, rfl⟩)
    exact m.slot (all (by rw [hi]; rfl) h)
  | @wLock t hi hl =>
    refine ⟨[], b, .inl ⟨rfl, rfl⟩, rfl, ?_⟩
    refine m.move w (fun i => ?_) (fun _ h => ?_) (by simp) (by simp) (.inl ⟨rfl, rfl⟩)
    · rw [m.th]; split
      · next e => rw [e, hi]; rfl
      · rfl
    · exact m.slot (all (by rw [hi]; rfl) h)
  | @wTest t hi =>
    refine ⟨[], b, .inl ⟨rfl, rfl⟩, rfl, ?_⟩
    refine m.move w (t := t) (x := if s.done = false then .wBlock else .wRead) (l := s.lock) (d := s.done) (v := s.data)
      (fun i => ?_) (fun _ h => ?_) ?_ ?_ (.inl ⟨rfl, rfl⟩)
    · rw [m.th]; split
      · next e => rw [e, hi]; split <;> rfl
      · rfl
    · exact m.slot (all (by rw [hi]; rfl) h)
    · split <;> simp
    · split <;> simp
  | @wBlock t hi =>
    refine ⟨[], b, .inl ⟨rfl, rfl⟩, rfl, ?_⟩
    refine m.move w (fun i => ?_) (fun _ h => ?_) (by simp) (by simp) (.inl ⟨rfl, rfl⟩)
    · rw [m.th]; split
      · next e => rw [e, hi]; rfl
      · rfl
    · exact m.slot (all (by rw [hi]; rfl) h)
  | @spurious t hi =>
    refine ⟨[], b, .inl ⟨rfl, rfl⟩, rfl, ?_⟩
    refine m.move w (t := t) (x := .relock) (l := s.lock) (d := s.done) (v := s.data) (fun i => ?_) (fun _ h => ?_) (by simp) (by simp) (.inl ⟨rfl, rfl⟩)
    · rw [m.th]; split
      · next e => rw [e, hi]; rfl
      · rfl
    · exact m.slot (all (by rw [hi]; rfl) h)
  | @relock t hi hl =>
    refine ⟨[], b, .inl ⟨rfl, rfl⟩, rfl, ?_⟩
    refine m.move w (fun i => ?_) (fun _ h => ?_) (by simp) (by simp) (.inl ⟨rfl, rfl⟩)
    · rw [m.th]; split
      · next e => rw [e, hi]; rfl
      · rfl
    · exact m.slot (all (by rw [hi]; rfl) h)
  | @wRead t hi =>
    have hk : s.done = true := by have := w.knows t; rw [hi] at this; exact this
    have hb : b.slot = some s.data := by
      rw [m.slot (quiet (t := t) (by rw [hi]; rfl) (by rw [hi]; rfl)), if_pos hk]
    refine ⟨[.take t s.data], _, .inr ⟨_, rfl, .take (by rw [m.th, hi]; rfl) hb⟩, rfl, ?_⟩
    exact m.move w (t := t) (x := .wData s.data) (l := s.lock) (d := s.done) (v := s.data) (fun i => rfl) (fun h => by cases h)
      (fun _ _ => rfl) (by simp) (.inr (by rw [hi]; rfl))
  | @wData t v hi =>
    refine ⟨[], b, .inl ⟨rfl, rfl⟩, rfl, ?_⟩
    refine m.move w (fun i => ?_) (fun h => by cases h) (fun _ _ => m.clear t v (.inl hi)) (by simp) (.inr (by rw [hi]; rfl))
    rw [m.th]; split
    · next e => rw [e, hi]; rfl
    · rfl
  | @wDone t v hi =>
    refine ⟨[], b, .inl ⟨rfl, rfl⟩, rfl, ?_⟩
    refine m.move w (fun i => ?_) (fun _ _ => m.clear t v (.inr hi)) (by simp) (by simp) (.inr (by rw [hi]; rfl))
    rw [m.th]; split
    · next e => rw [e, hi]; rfl
    · rfl
  | @wUnlock t v hi =>
    refine ⟨[.ev (.ret t .wait v)], _, .inr ⟨_, rfl, .ret (by rw [m.th, hi]; rfl)⟩, rfl, ?_⟩
    refine m.move w (fun i => rfl) (fun _ h => ?_) (by simp) (by simp) (.inl ⟨rfl, rfl⟩)
    exact m.slot (all (by rw [hi]; rfl) h)

/-! ## Counting in a box -/

/-- A list with no more of anything is no longer. -/
theorem length_le_of_count_le {l₁ l₂ : List Nat} (h : ∀ a, l₁.count a ≤ l₂.count a) : l₁.length ≤ l₂.length := by
  induction l₁ generalizing l₂ with
  | nil => simp
  | cons x l ih =>
    have hx : x ∈ l₂ := by
      have := h x
      rw [List.count_cons_self] at this
      exact List.count_pos_iff.1 (by omega)
    have := ih (l₂ := l₂.erase x) fun a => by
      have := h a
      rw [List.count_erase]
      rw [List.count_cons] at this
      grind
    rw [List.length_erase_of_mem hx] at this
    have : 0 < l₂.length := List.length_pos_of_mem hx
    grind

end Verif.Cond
