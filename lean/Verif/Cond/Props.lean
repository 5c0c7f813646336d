import Verif.Cond.Lemmas

/-! # Properties of the condition object -/

namespace Verif.Cond

open Spec (Op Event Phase Box Act Linearizable)

/-! ## It is a box -/

theorem sim_run {es : List Event} {s : State} (r : Run .fresh es s) :
    ∃ acts b, Spec.Run .empty acts b ∧ acts.filterMap Act.seen = es ∧ Sim s b := by
  have hs : ∀ {s₀ es s}, Run s₀ es s → s₀ = .fresh →
      ∃ acts b, Spec.Run .empty acts b ∧ acts.filterMap Act.seen = es ∧ Sim s b := by
    intro s₀ es s r
    induction r with
    | refl => intro e; subst e; exact ⟨[], .empty, .refl, rfl, .fresh⟩
    | @step s₁ s₂ l es r st ih =>
      intro e
      obtain ⟨acts, b, h1, h2, h3⟩ := ih e
      have w : WF s₁ := WF.run (e ▸ .fresh) r
      obtain ⟨a', b', h4, h5, h6⟩ := h3.step w st
      refine ⟨acts ++ a', b', ?_, by rw [List.filterMap_append, h2, h5], h6⟩
      rcases h4 with ⟨rfl, rfl⟩ | ⟨a, rfl, h4⟩
      · simpa using h1
      · exact .step h1 h4
  exact hs r rfl

/-- **C65.** Whatever the threads do and however their steps mix, with any number of spurious
wakeups, the calls and returns are those of a box for one value: a wait takes the last value put,
and nobody else takes it. -/
theorem linearizable {es : List Event} {s : State} (r : Run .fresh es s) : Linearizable es := by
  obtain ⟨acts, b, h1, h2, -⟩ := sim_run r
  exact ⟨acts, b, h1, h2⟩

/-! ## No value is taken twice -/

/-- The thread, if the event is a return of a wait with this value. -/
def got (v : Nat) : Event → Bool
  | .ret _ .wait u => u = v
  | _ => false

/-- The event is a call of a signal with this value. -/
def sent (v : Nat) : Event → Bool
  | .call _ (.signal d) => d = v
  | _ => false

def actGot (v : Nat) : Act → Option Nat
  | .ev (.ret t .wait u) => if u = v then some t else none
  | _ => none

def actTake (v : Nat) : Act → Option Nat
  | .take t u => if u = v then some t else none
  | _ => none

def actPut (v : Nat) : Act → Option Nat
  | .put t u => if u = v then some t else none
  | _ => none

def actSent (v : Nat) : Act → Option Nat
  | .ev (.call t (.signal u)) => if u = v then some t else none
  | _ => none

theorem box_got {b : Box} {acts : List Act} (r : Spec.Run .empty acts b) (v t : Nat) :
    (acts.filterMap (actGot v)).count t + (if b.th t = .finished .wait v then 1 else 0) =
      (acts.filterMap (actTake v)).count t := by
  generalize hb : Box.empty = b₀ at r
  induction r with
  | refl => subst hb; simp [Box.empty]
  | step r st ih =>
    rw [List.filterMap_append, List.filterMap_append, List.count_append, List.count_append, ← ih]
    cases st with
    | call i op hi =>
      by_cases e : t = i
      · subst e; cases op <;> simp [List.filterMap_cons, actGot, actTake, Box.set, hi]
      · simp [List.filterMap_cons, actGot, actTake, Box.set, e]
    | @put i d hi =>
      by_cases e : t = i
      · subst e; simp [List.filterMap_cons, actGot, actTake, Box.set, hi]
      · simp [List.filterMap_cons, actGot, actTake, Box.set, e]
    | @take i u hi hu =>
      by_cases e : t = i
      · subst e
        by_cases eu : u = v <;> simp [List.filterMap_cons, actGot, actTake, Box.set, hi, eu]
      · by_cases eu : u = v
        · simp [List.filterMap_cons, actGot, actTake, Box.set, e, eu, Ne.symm e]
        · simp [List.filterMap_cons, actGot, actTake, Box.set, e, eu]
    | @ret i op u hi =>
      by_cases e : t = i
      · subst e
        cases op with
        | signal d => simp [List.filterMap_cons, actGot, actTake, Box.set, hi]
        | wait => by_cases eu : u = v <;> simp [List.filterMap_cons, actGot, actTake, Box.set, hi, eu]
      · cases op with
        | signal d => simp [List.filterMap_cons, actGot, actTake, Box.set, e]
        | wait =>
          by_cases eu : u = v
          · simp [List.filterMap_cons, actGot, actTake, Box.set, e, eu, Ne.symm e]
          · simp [List.filterMap_cons, actGot, actTake, Box.set, e, eu]

theorem box_sent {b : Box} {acts : List Act} (r : Spec.Run .empty acts b) (v t : Nat) :
    (acts.filterMap (actPut v)).count t + (if b.th t = .pending (.signal v) then 1 else 0) =
      (acts.filterMap (actSent v)).count t := by
  generalize hb : Box.empty = b₀ at r
  induction r with
  | refl => subst hb; simp [Box.empty]
  | step r st ih =>
    rw [List.filterMap_append, List.filterMap_append, List.count_append, List.count_append, ← ih]
    cases st with
    | call i op hi =>
      by_cases e : t = i
      · subst e
        cases op with
        | wait => simp [List.filterMap_cons, actPut, actSent, Box.set, hi]
        | signal d => by_cases ed : d = v <;> simp [List.filterMap_cons, actPut, actSent, Box.set, hi, ed]
      · cases op with
        | wait => simp [List.filterMap_cons, actPut, actSent, Box.set, e]
        | signal d =>
          by_cases ed : d = v
          · simp [List.filterMap_cons, actPut, actSent, Box.set, e, ed, Ne.symm e]
          · simp [List.filterMap_cons, actPut, actSent, Box.set, e, ed]
    | @put i d hi =>
      by_cases e : t = i
      · subst e
        by_cases ed : d = v <;> simp [List.filterMap_cons, actPut, actSent, Box.set, hi, ed]
      · by_cases ed : d = v
        · simp [List.filterMap_cons, actPut, actSent, Box.set, e, ed, Ne.symm e]
        · simp [List.filterMap_cons, actPut, actSent, Box.set, e, ed]
    | @take i u hi hu =>
      by_cases e : t = i
      · subst e; simp [List.filterMap_cons, actPut, actSent, Box.set, hi]
      · simp [List.filterMap_cons, actPut, actSent, Box.set, e]
    | @ret i op u hi =>
      by_cases e : t = i
      · subst e; simp [List.filterMap_cons, actPut, actSent, Box.set, hi]
      · simp [List.filterMap_cons, actPut, actSent, Box.set, e]

theorem Box.set_slot (b : Box) (t : Nat) (p : Phase) : (b.set t p).slot = b.slot := rfl

theorem box_take {b : Box} {acts : List Act} (r : Spec.Run .empty acts b) (v : Nat) :
    (acts.filterMap (actTake v)).length + (if b.slot = some v then 1 else 0) ≤
      (acts.filterMap (actPut v)).length := by
  generalize hb : Box.empty = b₀ at r
  induction r with
  | refl => subst hb; simp [Box.empty]
  | step r st ih =>
    rw [List.filterMap_append, List.filterMap_append, List.length_append, List.length_append]
    cases st with
    | call i op hi => rw [Box.set_slot]; simpa [List.filterMap_cons, actTake, actPut] using ih
    | @put i d hi =>
      by_cases ed : d = v
      · simp [List.filterMap_cons, actTake, actPut, ed]; omega
      · simp [List.filterMap_cons, actTake, actPut, ed]; omega
    | @take i u hi hu =>
      by_cases eu : u = v
      · simpa [List.filterMap_cons, actTake, actPut, eu, hu] using ih
      · simpa [List.filterMap_cons, actTake, actPut, eu, hu] using ih
    | ret hi => rw [Box.set_slot]; simpa [List.filterMap_cons, actTake, actPut] using ih

/-- **C65.** No signal is taken twice: at every moment no more waits have returned a value than
signals with that value have been called. -/
theorem no_duplicates {es : List Event} {s : State} (r : Run .fresh es s) (v : Nat) :
    es.countP (got v) ≤ es.countP (sent v) := by
  obtain ⟨acts, b, h1, rfl, -⟩ := sim_run r
  have a : ∀ acts : List Act, (acts.filterMap Act.seen).countP (got v) = (acts.filterMap (actGot v)).length := by
    intro acts
    induction acts with
    | nil => rfl
    | cons x l ih =>
      rcases x with e | _ | _
      · rcases e with ⟨t, op⟩ | ⟨t, op, u⟩
        · simpa [List.filterMap_cons, Act.seen, actGot, got] using ih
        · cases op with
          | signal d => simpa [List.filterMap_cons, Act.seen, actGot, got] using ih
          | wait => by_cases eu : u = v <;> simpa [List.filterMap_cons, Act.seen, actGot, got, eu, List.countP_cons] using ih
      · simpa [List.filterMap_cons, Act.seen, actGot] using ih
      · simpa [List.filterMap_cons, Act.seen, actGot] using ih
  have c : ∀ acts : List Act, (acts.filterMap Act.seen).countP (sent v) = (acts.filterMap (actSent v)).length := by
    intro acts
    induction acts with
    | nil => rfl
    | cons x l ih =>
      rcases x with e | _ | _
      · rcases e with ⟨t, op⟩ | ⟨t, op, u⟩
        · cases op with
          | wait => simpa [List.filterMap_cons, Act.seen, actSent, sent] using ih
          | signal d => by_cases eu : d = v <;> simpa [List.filterMap_cons, Act.seen, actSent, sent, eu, List.countP_cons] using ih
        · simpa [List.filterMap_cons, Act.seen, actSent, sent] using ih
      · simpa [List.filterMap_cons, Act.seen, actSent] using ih
      · simpa [List.filterMap_cons, Act.seen, actSent] using ih
  rw [a, c]
  have h2 := length_le_of_count_le (l₁ := acts.filterMap (actGot v)) (l₂ := acts.filterMap (actTake v))
    (fun t => by rw [← box_got h1]; omega)
  have h3 := length_le_of_count_le (l₁ := acts.filterMap (actPut v)) (l₂ := acts.filterMap (actSent v))
    (fun t => by rw [← box_sent h1]; omega)
  have h4 := box_take h1 v
  omega

/-! ## No signal is lost -/

/-- Nothing happens any more unless a function is called or a thread wakes for no reason. -/
def Stuck (s : State) : Prop := ∀ l s', Step s l s' → ¬ l.own

theorem stuck_th {s : State} (w : WF s) (h : Stuck s) (t : Nat) : s.th t = .idle ∨ s.th t = .blocked := by
  -- nobody is inside: who is could move on
  have ins : ∀ i, (s.th i).inside = false := by
    intro i
    cases e : s.th i with
    | idle | sLock | wLock | blocked | relock => rfl
    | sData d => exact absurd trivial (h _ _ (.sData e))
    | sDone d => exact absurd trivial (h _ _ (.sDone e))
    | sWake d => exact absurd trivial (h _ _ (.sWake (fun _ => true) e (fun ⟨i, hi⟩ => ⟨i, hi, rfl⟩)))
    | sUnlock d => exact absurd trivial (h _ _ (.sUnlock e))
    | wTest => exact absurd trivial (h _ _ (.wTest e))
    | wBlock => exact absurd trivial (h _ _ (.wBlock e))
    | wRead => exact absurd trivial (h _ _ (.wRead e))
    | wData v => exact absurd trivial (h _ _ (.wData e))
    | wDone v => exact absurd trivial (h _ _ (.wDone e))
    | wUnlock v => exact absurd trivial (h _ _ (.wUnlock e))
  have hl : s.lock = none := by
    cases e : s.lock with
    | none => rfl
    | some i => have := (w.own i).2 e; rw [ins i] at this; cases this
  have := ins t
  cases e : s.th t with
  | idle => exact .inl rfl
  | blocked => exact .inr rfl
  | sLock d => exact absurd trivial (h _ _ (.sLock e hl))
  | wLock => exact absurd trivial (h _ _ (.wLock e hl))
  | relock => exact absurd trivial (h _ _ (.relock e hl))
  | _ => rw [e] at this; cases this

/-- **C65.** When nothing moves any more, every signal has returned, and a thread waits only if the
box is empty: there is no value that nobody is coming to take. -/
theorem no_lost_signal {es : List Event} {s : State} (r : Run .fresh es s) (h : Stuck s) :
    ∃ acts b, Spec.Run .empty acts b ∧ acts.filterMap Act.seen = es ∧
      ∀ t, b.th t = .idle ∨ (b.th t = .pending .wait ∧ b.slot = none) := by
  obtain ⟨acts, b, h1, h2, m⟩ := sim_run r
  have w : WF s := WF.run .fresh r
  refine ⟨acts, b, h1, h2, fun t => ?_⟩
  have st := stuck_th w h
  rcases st t with e | e
  · exact .inl (by rw [m.th, e]; rfl)
  · refine .inr ⟨by rw [m.th, e]; rfl, ?_⟩
    rw [m.slot fun i => by rcases st i with e | e <;> rw [e] <;> rfl]
    rw [if_neg]
    intro hd
    obtain ⟨i, hi⟩ := awake_cares.1 (w.awake hd ⟨t, e⟩)
    rcases st i with e | e <;> rw [e] at hi <;> cases hi

/-! ### And it does come to rest -/

/-- Sum over the threads below `n`. -/
def total (f : Nat → Nat) : Nat → Nat
  | 0 => 0
  | n + 1 => total f n + f n

theorem total_congr {f g : Nat → Nat} {n : Nat} (h : ∀ i, i < n → f i = g i) : total f n = total g n := by
  induction n with
  | zero => rfl
  | succ n ih => simp only [total]; rw [ih fun i hi => h i (by omega), h n (by omega)]

theorem total_upd {f g : Nat → Nat} {n t : Nat} (ht : t < n) (h : ∀ i, i < n → i ≠ t → g i = f i) :
    total g n + f t = total f n + g t := by
  induction n with
  | zero => omega
  | succ n ih =>
    simp only [total]
    by_cases e : t = n
    · subst e
      rw [total_congr (f := g) (g := f) fun i hi => h i (by omega) (by omega)]
      omega
    · have := ih (by omega) fun i hi => h i (by omega)
      rw [h n (by omega) (fun e' => e e'.symm)]
      omega

theorem total_le {f g : Nat → Nat} {n c : Nat} (h : ∀ i, i < n → g i ≤ f i + c) :
    total g n ≤ total f n + n * c := by
  induction n with
  | zero => simp [total]
  | succ n ih =>
    have := ih fun i hi => h i (by omega)
    have := h n (by omega)
    simp only [total, Nat.succ_mul]
    omega

/-- How much a thread can still do, at most, when there are `n`. -/
def Status.work (n : Nat) : Status → Nat
  | .idle | .blocked => 0
  | .sLock _ => 8 * n + 5
  | .sData _ => 8 * n + 4
  | .sDone _ => 8 * n + 3
  | .sWake _ => 8 * n + 2
  | .sUnlock _ => 1
  | .wLock => 8
  | .relock => 7
  | .wTest => 6
  | .wRead => 5
  | .wData _ => 4
  | .wDone _ => 3
  | .wUnlock _ => 2
  | .wBlock => 1

def State.work (s : State) (n : Nat) : Nat := total (fun i => (s.th i).work n) n

/-- Only the threads below `n` do anything. -/
def State.within (s : State) (n : Nat) : Prop := ∀ i, n ≤ i → s.th i = .idle

theorem work_set {s s' : State} {n t : Nat} {x : Status} (w : s.within n) (hne : s.th t ≠ .idle)
    (hth : ∀ i, s'.th i = if i = t then x else s.th i) (hx : x.work n < (s.th t).work n) :
    s'.within n ∧ s'.work n < s.work n := by
  have ht : t < n := by
    by_cases h : t < n
    · exact h
    · exact absurd (w t (by omega)) hne
  refine ⟨fun i hi => ?_, ?_⟩
  · rw [hth, if_neg (by omega)]; exact w i hi
  · have := total_upd (f := fun i => (s.th i).work n) (g := fun i => (s'.th i).work n) ht
      (fun i _ hi => by simp only [hth, if_neg hi])
    simp only [hth, if_pos] at this
    simp only [State.work, hth]
    omega

theorem work_step {s s' : State} {l : Label} {n : Nat} (w : s.within n) (st : Step s l s') (ho : l.own) :
    s'.within n ∧ s'.work n < s.work n := by
  cases st with
  | call t op hi => exact ho.elim
  | spurious hi => exact ho.elim
  | @sLock t d hi hl => exact work_set (t := t) w (by simp [hi]) (fun _ => rfl) (by rw [hi]; simp [Status.work])
  | @sData t d hi => exact work_set (t := t) w (by simp [hi]) (fun _ => rfl) (by rw [hi]; simp [Status.work])
  | @sDone t d hi => exact work_set (t := t) w (by simp [hi]) (fun _ => rfl) (by rw [hi]; simp [Status.work])
  | @sUnlock t d hi => exact work_set (t := t) w (by simp [hi]) (fun _ => rfl) (by rw [hi]; simp [Status.work])
  | @wLock t hi hl => exact work_set (t := t) w (by simp [hi]) (fun _ => rfl) (by rw [hi]; simp [Status.work])
  | @wTest t hi =>
    exact work_set (t := t) w (by simp [hi]) (fun _ => rfl) (by rw [hi]; split <;> simp [Status.work])
  | @wBlock t hi => exact work_set (t := t) w (by simp [hi]) (fun _ => rfl) (by rw [hi]; simp [Status.work])
  | @relock t hi hl => exact work_set (t := t) w (by simp [hi]) (fun _ => rfl) (by rw [hi]; simp [Status.work])
  | @wRead t hi => exact work_set (t := t) w (by simp [hi]) (fun _ => rfl) (by rw [hi]; simp [Status.work])
  | @wData t v hi => exact work_set (t := t) w (by simp [hi]) (fun _ => rfl) (by rw [hi]; simp [Status.work])
  | @wDone t v hi => exact work_set (t := t) w (by simp [hi]) (fun _ => rfl) (by rw [hi]; simp [Status.work])
  | @wUnlock t v hi => exact work_set (t := t) w (by simp [hi]) (fun _ => rfl) (by rw [hi]; simp [Status.work])
  | @sWake t d p hi hp =>
    have ht : t < n := by
      by_cases h : t < n
      · exact h
      · have := w t (by omega); rw [hi] at this; cases this
    refine ⟨fun i hi => ?_, ?_⟩
    · simp only [set_th, wake_th]
      rw [if_neg (by omega), w i hi, if_neg (by simp)]
    · have h1 : total (fun i => ((s.wake p).th i).work n) n ≤ s.work n + n * 7 := by
        refine total_le fun i _ => ?_
        simp only [wake_th]
        split
        · simp [Status.work]
        · omega
      have h2 := total_upd (f := fun i => ((s.wake p).th i).work n)
        (g := fun i => (((s.wake p).set t (.sUnlock d)).th i).work n) ht
        (fun i _ hi => by simp only [set_th, if_neg hi])
      have e1 : ((s.wake p).th t).work n = 8 * n + 2 := by simp [hi, Status.work]
      have e2 : (((s.wake p).set t (.sUnlock d)).th t).work n = 1 := by simp [Status.work]
      rw [e1, e2] at h2
      show total (fun i => (((s.wake p).set t (.sUnlock d)).th i).work n) n < s.work n
      omega

/-- **C86**, what holds of it: a thread that waits for ever waits at an empty box, so some waiter is
released whenever a value is there. Missing: that each signal releases one
(`signal_overwritten_violated`). -/
theorem released_partial {es : List Event} {s : State} (r : Run .fresh es s) (h : Stuck s) {t : Nat} :
    ∃ acts b, Spec.Run .empty acts b ∧ acts.filterMap Act.seen = es ∧
      (b.slot ≠ none → b.th t = .idle) := by
  obtain ⟨acts, b, h1, h2, h3⟩ := no_lost_signal r h
  refine ⟨acts, b, h1, h2, fun hs => ?_⟩
  rcases h3 t with h | h
  · exact h
  · exact absurd h.2 hs

/-- **C65.** With finitely many threads every execution comes to rest after a bounded number of
steps, unless functions are called or threads wake for no reason: so, by `no_lost_signal`, a thread
that waits while a value is there, or is still on its way, does not wait for ever unless others take
the values. -/
theorem settles {s : State} {n : Nat} (w : s.within n) {k : Nat} {s' : State} (h : Settle s k s') :
    k ≤ s.work n := by
  have : s'.within n ∧ k + s'.work n ≤ s.work n := by
    induction h with
    | refl => exact ⟨w, by omega⟩
    | step _ st ho ih =>
      obtain ⟨h1, h2⟩ := ih
      obtain ⟨h3, h4⟩ := work_step h1 st ho
      exact ⟨h3, by omega⟩
  omega

/-! ## Rules of the library -/

/-- **C65.** No two threads are between locking and unlocking, so no two access the fields at the
same time, and unlocking and blocking are done by the owner of the mutex. -/
theorem exclusive {es : List Event} {s : State} (r : Run .fresh es s) {t i : Nat}
    (ht : (s.th t).inside = true) : s.lock = some t ∧ ((s.th i).inside = true → i = t) := by
  have w : WF s := WF.run .fresh r
  exact ⟨(w.own t).1 ht, fun hi => w.alone ht hi⟩

/-! ## Creating and destroying -/

/-- **C85.** Creating succeeds if all calls do, and holds a mutex and a condition variable; otherwise
it returns -1, `errno` is the error of the call that failed and nothing is held. -/
theorem init_spec (o : InitOut) (errno : Int) (h : Held) :
    (o.attr = 0 ∧ o.mutex = 0 ∧ o.cond = 0 ∧
      init o errno h = (0, errno, ⟨true, false, 0⟩, ⟨h.attrs, h.mutexes + 1, h.conds + 1⟩)) ∨
    (∃ e, e ≠ 0 ∧ (e = o.attr ∨ (o.attr = 0 ∧ e = o.mutex) ∨ (o.attr = 0 ∧ o.mutex = 0 ∧ e = o.cond)) ∧
      init o errno h = (-1, e, ⟨false, false, 0⟩, h)) := by
  unfold init
  by_cases h1 : o.attr = 0
  · by_cases h2 : o.mutex = 0
    · by_cases h3 : o.cond = 0
      · left; simp [h1, h2, h3]
      · right; exact ⟨o.cond, h3, by simp [h1, h2], by simp [h1, h2, h3]⟩
    · right; exact ⟨o.mutex, h2, by simp [h1], by simp [h1, h2]⟩
  · right; exact ⟨o.attr, h1, by simp, by simp [h1]⟩

/-- **C85.** Destroying gives back the mutex and the condition variable; doing it again, or after a
failed creation, does nothing and returns 0. Otherwise it returns the error of the first of the two
that cannot be destroyed, and leaves it in `errno`.
Missing: that the result is negative then (`term_sign_violated`). -/
theorem term_partial (o : InitOut) (errno : Int) (h : Held) (rm rc : Int) :
    (o.attr = 0 → o.mutex = 0 → o.cond = 0 →
      term 0 0 (init o errno h).2.2.1 (init o errno h).2.2.2 = (0, 0, ⟨false, false, 0⟩, h)) ∧
    ((init o errno h).1 = -1 →
      term rm rc (init o errno h).2.2.1 (init o errno h).2.2.2 = (0, 0, ⟨false, false, 0⟩, h)) ∧
    (∀ rm' rc' c h', let r := term rm' rc' c h'
      term rm rc r.2.2.1 r.2.2.2 = (0, 0, r.2.2.1, r.2.2.2)) ∧
    ∀ c h', c.init = true → (term rm rc c h').1 = (if rm = 0 then rc else rm) ∧ (term rm rc c h').2.1 = (term rm rc c h').1 := by
  refine ⟨fun h1 h2 h3 => by simp [init, term, h1, h2, h3], fun hf => ?_, fun rm' rc' c h' => ?_, fun c h' hc => ?_⟩
  · rcases init_spec o errno h with ⟨-, -, -, e⟩ | ⟨e', -, -, e⟩
    · rw [e] at hf; simp at hf
    · rw [e]; simp [term]
  · unfold term
    by_cases hc : c.init = true <;> simp [hc]
  · by_cases h1 : rm = 0 <;> by_cases h2 : rc = 0 <;> simp [term, hc, h1, h2]

/-- **C85, defect.** `sc_cond_term` returns the positive error number when destroying fails, where
the header promises a negative value. -/
theorem term_sign_violated : ∃ rm rc c h, (term rm rc c h).1 = 16 :=
  ⟨16, 0, ⟨true, false, 0⟩, ⟨0, 1, 1⟩, by simp [term]⟩

/-! ## Examples -/

/-- The threads of an example. -/
def ths (a b c : Status) : Nat → Status
  | 1 => a
  | 2 => b
  | 3 => c
  | _ => .idle

theorem Run.next {s₀ s s'' : State} {l : Label} {es es' : List Event} {lk : Option Nat} {d : Bool} {v : Nat}
    {a b c : Status} (r : Run s₀ es s) (st : Step s l s'') (h1 : s''.lock = lk) (h2 : s''.done = d)
    (h3 : s''.data = v) (h4 : s''.th 0 = .idle ∧ s''.th 1 = a ∧ s''.th 2 = b ∧ s''.th 3 = c)
    (h5 : ∀ n, s''.th (n + 4) = .idle) (h : es' = es ++ l.seen) : Run s₀ es' ⟨lk, d, v, ths a b c⟩ := by
  subst h
  have e : s'' = ⟨lk, d, v, ths a b c⟩ := by
    obtain ⟨l', d', v', th'⟩ := s''
    cases h1; cases h2; cases h3
    congr 1
    funext i
    match i with
    | 0 => exact h4.1
    | 1 => exact h4.2.1
    | 2 => exact h4.2.2.1
    | 3 => exact h4.2.2.2
    | n + 4 => exact h5 n
  rw [← e]; exact .step r st

/-- Two threads come to wait; a third signals 7 and then 8; the first wakes and returns 8. -/
theorem two_signals : Run .fresh
    [.call 1 .wait, .call 2 .wait, .call 3 (.signal 7), .ret 3 (.signal 7) 0, .call 3 (.signal 8), .ret 3 (.signal 8) 0,
      .ret 1 .wait 8] ⟨none, false, 0, ths .idle .blocked .idle⟩ := by
  have r0 : Run .fresh [] ⟨none, false, 0, ths .idle .idle .idle⟩ := by
    have e : State.fresh = ⟨none, false, 0, ths .idle .idle .idle⟩ := by
      unfold State.fresh
      congr 1
      funext i
      match i with
      | 0 | 1 | 2 | 3 => rfl
      | n + 4 => rfl
    exact e ▸ .refl
  -- the waiters
  have r1 := r0.next (.call 1 .wait rfl) rfl rfl rfl ⟨rfl, rfl, rfl, rfl⟩ (fun _ => rfl) rfl
  have r2 := r1.next (.wLock (t := 1) rfl rfl) rfl rfl rfl ⟨rfl, rfl, rfl, rfl⟩ (fun _ => rfl) rfl
  have r3 := r2.next (.wTest (t := 1) rfl) rfl rfl rfl ⟨rfl, rfl, rfl, rfl⟩ (fun _ => rfl) rfl
  have r4 := r3.next (.wBlock (t := 1) rfl) rfl rfl rfl ⟨rfl, rfl, rfl, rfl⟩ (fun _ => rfl) rfl
  have r5 := r4.next (.call 2 .wait rfl) rfl rfl rfl ⟨rfl, rfl, rfl, rfl⟩ (fun _ => rfl) rfl
  have r6 := r5.next (.wLock (t := 2) rfl rfl) rfl rfl rfl ⟨rfl, rfl, rfl, rfl⟩ (fun _ => rfl) rfl
  have r7 := r6.next (.wTest (t := 2) rfl) rfl rfl rfl ⟨rfl, rfl, rfl, rfl⟩ (fun _ => rfl) rfl
  have r8 := r7.next (.wBlock (t := 2) rfl) rfl rfl rfl ⟨rfl, rfl, rfl, rfl⟩ (fun _ => rfl) rfl
  -- the first signal
  have r9 := r8.next (.call 3 (.signal 7) rfl) rfl rfl rfl ⟨rfl, rfl, rfl, rfl⟩ (fun _ => rfl) rfl
  have r10 := r9.next (.sLock (t := 3) (d := 7) rfl rfl) rfl rfl rfl ⟨rfl, rfl, rfl, rfl⟩ (fun _ => rfl) rfl
  have r11 := r10.next (.sData (t := 3) (d := 7) rfl) rfl rfl rfl ⟨rfl, rfl, rfl, rfl⟩ (fun _ => rfl) rfl
  have r12 := r11.next (.sDone (t := 3) (d := 7) rfl) rfl rfl rfl ⟨rfl, rfl, rfl, rfl⟩ (fun _ => rfl) rfl
  have r13 := r12.next (.sWake (t := 3) (d := 7) (fun i => i == 1) rfl (fun _ => ⟨1, rfl, rfl⟩)) rfl rfl rfl
    ⟨rfl, rfl, rfl, rfl⟩ (fun _ => rfl) rfl
  have r14 := r13.next (.sUnlock (t := 3) (d := 7) rfl) rfl rfl rfl ⟨rfl, rfl, rfl, rfl⟩ (fun _ => rfl) rfl
  -- the second signal, which wakes the other
  have r15 := r14.next (.call 3 (.signal 8) rfl) rfl rfl rfl ⟨rfl, rfl, rfl, rfl⟩ (fun _ => rfl) rfl
  have r16 := r15.next (.sLock (t := 3) (d := 8) rfl rfl) rfl rfl rfl ⟨rfl, rfl, rfl, rfl⟩ (fun _ => rfl) rfl
  have r17 := r16.next (.sData (t := 3) (d := 8) rfl) rfl rfl rfl ⟨rfl, rfl, rfl, rfl⟩ (fun _ => rfl) rfl
  have r18 := r17.next (.sDone (t := 3) (d := 8) rfl) rfl rfl rfl ⟨rfl, rfl, rfl, rfl⟩ (fun _ => rfl) rfl
  have r19 := r18.next (.sWake (t := 3) (d := 8) (fun i => i == 2) rfl (fun _ => ⟨2, rfl, rfl⟩)) rfl rfl rfl
    ⟨rfl, rfl, rfl, rfl⟩ (fun _ => rfl) rfl
  have r20 := r19.next (.sUnlock (t := 3) (d := 8) rfl) rfl rfl rfl ⟨rfl, rfl, rfl, rfl⟩ (fun _ => rfl) rfl
  -- both are awake, one gets the value
  have r21 := r20.next (.relock (t := 1) rfl rfl) rfl rfl rfl ⟨rfl, rfl, rfl, rfl⟩ (fun _ => rfl) rfl
  have r22 := r21.next (.wTest (t := 1) rfl) rfl rfl rfl ⟨rfl, rfl, rfl, rfl⟩ (fun _ => rfl) rfl
  have r23 := r22.next (.wRead (t := 1) rfl) rfl rfl rfl ⟨rfl, rfl, rfl, rfl⟩ (fun _ => rfl) rfl
  have r24 := r23.next (.wData (t := 1) (v := 8) rfl) rfl rfl rfl ⟨rfl, rfl, rfl, rfl⟩ (fun _ => rfl) rfl
  have r25 := r24.next (.wDone (t := 1) (v := 8) rfl) rfl rfl rfl ⟨rfl, rfl, rfl, rfl⟩ (fun _ => rfl) rfl
  have r26 := r25.next (.wUnlock (t := 1) (v := 8) rfl) rfl rfl rfl ⟨rfl, rfl, rfl, rfl⟩ (fun _ => rfl) rfl
  have r27 := r26.next (.relock (t := 2) rfl rfl) rfl rfl rfl ⟨rfl, rfl, rfl, rfl⟩ (fun _ => rfl) rfl
  have r28 := r27.next (.wTest (t := 2) rfl) rfl rfl rfl ⟨rfl, rfl, rfl, rfl⟩ (fun _ => rfl) rfl
  have r29 := r28.next (.wBlock (t := 2) rfl) rfl rfl rfl ⟨rfl, rfl, rfl, rfl⟩ (fun _ => rfl) rfl
  exact r29

theorem two_signals_stuck : Stuck ⟨none, false, 0, ths .idle .blocked .idle⟩ := by
  have all : ∀ t x, ths .idle .blocked .idle t = x → x = .idle ∨ x = .blocked := by
    intro t x h
    subst h
    match t with
    | 0 | 1 | 2 | 3 => simp [ths]
    | n + 4 => simp [ths]
  intro l s' st ho
  cases st with
  | call => exact ho
  | spurious => exact ho
  | _ => first
    | (rename_i h; simpa using all _ _ h)
    | (rename_i h _; simpa using all _ _ h)

/-- **C86, violated.** A signal can be overwritten before anybody takes it: two threads wait, two
signals return, and only one thread is ever released. -/
theorem signal_overwritten_violated : ∃ es s, Run .fresh es s ∧ Stuck s ∧
    es.countP (fun e => match e with | .ret _ (.signal _) _ => true | _ => false) = 2 ∧
    es.countP (fun e => match e with | .call _ .wait => true | _ => false) = 2 ∧
    es.countP (fun e => match e with | .ret _ .wait _ => true | _ => false) = 1 ∧ s.th 2 = .blocked :=
  ⟨_, _, two_signals, two_signals_stuck, rfl, rfl, rfl, rfl⟩

/-- The hypotheses of the theorems are met by that execution, which has waits, signals and a value
that is taken. -/
example : ∃ es s, Run .fresh es s ∧ Stuck s ∧ .ret 1 .wait 8 ∈ es ∧ s.within 4 := by
  refine ⟨_, _, two_signals, two_signals_stuck, by simp, ?_⟩
  intro i hi
  match i with
  | n + 4 => rfl

example : init ⟨0, 0, 12⟩ 0 ⟨0, 0, 0⟩ = (-1, 12, ⟨false, false, 0⟩, ⟨0, 0, 0⟩) := by decide

end Verif.Cond
