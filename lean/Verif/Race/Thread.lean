import Verif.Thread.Model
import Verif.Race.Lemmas

/-!
# Threads on Windows and data races

On Windows the started thread reads and writes fields of `struct sc_thread`. The accesses are ordered
by the start and by the wait for the end, if the wait does not fail.
-/

namespace Verif.Thread.Race

open Verif.Race (Trace At HB Racy Passed Owner keep last lt_of_some)

/-- The fields of `struct sc_thread`, thread/sc_thread.h:41-47. -/
inductive Field where
  | id
  | fn
  | arg
  | ret
  | err
  deriving DecidableEq

/-- Starting the `n`th thread is ordered before all that it does (`_beginthreadex`), and that before
the return of a wait for it (`WaitForSingleObject`). -/
inductive Sync where
  | begin (n : Nat)
  | finish (n : Nat)
  deriving DecidableEq

/-- Calls of `sc_thread_start`, of the function, its returns, and returns of `sc_thread_join`. -/
inductive Mark where
  | start (n : Nat)
  | enter (n : Nat)
  | leave (n : Nat)
  | joined (n : Nat)
  deriving DecidableEq

abbrev Doing := Verif.Race.Act Sync Field Mark

/-- Where a started thread is. -/
inductive Body where
  | none
  | begun
  | running
  | finished
  deriving DecidableEq

/-- The number of threads started, the handle, which the caller stores after it has started the
thread, whether it still has to, and the threads. -/
structure State where
  n : Nat
  id : Option Nat
  store : Bool
  body : Nat → Body

def State.fresh : State := ⟨0, none, false, fun _ => .none⟩

def State.set (s : State) (i : Nat) (b : Body) : State := { s with body := fun k => if k = i then b else s.body k }

/-- thread/sc_thread.c:94-118, the wait succeeds; closing the handle may fail. -/
def joining (close : Bool) (i : Nat) : List Doing :=
  [.rd .id, .acq (.finish i)] ++ (if close then [] else [.wr .err]) ++ [.wr .id, .rd .ret, .ev (.joined i)]

/-- What the threads do. The caller is thread 0, the `n`th started thread is `n + 1`. The object is not
started again before it has been joined. `fails` says whether waits can fail. -/
inductive Step (fails : Bool) : State → Nat → List Doing → State → Prop
  /-- thread/sc_thread.c:76-79 -/
  | start {s} : s.id = none → s.store = false →
      Step fails s 0 [.ev (.start s.n), .wr .fn, .wr .arg, .rel (.begin s.n)] { s.set s.n .begun with n := s.n + 1, id := some s.n, store := true }
  /-- thread/sc_thread.c:79-80 -/
  | stored {s} : s.store = true → Step fails s 0 [.wr .id, .rd .id] { s with store := false }
  /-- thread/sc_thread.c:76-83, the thread could not be started -/
  | failed {s} : s.id = none → s.store = false →
      Step fails s 0 [.wr .fn, .wr .arg, .wr .id, .rd .id, .wr .err] s
  /-- thread/sc_thread.c:66-68 -/
  | enter {s i} : s.body i = .begun →
      Step fails s (i + 1) [.acq (.begin i), .rd .fn, .rd .arg, .ev (.enter i)] (s.set i .running)
  /-- thread/sc_thread.c:68-69 -/
  | leave {s i} : s.body i = .running →
      Step fails s (i + 1) [.ev (.leave i), .wr .ret, .rel (.finish i)] (s.set i .finished)
  /-- thread/sc_thread.c:94-118, the wait succeeds; closing the handle may fail -/
  | join {s i} (close : Bool) : s.id = some i → s.store = false → s.body i = .finished →
      Step fails s 0 (joining close i)
        { s with id := none }
  /-- thread/sc_thread.c:94-118, nothing to wait for -/
  | none {s} : s.id = none → s.store = false → Step fails s 0 [.rd .id, .rd .ret] s
  /-- thread/sc_thread.c:98-118, the wait fails -/
  | lost {s i} : fails = true → s.id = some i → s.store = false →
      Step fails s 0 [.rd .id, .wr .err, .wr .id, .rd .ret] { s with id := none }

/-- Executions and what the threads do in them. -/
inductive Exec (fails : Bool) : State → Trace Sync Field Mark → State → Prop
  | refl {s} : Exec fails s [] s
  | step {s s' s'' tr t es} : Exec fails s tr s' → Step fails s' t es s'' →
      Exec fails s (tr ++ es.map fun a => (t, a)) s''

/-! ## Invariant -/

/-- `id` and `err` are the caller's. -/
def mine : Field → Bool
  | .id | .err => true
  | _ => false

/-- Who owns the other fields. -/
def owner (s : State) : Owner Sync :=
  match s.id with
  | .none => .thread 0
  | some i =>
    match s.body i with
    | .none => .thread 0
    | .begun => .left (.begin i)
    | .running => .thread (i + 1)
    | .finished => .left (.finish i)

def owners (s : State) : Bool → Owner Sync
  | true => .thread 0
  | false => owner s

structure Inv (tr : Trace Sync Field Mark) (s : State) : Prop where
  passed : Passed mine tr (owners s)
  live : ∀ i, s.body i = .begun ∨ s.body i = .running → s.id = some i
  later : ∀ i, s.n ≤ i → s.body i = .none
  started : ∀ i, s.body i ≠ .none → ∃ c, At tr c 0 (.ev (.start i))
  storing : s.store = true → s.id ≠ none

theorem State.set_body (s : State) (i : Nat) (b : Body) (k : Nat) : (s.set i b).body k = if k = i then b else s.body k := rfl

theorem owners_same {s s' : State} (h : owner s' = owner s) (k : Bool) : owners s' k = owners s k := by
  cases k
  · exact h
  · rfl

/-- Places the caller may access. -/
theorem Passed.all {tr : Trace Sync Field Mark} {o : Bool → Owner Sync} {t : Nat} (h : Passed mine tr o)
    (es : List Doing) (he : ∀ a ∈ es, match a with
      | .rd x => o (mine x) = .thread t
      | .wr x => o (mine x) = .thread t
      | .ev _ => True
      | _ => False) : Passed mine (tr ++ es.map fun a => (t, a)) o := by
  induction es generalizing tr with
  | nil => simpa using h
  | cons a es ih =>
    have := he a (by simp)
    have ht : Passed mine (tr ++ [(t, a)]) o := by
      cases a with
      | rd x => exact .rd t x h this
      | wr x => exact .wr t x h this
      | ev e => exact .ev t e h
      | acq l => exact this.elim
      | rel l => exact this.elim
    have := ih ht fun a ha => he a (by simp [ha])
    simpa using this

theorem Inv.step {tr : Trace Sync Field Mark} {s s' : State} {t : Nat} {es : List Doing} (h : Inv tr s)
    (st : Step false s t es s') : Inv (tr ++ es.map fun a => (t, a)) s' := by
  have at_keep : ∀ {es : Trace Sync Field Mark} {i}, s.body i ≠ .none → ∃ c, At (tr ++ es) c 0 (.ev (.start i)) :=
    fun hb => (h.started _ hb).imp fun c hc => keep hc
  have bye : ∀ {i}, s.id = none → s.body i = .none ∨ s.body i = .finished := by
    intro i hn
    cases hb : s.body i
    · exact .inl rfl
    · have := h.live i (.inl hb); rw [hn] at this; cases this
    · have := h.live i (.inr hb); rw [hn] at this; cases this
    · exact .inr rfl
  cases st with
  | start hi hs =>
    have ho : owners s false = .thread 0 := by simp [owners, owner, hi]
    refine ⟨?_, ?_, ?_, ?_, fun _ => by simp⟩
    · have p := Passed.all (t := 0) h.passed [.ev (.start s.n), .wr .fn, .wr .arg] (by
        intro a ha; simp at ha; rcases ha with rfl | rfl | rfl <;> first | trivial | exact ho)
      have p := Passed.rel 0 (.begin s.n) p (o' := owners { s.set s.n .begun with n := s.n + 1, id := some s.n, store := true }) (by
        intro k
        cases k
        · exact .inr ⟨ho, by simp [owners, owner, State.set_body]⟩
        · exact .inl rfl)
      simpa using p
    · intro i hb
      simp only [State.set_body] at hb
      by_cases e : i = s.n
      · subst e; rfl
      · simp only [if_neg e] at hb
        rcases bye (i := i) hi with h | h <;> rw [h] at hb <;> simp at hb
    · intro i hn
      have hn : s.n + 1 ≤ i := hn
      simp only [State.set_body]
      rw [if_neg (by omega)]
      exact h.later i (by omega)
    · intro i hb
      simp only [State.set_body] at hb
      by_cases e : i = s.n
      · subst e; exact ⟨tr.length, by simp [At]⟩
      · rw [if_neg e] at hb; exact at_keep hb
  | stored hs =>
    refine ⟨?_, h.live, h.later, fun i hb => at_keep hb, fun c => by cases c⟩
    refine Passed.all h.passed _ ?_
    intro a ha; simp at ha; rcases ha with rfl | rfl <;> rfl
  | failed hi hs =>
    have ho : owners s false = .thread 0 := by simp [owners, owner, hi]
    refine ⟨?_, h.live, h.later, fun i hb => at_keep hb, h.storing⟩
    refine Passed.all h.passed _ ?_
    intro a ha; simp at ha; rcases ha with rfl | rfl | rfl | rfl | rfl <;> first | rfl | exact ho
  | @enter i hb =>
    have hi := h.live i (.inl hb)
    refine ⟨?_, ?_, ?_, ?_, h.storing⟩
    · have p := Passed.acq (i + 1) (.begin i) h.passed (o' := owners (s.set i .running)) (by
        intro k
        cases k
        · exact .inr ⟨by simp [owners, owner, hi, hb], by simp [owners, owner, State.set, hi]⟩
        · exact .inl rfl)
      have ho : owners (s.set i .running) false = .thread (i + 1) := by simp [owners, owner, State.set, hi]
      have p := Passed.all p [.rd .fn, .rd .arg, .ev (.enter i)] (by
        intro a ha; simp at ha; rcases ha with rfl | rfl | rfl <;> first | trivial | exact ho)
      simpa using p
    · intro k hk
      simp only [State.set_body] at hk
      by_cases e : k = i
      · subst e; exact hi
      · rw [if_neg e] at hk; exact h.live k hk
    · intro k hk
      simp only [State.set_body]
      by_cases e : k = i
      · subst e; rw [h.later k hk] at hb; cases hb
      · rw [if_neg e]; exact h.later k hk
    · intro k hk
      simp only [State.set_body] at hk
      by_cases e : k = i
      · subst e; exact at_keep (by rw [hb]; simp)
      · rw [if_neg e] at hk; exact at_keep hk
  | @leave i hb =>
    have hi := h.live i (.inr hb)
    have ho : owners s false = .thread (i + 1) := by simp [owners, owner, hb, hi]
    refine ⟨?_, ?_, ?_, ?_, h.storing⟩
    · have p := Passed.all (t := i + 1) h.passed [.ev (.leave i), .wr .ret] (by
        intro a ha; simp at ha; rcases ha with rfl | rfl <;> first | trivial | exact ho)
      have p := Passed.rel (i + 1) (.finish i) p (o' := owners (s.set i .finished)) (by
        intro k
        cases k
        · exact .inr ⟨ho, by simp [owners, owner, State.set, hi]⟩
        · exact .inl rfl)
      simpa using p
    · intro k hk
      simp only [State.set_body] at hk
      by_cases e : k = i
      · subst e; exact hi
      · rw [if_neg e] at hk; exact h.live k hk
    · intro k hk
      simp only [State.set_body]
      by_cases e : k = i
      · subst e; rw [h.later k hk] at hb; cases hb
      · rw [if_neg e]; exact h.later k hk
    · intro k hk
      simp only [State.set_body] at hk
      by_cases e : k = i
      · subst e; exact at_keep (by rw [hb]; simp)
      · rw [if_neg e] at hk; exact at_keep hk
  | @join i close hi hs hb =>
    have ho : owners { s with id := none } false = .thread 0 := by simp [owners, owner]
    refine ⟨?_, ?_, h.later, fun i hb => at_keep hb, fun c => by have c : s.store = true := c; rw [hs] at c; cases c⟩
    · have p := Passed.all (t := 0) h.passed [.rd .id] (by intro a ha; simp at ha; subst ha; rfl)
      have p := Passed.acq 0 (.finish i) p (o' := owners { s with id := none }) (by
        intro k
        cases k
        · exact .inr ⟨by simp [owners, owner, hi, hb], ho⟩
        · exact .inl rfl)
      have p := Passed.all (t := 0) p ((if close then [] else [.wr .err]) ++ [.wr .id, .rd .ret, .ev (.joined i)]) (by
        intro a ha
        cases close <;> simp at ha
        · rcases ha with rfl | rfl | rfl | rfl <;> first | trivial | rfl | exact ho
        · rcases ha with rfl | rfl | rfl <;> first | trivial | rfl | exact ho)
      simpa [joining] using p
    · intro k hk
      have hk : s.body k = .begun ∨ s.body k = .running := hk
      have := h.live k hk
      rw [hi] at this; cases this
      rw [hb] at hk; simp at hk
  | none hi hs =>
    have ho : owners s false = .thread 0 := by simp [owners, owner, hi]
    refine ⟨?_, h.live, h.later, fun i hb => at_keep hb, h.storing⟩
    refine Passed.all h.passed _ ?_
    intro a ha; simp at ha; rcases ha with rfl | rfl <;> first | rfl | exact ho
  | lost hf => cases hf

theorem inv_exec {tr : Trace Sync Field Mark} {s : State} (r : Exec false .fresh tr s) : Inv tr s := by
  generalize hs : State.fresh = s₀ at r
  induction r with
  | refl =>
    subst hs
    exact ⟨.nil _, fun i h => by simp [State.fresh] at h, fun _ _ => rfl, fun i h => by simp [State.fresh] at h,
      fun h => by cases h⟩
  | step _ st ih => exact ih.step st

/-! ## Main theorems -/

/-- If waits do not fail, the caller and the started threads never race for the fields. -/
theorem thread_race_free_partial {tr : Trace Sync Field Mark} {s : State} (r : Exec false .fresh tr s) : ¬ Racy tr :=
  (inv_exec r).passed.not_racy

/-- What is known of starts and ends. -/
structure Marks (tr : Trace Sync Field Mark) (s : State) : Prop where
  begun : ∀ i, s.body i = .begun → ∃ c r, c < r ∧ At tr c 0 (.ev (.start i)) ∧ At tr r 0 (.rel (.begin i))
  finished : ∀ i, s.body i = .finished → ∃ l r, l < r ∧ At tr l (i + 1) (.ev (.leave i)) ∧ At tr r (i + 1) (.rel (.finish i))
  enter : ∀ j u i, At tr j u (.ev (.enter i)) → u = i + 1 ∧ ∃ c, At tr c 0 (.ev (.start i)) ∧ HB tr c j
  joined : ∀ j u i, At tr j u (.ev (.joined i)) → u = 0 ∧ ∃ l, At tr l (i + 1) (.ev (.leave i)) ∧ HB tr l j

theorem at_append {tr : Trace Sync Field Mark} {t : Nat} {es : List Doing} {k u : Nat} {a : Doing}
    (h : At (tr ++ es.map fun a => (t, a)) k u a) :
    At tr k u a ∨ (tr.length ≤ k ∧ u = t ∧ es[k - tr.length]? = some a) := by
  have h : (tr ++ es.map fun a => (t, a))[k]? = some (u, a) := h
  rw [List.getElem?_append] at h
  split at h
  · exact .inl h
  · rw [List.getElem?_map, Option.map_eq_some_iff] at h
    obtain ⟨b, hb, e⟩ := h
    cases e
    exact .inr ⟨by omega, rfl, hb⟩

theorem at_new {tr : Trace Sync Field Mark} {t : Nat} {es : List Doing} {k : Nat} {a : Doing} (h : es[k]? = some a) :
    At (tr ++ es.map fun a => (t, a)) (tr.length + k) t a := by
  show (tr ++ es.map fun a => (t, a))[tr.length + k]? = some (t, a)
  rw [List.getElem?_append_right (by omega), List.getElem?_map, Nat.add_sub_cancel_left, h]; rfl

theorem Marks.step {tr : Trace Sync Field Mark} {s s' : State} {t : Nat} {es : List Doing} {f : Bool} (h : Marks tr s)
    (st : Step f s t es s') : Marks (tr ++ es.map fun a => (t, a)) s' := by
  have hb : ∀ i, s.body i = .begun → ∃ c r, c < r ∧ At (tr ++ es.map fun a => (t, a)) c 0 (.ev (.start i)) ∧
      At (tr ++ es.map fun a => (t, a)) r 0 (.rel (.begin i)) := fun i hi => by
    obtain ⟨c, r, h1, h2, h3⟩ := h.begun i hi
    exact ⟨c, r, h1, keep h2, keep h3⟩
  have hf : ∀ i, s.body i = .finished → ∃ l r, l < r ∧ At (tr ++ es.map fun a => (t, a)) l (i + 1) (.ev (.leave i)) ∧
      At (tr ++ es.map fun a => (t, a)) r (i + 1) (.rel (.finish i)) := fun i hi => by
    obtain ⟨c, r, h1, h2, h3⟩ := h.finished i hi
    exact ⟨c, r, h1, keep h2, keep h3⟩
  have he : (∀ i, Verif.Race.Act.ev (Mark.enter i) ∉ es) → ∀ j u i, At (tr ++ es.map fun a => (t, a)) j u (.ev (.enter i)) →
      u = i + 1 ∧ ∃ c, At (tr ++ es.map fun a => (t, a)) c 0 (.ev (.start i)) ∧ HB (tr ++ es.map fun a => (t, a)) c j := by
    intro hn j u i hj
    rcases at_append hj with hj | ⟨_, _, e⟩
    · obtain ⟨h1, c, h2, h3⟩ := h.enter j u i hj
      exact ⟨h1, c, keep h2, h3.keep _⟩
    · exact absurd (List.mem_of_getElem? e) (hn i)
  have hj : (∀ i, Verif.Race.Act.ev (Mark.joined i) ∉ es) → ∀ j u i, At (tr ++ es.map fun a => (t, a)) j u (.ev (.joined i)) →
      u = 0 ∧ ∃ l, At (tr ++ es.map fun a => (t, a)) l (i + 1) (.ev (.leave i)) ∧ HB (tr ++ es.map fun a => (t, a)) l j := by
    intro hn j u i hj
    rcases at_append hj with hj | ⟨_, _, e⟩
    · obtain ⟨h1, c, h2, h3⟩ := h.joined j u i hj
      exact ⟨h1, c, keep h2, h3.keep _⟩
    · exact absurd (List.mem_of_getElem? e) (hn i)
  cases st with
  | start hi hs =>
    refine ⟨fun i hk => ?_, fun i hk => ?_, he (by simp), hj (by simp)⟩
    · simp only [State.set_body] at hk
      by_cases e : i = s.n
      · subst e; exact ⟨tr.length + 0, tr.length + 3, by omega, at_new rfl, at_new rfl⟩
      · rw [if_neg e] at hk; exact hb i hk
    · simp only [State.set_body] at hk
      by_cases e : i = s.n
      · rw [if_pos e] at hk; cases hk
      · rw [if_neg e] at hk; exact hf i hk
  | stored hs => exact ⟨hb, hf, he (by simp), hj (by simp)⟩
  | failed hi hs => exact ⟨hb, hf, he (by simp), hj (by simp)⟩
  | @enter k hk =>
    refine ⟨fun i hi => ?_, fun i hi => ?_, fun j u i hj' => ?_, hj (by simp)⟩
    · simp only [State.set_body] at hi
      by_cases e : i = k
      · rw [if_pos e] at hi; cases hi
      · rw [if_neg e] at hi; exact hb i hi
    · simp only [State.set_body] at hi
      by_cases e : i = k
      · rw [if_pos e] at hi; cases hi
      · rw [if_neg e] at hi; exact hf i hi
    · rcases at_append hj' with hj' | ⟨hl, rfl, e⟩
      · obtain ⟨h1, c, h2, h3⟩ := h.enter j u i hj'
        exact ⟨h1, c, keep h2, h3.keep _⟩
      · have e' := List.mem_of_getElem? e
        simp at e'
        subst e'
        refine ⟨rfl, ?_⟩
        obtain ⟨c, r, h1, h2, h3⟩ := h.begun i hk
        have hr := lt_of_some h3
        have ha : At (tr ++ [.acq (.begin i), .rd .fn, .rd .arg, .ev (.enter i)].map fun a => (i + 1, a)) (tr.length + 0) (i + 1) (.acq (.begin i)) :=
          at_new rfl
        have hne : j ≠ tr.length + 0 := by
          rintro rfl
          have := Option.some.inj (ha.symm.trans hj')
          simp at this
        exact ⟨c, keep h2, .trans (.thread h1 (keep h2) (keep h3)) (.trans (.mutex (by omega) (keep h3) ha)
          (.thread (by omega) ha hj'))⟩
  | @leave k hk =>
    refine ⟨fun i hi => ?_, fun i hi => ?_, he (by simp), hj (by simp)⟩
    · simp only [State.set_body] at hi
      by_cases e : i = k
      · rw [if_pos e] at hi; cases hi
      · rw [if_neg e] at hi; exact hb i hi
    · simp only [State.set_body] at hi
      by_cases e : i = k
      · subst e; exact ⟨tr.length + 0, tr.length + 2, by omega, at_new rfl, at_new rfl⟩
      · rw [if_neg e] at hi; exact hf i hi
  | @join k close hi hs hk =>
    refine ⟨hb, hf, he (by cases close <;> simp [joining]), fun j u i hj' => ?_⟩
    rcases at_append hj' with hj' | ⟨hl, rfl, e⟩
    · obtain ⟨h1, c, h2, h3⟩ := h.joined j u i hj'
      exact ⟨h1, c, keep h2, h3.keep _⟩
    · have e' := List.mem_of_getElem? e
      have e' : i = k := by cases close <;> simpa [joining] using e'
      subst e'
      refine ⟨rfl, ?_⟩
      obtain ⟨c, r, h1, h2, h3⟩ := h.finished i hk
      have hr := lt_of_some h3
      have ha : At (tr ++ (joining close i).map fun a => (0, a)) (tr.length + 1) 0 (.acq (.finish i)) := at_new (by simp [joining])
      have hz : At (tr ++ (joining close i).map fun a => (0, a)) (tr.length + 0) 0 (.rd .id) := at_new (by simp [joining])
      have hne : j ≠ tr.length + 1 := by
        rintro rfl
        have := Option.some.inj (ha.symm.trans hj')
        simp at this
      have hne' : j ≠ tr.length + 0 := by
        rintro rfl
        have := Option.some.inj (hz.symm.trans hj')
        simp at this
      exact ⟨c, keep h2, .trans (.thread h1 (keep h2) (keep h3)) (.trans (.mutex (by omega) (keep h3) ha)
        (.thread (by omega) ha hj'))⟩
  | none hi hs => exact ⟨hb, hf, he (by simp), hj (by simp)⟩
  | lost hi hs => exact ⟨hb, hf, he (by simp), hj (by simp)⟩

theorem marks_exec {tr : Trace Sync Field Mark} {s : State} {f : Bool} (r : Exec f .fresh tr s) : Marks tr s := by
  generalize hs : State.fresh = s₀ at r
  induction r with
  | refl =>
    subst hs
    exact ⟨fun i h => (by cases h), fun i h => (by cases h), fun j u i h => by simp [At] at h, fun j u i h => by simp [At] at h⟩
  | step _ st ih => exact ih.step st

/-- What the caller did before it started a thread happens before the function is entered, and what
the function did before `sc_thread_join` returns, if the wait succeeds. -/
theorem thread_handover {tr : Trace Sync Field Mark} {s : State} {f : Bool} (r : Exec f .fresh tr s) (i : Nat) :
    (∀ j u, At tr j u (.ev (.enter i)) → ∃ c, At tr c 0 (.ev (.start i)) ∧ HB tr c j) ∧
    (∀ j u, At tr j u (.ev (.joined i)) → ∃ l, At tr l (i + 1) (.ev (.leave i)) ∧ HB tr l j) :=
  ⟨fun j u h => ((marks_exec r).enter j u i h).2, fun j u h => ((marks_exec r).joined j u i h).2⟩

/-- What is done when a wait fails while the function runs. -/
def lostTrace : Trace Sync Field Mark :=
  [(0, .ev (.start 0)), (0, .wr .fn), (0, .wr .arg), (0, .rel (.begin 0)), (0, .wr .id), (0, .rd .id),
   (0, .rd .id), (0, .wr .err), (0, .wr .id), (0, .rd .ret),
   (1, .acq (.begin 0)), (1, .rd .fn), (1, .rd .arg), (1, .ev (.enter 0)), (1, .ev (.leave 0)), (1, .wr .ret), (1, .rel (.finish 0))]

/-- **C141 is violated** by `sc_thread_join` on Windows when the wait for the thread fails: it reads
the result that the thread is still to store. -/
theorem thread_race_violated : ∃ s, Exec true .fresh lostTrace s ∧ Racy lostTrace := by
  have r1 : Exec true .fresh _ _ := .step .refl (.start rfl rfl)
  have r2 := Exec.step r1 (.stored rfl)
  have r3 := Exec.step r2 (.lost (i := 0) rfl rfl rfl)
  have r4 := Exec.step r3 (.enter (i := 0) rfl)
  have r5 := Exec.step r4 (.leave (i := 0) rfl)
  refine ⟨_, r5, 9, 15, 0, 1, .rd .ret, .wr .ret, .ret, rfl, rfl, by decide, rfl, rfl, .inr rfl, ?_, ?_⟩
  · have low : ∀ i, i < 10 → lostTrace[i]?.map (·.1) = some 0 := by decide
    have high : ∀ i, i < 17 → 10 ≤ i → lostTrace[i]?.map (·.1) = some 1 := by decide
    have key : ∀ i j, HB lostTrace i j → 4 ≤ i → i < 10 → j < 10 := by
      intro i j h
      induction h with
      | @thread i j t a b h h1 h2 =>
        intro h4 h10
        have l2 := lt_of_some h2
        have e1 := low i h10
        rw [show lostTrace[i]? = some (t, a) from h1] at e1
        cases e1
        apply Classical.byContradiction
        intro hc
        have e2 := high j l2 (by omega)
        rw [show lostTrace[j]? = some (0, b) from h2] at e2
        cases e2
      | @mutex i j t u l h h1 h2 =>
        intro h4 h10
        exfalso
        have : i = 4 ∨ i = 5 ∨ i = 6 ∨ i = 7 ∨ i = 8 ∨ i = 9 := by omega
        rcases this with rfl | rfl | rfl | rfl | rfl | rfl <;> simp [At, lostTrace] at h1
      | trans a b iha ihb =>
        intro h4 h10
        have := iha h4 h10
        have := a.lt
        exact ihb (by omega) (by omega)
    intro h
    have := key _ _ h (by omega) (by omega)
    omega
  · intro h
    have := h.lt
    omega

/-! ## Example -/

/-- A thread is started, ends and is joined. -/
example : ∃ tr s j, Exec false .fresh tr s ∧ At tr j 0 (.ev (.joined 0)) := by
  have r1 : Exec false .fresh _ _ := .step .refl (.start rfl rfl)
  have r2 := Exec.step r1 (.stored rfl)
  have r3 := Exec.step r2 (.enter (i := 0) rfl)
  have r4 := Exec.step r3 (.leave (i := 0) rfl)
  have r5 := Exec.step r4 (.join (i := 0) true rfl rfl rfl)
  exact ⟨_, _, 17, r5, rfl⟩

end Verif.Thread.Race
