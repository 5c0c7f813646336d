import Verif.Cond.Win
import Verif.Race.Lemmas

/-!
# Condition objects and data races

The accesses of `sc_cond_signal` and `sc_cond_wait` to the fields of the object never race, and what
a thread did before it signalled is ordered before what the thread that takes the value does then.
-/

namespace Verif.Cond

open Spec (Op Event)
open Race (Trace At HB Racy Guarded)

/-- The fields of `struct sc_cond` that are accessed, condition/sc_cond.h:45-58. -/
inductive Field where
  | done
  | data
  deriving DecidableEq

/-- What threads do; there is one mutex. -/
abbrev Doing := Race.Act Unit Field Event

/-- What a thread does in the next step, besides calling and returning. `pthread_cond_wait` unlocks
the mutex, and locks it again. -/
def Status.doing : Status → List Doing
  | .idle | .sWake _ | .blocked => []
  /- condition/sc_cond.c:178, 196 and 200 -/
  | .sLock _ | .wLock | .relock => [.acq ()]
  /- condition/sc_cond.c:180, 206 -/
  | .sData _ | .wData _ => [.wr .data]
  /- condition/sc_cond.c:181, 207 -/
  | .sDone _ | .wDone _ => [.wr .done]
  /- condition/sc_cond.c:198 -/
  | .wTest => [.rd .done]
  /- condition/sc_cond.c:205 -/
  | .wRead => [.rd .data]
  /- condition/sc_cond.c:188, 200, 209 -/
  | .sUnlock _ | .wUnlock _ | .wBlock => [.rel ()]

/-- The thread that makes a step: it moves on, and was not asleep. -/
def Moves (s s' : State) (t : Nat) : Prop := s.th t ≠ s'.th t ∧ s.th t ≠ .blocked

/-- Executions and what the threads do in them. -/
inductive Exec : State → Trace Unit Field Event → State → Prop
  | refl {s} : Exec s [] s
  | step {s s' s'' l tr t} : Exec s tr s' → Step s' l s'' → Moves s' s'' t →
      Exec s (tr ++ ((s'.th t).doing ++ l.seen.map Race.Act.ev).map fun a => (t, a)) s''
  | spurious {s s' s'' tr} : Exec s tr s' → Step s' .spurious s'' → Exec s tr s''

/-- What can be observed of what the threads do. -/
def seen (tr : Trace Unit Field Event) : List Event :=
  tr.filterMap fun p => match p.2 with
    | .ev e => some e
    | _ => none

theorem seen_append (a b : Trace Unit Field Event) : seen (a ++ b) = seen a ++ seen b := by
  simp [seen]

theorem seen_doing (x : Status) (t : Nat) (es : List Event) :
    seen ((x.doing ++ es.map Race.Act.ev).map fun a => (t, a)) = es := by
  have h : ∀ es : List Event, seen ((es.map Race.Act.ev).map fun a => (t, a)) = es := by
    intro es
    induction es with
    | nil => rfl
    | cons e es ih => simp only [seen, List.map_cons, List.filterMap_cons] at ih ⊢; rw [ih]
  rw [List.map_append, seen_append, h]
  cases x <;> rfl

/-- The thread that makes a step, and what comes of it. -/
theorem step_cases {s s' : State} {l : Label} (st : Step s l s') :
    (∃ t, Moves s s' t) ∨ (∃ t, l = .spurious ∧ s.th t = .blocked ∧ s' = s.set t .relock) := by
  cases st with
  | spurious h => exact .inr ⟨_, rfl, h, rfl⟩
  | call t op h => exact .inl ⟨t, by rw [h]; cases op <;> simp [Op.entry], by rw [h]; simp⟩
  | sLock h _ => exact .inl ⟨_, by rw [h]; simp, by rw [h]; simp⟩
  | sData h => exact .inl ⟨_, by rw [h]; simp, by rw [h]; simp⟩
  | sDone h => exact .inl ⟨_, by rw [h]; simp, by rw [h]; simp⟩
  | sWake p h _ => exact .inl ⟨_, by rw [h]; simp, by rw [h]; simp⟩
  | sUnlock h => exact .inl ⟨_, by rw [h]; simp, by rw [h]; simp⟩
  | wLock h _ => exact .inl ⟨_, by rw [h]; simp, by rw [h]; simp⟩
  | wTest h => exact .inl ⟨_, by rw [h]; simp only [set_th, if_pos]; split <;> simp, by rw [h]; simp⟩
  | wBlock h => exact .inl ⟨_, by rw [h]; simp, by rw [h]; simp⟩
  | relock h _ => exact .inl ⟨_, by rw [h]; simp, by rw [h]; simp⟩
  | wRead h => exact .inl ⟨_, by rw [h]; simp, by rw [h]; simp⟩
  | wData h => exact .inl ⟨_, by rw [h]; simp, by rw [h]; simp⟩
  | wDone h => exact .inl ⟨_, by rw [h]; simp, by rw [h]; simp⟩
  | wUnlock h => exact .inl ⟨_, by rw [h]; simp, by rw [h]; simp⟩

/-- Every execution is one of these, with the same calls and returns. -/
theorem exec_of_run {s s' : State} {es : List Event} (r : Run s es s') : ∃ tr, Exec s tr s' ∧ seen tr = es := by
  induction r with
  | refl => exact ⟨[], .refl, rfl⟩
  | step _ st ih =>
    obtain ⟨tr, h, e⟩ := ih
    rcases step_cases st with ⟨t, m⟩ | ⟨t, rfl, -, -⟩
    · exact ⟨_, .step h st m, by rw [seen_append, seen_doing, e]⟩
    · exact ⟨tr, .spurious h st, by rw [e]; simp [Label.seen]⟩

/-- And these are executions. -/
theorem run_of_exec {s s' : State} {tr : Trace Unit Field Event} (r : Exec s tr s') : Run s (seen tr) s' := by
  induction r with
  | refl => exact .refl
  | step _ st _ ih => rw [seen_append, seen_doing]; exact .step ih st
  | spurious _ st ih =>
    have := Run.step ih st
    simpa [Label.seen] using this

/-! ## Invariant -/

/-- A signal with the value `v` stored it, and nothing has been stored since. -/
def Fresh (tr : Trace Unit Field Event) (v : Nat) : Prop :=
  ∃ t c w, c < w ∧ At tr c t (.ev (.call t (.signal v))) ∧ At tr w t (.wr .data) ∧
    ∀ k, w < k → ∀ u, ¬ At tr k u (.wr .data)

/-- The thread has loaded the value `v`, which a signal had stored last, and has not returned. -/
def Took (tr : Trace Unit Field Event) (u v : Nat) : Prop :=
  ∃ t c w r, c < w ∧ w < r ∧ At tr c t (.ev (.call t (.signal v))) ∧ At tr w t (.wr .data) ∧
    (∀ k, w < k → k < r → ∀ i, ¬ At tr k i (.wr .data)) ∧ At tr r u (.rd .data) ∧
    ∀ k, r < k → ∀ e, ¬ At tr k u (.ev e)

/-- What is known of a thread. -/
def Knows (tr : Trace Unit Field Event) (t : Nat) : Status → Prop
  | .sLock d | .sData d => ∃ c, At tr c t (.ev (.call t (.signal d)))
  | .sDone d => Fresh tr d
  | .wData v | .wDone v | .wUnlock v => Took tr t v
  | _ => True

/-- Threads that have cleared the data but not the flag. -/
def Status.clearing : Status → Bool
  | .wDone _ => true
  | _ => false

/-- The `j`th thing is the return of a wait, and what went before it. -/
def Back (tr : Trace Unit Field Event) (j u v : Nat) : Prop :=
  ∃ t c w r, c < w ∧ w < r ∧ r < j ∧ At tr c t (.ev (.call t (.signal v))) ∧ At tr w t (.wr .data) ∧
    (∀ k, w < k → k < r → ∀ i, ¬ At tr k i (.wr .data)) ∧ At tr r u (.rd .data) ∧
    ∀ k, r < k → k < j → ∀ e, ¬ At tr k u (.ev e)

structure Inv (tr : Trace Unit Field Event) (s : State) : Prop where
  guarded : Guarded (fun _ => ()) tr fun _ => s.lock
  knows : ∀ t, Knows tr t (s.th t)
  stored : ∀ t d, s.th t = .sDone d → s.data = d
  fresh : s.done = true → (∀ t, (s.th t).clearing = false) → Fresh tr s.data
  back : ∀ j u v, At tr j u (.ev (.ret u .wait v)) → Back tr j u v

/-- What a thread has just done. -/
abbrev by_ (t : Nat) (es : List Doing) : Trace Unit Field Event := es.map fun a => (t, a)

theorem at_append {tr : Trace Unit Field Event} {t : Nat} {es : List Doing} {k u : Nat} {a : Doing}
    (h : At (tr ++ by_ t es) k u a) : (k < tr.length ∧ At tr k u a) ∨ (tr.length ≤ k ∧ u = t ∧ es[k - tr.length]? = some a) := by
  have h : (tr ++ by_ t es)[k]? = some (u, a) := h
  rw [List.getElem?_append] at h
  split at h
  · rename_i hk; exact .inl ⟨hk, h⟩
  · rename_i hk
    rw [List.getElem?_map, Option.map_eq_some_iff] at h
    obtain ⟨b, hb, e⟩ := h
    cases e
    exact .inr ⟨by omega, rfl, hb⟩

theorem Fresh.keep {tr : Trace Unit Field Event} {v : Nat} (h : Fresh tr v) {t : Nat} {es : List Doing}
    (he : Race.Act.wr Field.data ∉ es) : Fresh (tr ++ by_ t es) v := by
  obtain ⟨u, c, w, h1, h2, h3, h4⟩ := h
  refine ⟨u, c, w, h1, Race.keep h2, Race.keep h3, fun k hk i hi => ?_⟩
  rcases at_append hi with ⟨_, e⟩ | ⟨_, _, e⟩
  · exact h4 k hk i e
  · exact he (List.mem_of_getElem? e)

theorem Took.keep {tr : Trace Unit Field Event} {u v : Nat} (h : Took tr u v) {t : Nat} {es : List Doing}
    (he : t = u → ∀ e, Race.Act.ev e ∉ es) : Took (tr ++ by_ t es) u v := by
  obtain ⟨i, c, w, r, h1, h2, h3, h4, h5, h6, h7⟩ := h
  have hr := Race.lt_of_some h6
  refine ⟨i, c, w, r, h1, h2, Race.keep h3, Race.keep h4, fun k hk hk' i hi => ?_, Race.keep h6, fun k hk e hi => ?_⟩
  · rcases at_append hi with ⟨_, e⟩ | ⟨h, _, e⟩
    · exact h5 k hk hk' i e
    · omega
  · rcases at_append hi with ⟨_, e⟩ | ⟨h, hu, e⟩
    · exact h7 k hk _ e
    · exact he hu.symm _ (List.mem_of_getElem? e)

theorem Back.keep {tr : Trace Unit Field Event} {j u v : Nat} (h : Back tr j u v) (hj : j ≤ tr.length) {t : Nat}
    {es : List Doing} : Back (tr ++ by_ t es) j u v := by
  obtain ⟨i, c, w, r, h1, h2, h0, h3, h4, h5, h6, h7⟩ := h
  have hr := Race.lt_of_some h6
  refine ⟨i, c, w, r, h1, h2, h0, Race.keep h3, Race.keep h4, fun k hk hk' i hi => ?_, Race.keep h6, fun k hk hk' e hi => ?_⟩
  · rcases at_append hi with ⟨_, e⟩ | ⟨h, _, e⟩
    · exact h5 k hk hk' i e
    · omega
  · rcases at_append hi with ⟨_, e⟩ | ⟨h, hu, e⟩
    · exact h7 k hk hk' _ e
    · omega

theorem Knows.keep {tr : Trace Unit Field Event} {i : Nat} {x : Status} (h : Knows tr i x) {t : Nat} {es : List Doing}
    (hw : (∃ d, x = .sDone d) → Race.Act.wr Field.data ∉ es) (he : t = i → ∀ e, Race.Act.ev e ∉ es) :
    Knows (tr ++ by_ t es) i x := by
  cases x <;> first
    | trivial
    | exact Fresh.keep h (hw ⟨_, rfl⟩)
    | exact Took.keep h he
    | exact h.imp fun c hc => Race.keep hc

/-- A thread moves on. -/
theorem Inv.move {tr : Trace Unit Field Event} {s : State} (h : Inv tr s) (w : WF s) {t : Nat} {x : Status}
    {l : Option Nat} {d : Bool} {v : Nat} {es : List Doing}
    (hg : Guarded (fun _ => ()) (tr ++ by_ t es) fun _ => l)
    (hk : Knows (tr ++ by_ t es) t x) (hs : ∀ e, x = .sDone e → v = e)
    (hw : Race.Act.wr Field.data ∈ es → (s.th t).inside = true) (hv : v = s.data ∨ (s.th t).inside = true)
    (hf : d = true → x.clearing = false → (∀ i, i ≠ t → (s.th i).clearing = false) → Fresh (tr ++ by_ t es) v)
    (hb : ∀ k u e, es[k]? = some (.ev (.ret u .wait e)) → u = t → Back (tr ++ by_ t es) (tr.length + k) t e) :
    Inv (tr ++ by_ t es) { s.set t x with lock := l, done := d, data := v } := by
  refine ⟨hg, fun i => ?_, fun i e hi => ?_, fun hd hc => ?_, fun j u e hj => ?_⟩
  · by_cases hi : i = t
    · subst hi; simpa using hk
    · simp only [set_th, if_neg hi]
      refine (h.knows i).keep (fun ⟨e, he⟩ hm => hi (w.alone (hw hm) (by rw [he]; rfl))) (fun c => absurd c.symm hi)
  · by_cases hit : i = t
    · subst hit
      simp only [set_th, if_pos] at hi
      exact hs e hi
    · simp only [set_th, if_neg hit] at hi
      rcases hv with hv | hv
      · show v = e
        rw [hv]; exact h.stored i e hi
      · exact absurd (w.alone hv (by rw [hi]; rfl)) hit
  · refine hf hd (by simpa using hc t) fun i hi => ?_
    have := hc i
    simpa [hi] using this
  · rcases at_append hj with ⟨hl, e'⟩ | ⟨hl, hu, e'⟩
    · exact (h.back j u e e').keep (by omega)
    · subst hu
      have := hb _ _ _ e' rfl
      rwa [show tr.length + (j - tr.length) = j by omega] at this

theorem Fresh.took {tr : Trace Unit Field Event} {v : Nat} (h : Fresh tr v) (u : Nat) :
    Took (tr ++ by_ u [.rd .data]) u v := by
  obtain ⟨t, c, w, h1, h2, h3, h4⟩ := h
  refine ⟨t, c, w, tr.length, h1, Race.lt_of_some h3, Race.keep h2, Race.keep h3, fun k hk hk' i hi => ?_,
    Race.last _ _, fun k hk e hi => ?_⟩
  · rcases at_append hi with ⟨_, e⟩ | ⟨h, _, e⟩
    · exact h4 k hk i e
    · omega
  · rcases at_append hi with ⟨_, e⟩ | ⟨h, _, e⟩
    · omega
    · have := (List.getElem?_eq_some_iff.1 e).1
      simp at this; omega

theorem Took.back {tr : Trace Unit Field Event} {u v : Nat} (h : Took tr u v) (e : Event) :
    Back (tr ++ by_ u [.rel (), .ev e]) (tr.length + 1) u v := by
  obtain ⟨i, c, w, r, h1, h2, h3, h4, h5, h6, h7⟩ := h
  have hr := Race.lt_of_some h6
  refine ⟨i, c, w, r, h1, h2, by omega, Race.keep h3, Race.keep h4, fun k hk hk' i hi => ?_, Race.keep h6,
    fun k hk hk' e hi => ?_⟩
  · rcases at_append hi with ⟨_, e⟩ | ⟨h, _, e⟩
    · exact h5 k hk hk' i e
    · omega
  · rcases at_append hi with ⟨_, e⟩ | ⟨h, _, e⟩
    · exact h7 k hk _ e
    · have : k - tr.length = 0 := by omega
      rw [this] at e; simp at e

theorem fresh_store {tr : Trace Unit Field Event} {t c d : Nat} (h : At tr c t (.ev (.call t (.signal d)))) :
    Fresh (tr ++ by_ t [.wr .data]) d := by
  refine ⟨t, c, tr.length, Race.lt_of_some h, Race.keep h, Race.last _ _, fun k hk i hi => ?_⟩
  have := Race.lt_of_some hi
  simp at this; omega

/-- Whoever moves is the thread of the step. -/
theorem mover {s s' : State} {t u : Nat} (m : Moves s s' u)
    (h : ∀ i, i ≠ t → s.th i ≠ .blocked → s'.th i = s.th i) : u = t :=
  Classical.byContradiction fun hne => m.1 (h u hne m.2).symm

theorem Inv.step {tr : Trace Unit Field Event} {s s' : State} {l : Label} {u : Nat} (h : Inv tr s) (w : WF s)
    (st : Step s l s') (m : Moves s s' u) : Inv (tr ++ by_ u ((s.th u).doing ++ l.seen.map Race.Act.ev)) s' := by
  have ow : ∀ t, (s.th t).inside = true → s.lock = some t := fun t => (w.own t).1
  have hk := h.knows u
  have one : ∀ {t : Nat}, (∀ i, i ≠ t → s.th i ≠ .blocked → s'.th i = s.th i) → u = t := fun h => mover m h
  have gev : ∀ e, Guarded (fun _ => ()) (tr ++ by_ u [.ev e]) fun _ => s.lock := fun e => .ev u e h.guarded
  have gnil : Guarded (fun _ => ()) (tr ++ by_ u []) fun _ => s.lock := by
    rw [show tr ++ by_ u [] = tr by simp [by_]]; exact h.guarded
  have gacq : s.lock = none → Guarded (fun _ => ()) (tr ++ by_ u [.acq ()]) fun _ => some u :=
    fun e => .acq u () h.guarded e rfl (fun k hk => absurd rfl hk)
  have grel : (s.th u).inside = true → Guarded (fun _ => ()) (tr ++ by_ u [.rel ()]) fun _ => none :=
    fun e => .rel u () h.guarded (ow u e) rfl (fun k hk => absurd rfl hk)
  have grd : ∀ f, (s.th u).inside = true → Guarded (fun _ => ()) (tr ++ by_ u [.rd f]) fun _ => s.lock :=
    fun f e => .rd u f h.guarded (ow u e)
  have gwr : ∀ f, (s.th u).inside = true → Guarded (fun _ => ()) (tr ++ by_ u [.wr f]) fun _ => s.lock :=
    fun f e => .wr u f h.guarded (ow u e)
  have keepF : ∀ {es : List Doing}, (s.th u).clearing = false → Race.Act.wr Field.data ∉ es → s.done = true →
      (∀ i, i ≠ u → (s.th i).clearing = false) → Fresh (tr ++ by_ u es) s.data := by
    intro es hx he hd hi
    refine (h.fresh hd fun i => ?_).keep he
    by_cases e : i = u
    · rw [e]; exact hx
    · exact hi i e
  have nob : ∀ {es : List Doing}, (∀ u e, Race.Act.ev (.ret u .wait e) ∉ es) → ∀ k i e,
      es[k]? = some (.ev (.ret i .wait e)) → i = u → Back (tr ++ by_ u es) (tr.length + k) u e :=
    fun he k i e hh _ => absurd (List.mem_of_getElem? hh) (he i e)
  cases st with
  | call t op e =>
    obtain rfl := one (t := t) (by intro i hi _; simp [hi])
    rw [e]
    refine Inv.move h w (gev _) ?_ (by cases op <;> simp [Op.entry]) (by simp [Status.doing, Label.seen]) (.inl rfl) ?_ (nob (by simp [Status.doing, Label.seen]))
    · cases op with
      | signal d => exact ⟨tr.length, Race.last _ _⟩
      | wait => trivial
    · intro hd _ hi
      exact keepF (by rw [e]; rfl) (by simp [Status.doing, Label.seen]) hd hi
  | @sLock t d e hl =>
    obtain rfl := one (t := t) (by intro i hi _; simp [hi])
    rw [e] at hk ⊢
    refine Inv.move h w (gacq hl) ?_ (by simp) (by simp [Status.doing, Label.seen]) (.inl rfl) ?_
      (nob (by simp [Status.doing, Label.seen]))
    · exact hk.imp fun c hc => Race.keep hc
    · intro hd _ hi
      exact keepF (by rw [e]; rfl) (by simp [Status.doing, Label.seen]) hd hi
  | @sData t d e =>
    obtain rfl := one (t := t) (by intro i hi _; simp [hi])
    have hin : (s.th u).inside = true := by rw [e]; rfl
    rw [e] at hk ⊢
    obtain ⟨c, hc⟩ := hk
    refine Inv.move h w (gwr _ hin) ?_ (by simp) (fun _ => hin) (.inr hin) ?_ (nob (by simp [Status.doing, Label.seen]))
    · exact fresh_store hc
    · exact fun _ _ _ => fresh_store hc
  | @sDone t d e =>
    obtain rfl := one (t := t) (by intro i hi _; simp [hi])
    have hin : (s.th u).inside = true := by rw [e]; rfl
    rw [e] at hk ⊢
    refine Inv.move h w (gwr _ hin) trivial (by simp) (fun _ => hin) (.inl rfl) ?_ (nob (by simp [Status.doing, Label.seen]))
    intro _ _ _
    simp only [set_data, h.stored u d e]
    exact Fresh.keep hk (by simp [Status.doing, Label.seen])
  | @sWake t d p e hp =>
    obtain rfl := one (t := t) (by intro i hi hb; simp [hi, hb])
    have hin : (s.th u).inside = true := by rw [e]; rfl
    have h' : Inv tr (s.wake p) := by
      refine ⟨h.guarded, fun i => ?_, fun i d hi => ?_, fun hd hc => h.fresh hd fun i => ?_, h.back⟩
      · simp only [wake_th]
        split
        · trivial
        · exact h.knows i
      · simp only [wake_th] at hi
        split at hi
        · cases hi
        · exact h.stored i d hi
      · have := hc i
        simp only [wake_th] at this
        split at this
        · rename_i hb; rw [hb.1]; rfl
        · exact this
    rw [e]
    refine Inv.move h' (w.wake p) gnil trivial (by simp) (by simp [Status.doing, Label.seen]) (.inl rfl) ?_
      (nob (by simp [Status.doing, Label.seen]))
    intro hd _ hi
    refine keepF (by rw [e]; rfl) (by simp [Status.doing, Label.seen]) hd fun i hne => ?_
    have := hi i hne
    simp only [wake_th] at this
    split at this
    · rename_i hb; rw [hb.1]; rfl
    · exact this
  | @sUnlock t d e =>
    obtain rfl := one (t := t) (by intro i hi _; simp [hi])
    have hin : (s.th u).inside = true := by rw [e]; rfl
    rw [e]
    have g := Guarded.ev u (.ret u (.signal d) 0) (grel hin)
    rw [List.append_assoc] at g
    refine Inv.move h w g trivial (by simp) (by simp [Status.doing, Label.seen]) (.inl rfl) ?_
      (nob (by simp [Status.doing, Label.seen]))
    intro hd _ hi
    exact keepF (by rw [e]; rfl) (by simp [Status.doing, Label.seen]) hd hi
  | @wLock t e hl =>
    obtain rfl := one (t := t) (by intro i hi _; simp [hi])
    rw [e]
    refine Inv.move h w (gacq hl) trivial (by simp) (by simp [Status.doing, Label.seen]) (.inl rfl) ?_
      (nob (by simp [Status.doing, Label.seen]))
    intro hd _ hi
    exact keepF (by rw [e]; rfl) (by simp [Status.doing, Label.seen]) hd hi
  | @wTest t e =>
    obtain rfl := one (t := t) (by intro i hi _; simp [hi])
    have hin : (s.th u).inside = true := by rw [e]; rfl
    rw [e]
    refine Inv.move h w (grd _ hin) (by split <;> trivial) (by intro d; split <;> simp)
      (by simp [Status.doing, Label.seen]) (.inl rfl) ?_ (nob (by simp [Status.doing, Label.seen]))
    intro hd _ hi
    exact keepF (by rw [e]; rfl) (by simp [Status.doing, Label.seen]) hd hi
  | @wBlock t e =>
    obtain rfl := one (t := t) (by intro i hi _; simp [hi])
    have hin : (s.th u).inside = true := by rw [e]; rfl
    rw [e]
    refine Inv.move h w (grel hin) trivial (by simp) (by simp [Status.doing, Label.seen]) (.inl rfl) ?_
      (nob (by simp [Status.doing, Label.seen]))
    intro hd _ hi
    exact keepF (by rw [e]; rfl) (by simp [Status.doing, Label.seen]) hd hi
  | @spurious t e =>
    refine absurd m.1 fun c => c ?_
    by_cases hu : u = t
    · subst hu; exact absurd e m.2
    · simp [hu]
  | @relock t e hl =>
    obtain rfl := one (t := t) (by intro i hi _; simp [hi])
    rw [e]
    refine Inv.move h w (gacq hl) trivial (by simp) (by simp [Status.doing, Label.seen]) (.inl rfl) ?_
      (nob (by simp [Status.doing, Label.seen]))
    intro hd _ hi
    exact keepF (by rw [e]; rfl) (by simp [Status.doing, Label.seen]) hd hi
  | @wRead t e =>
    obtain rfl := one (t := t) (by intro i hi _; simp [hi])
    have hin : (s.th u).inside = true := by rw [e]; rfl
    have hd : s.done = true := by have := w.knows u; rw [e] at this; exact this
    have hc : ∀ i, (s.th i).clearing = false := fun i => by
      by_cases hi : i = u
      · subst hi; rw [e]; rfl
      · cases hx : s.th i <;> first
          | rfl
          | exact absurd (w.alone hin (by rw [hx]; rfl)) hi
    rw [e]
    refine Inv.move h w (grd _ hin) ((h.fresh hd hc).took u) (by simp)
      (by simp [Status.doing, Label.seen]) (.inl rfl) ?_ (nob (by simp [Status.doing, Label.seen]))
    intro hd _ hi
    exact keepF (by rw [e]; rfl) (by simp [Status.doing, Label.seen]) hd hi
  | @wData t v e =>
    obtain rfl := one (t := t) (by intro i hi _; simp [hi])
    have hin : (s.th u).inside = true := by rw [e]; rfl
    rw [e] at hk ⊢
    refine Inv.move h w (gwr _ hin) (Took.keep hk (by simp [Status.doing, Label.seen])) (by simp) (fun _ => hin)
      (.inr hin) ?_ (nob (by simp [Status.doing, Label.seen]))
    intro _ hc _
    exact absurd hc (by simp [Status.clearing])
  | @wDone t v e =>
    obtain rfl := one (t := t) (by intro i hi _; simp [hi])
    have hin : (s.th u).inside = true := by rw [e]; rfl
    rw [e] at hk ⊢
    refine Inv.move h w (gwr _ hin) (Took.keep hk (by simp [Status.doing, Label.seen])) (by simp) (fun _ => hin)
      (.inl rfl) ?_ (nob (by simp [Status.doing, Label.seen]))
    intro hd _ _
    exact absurd hd (by simp)
  | @wUnlock t v e =>
    obtain rfl := one (t := t) (by intro i hi _; simp [hi])
    have hin : (s.th u).inside = true := by rw [e]; rfl
    rw [e] at hk ⊢
    have g := Guarded.ev u (.ret u .wait v) (grel hin)
    rw [List.append_assoc] at g
    refine Inv.move h w g trivial (by simp) (by simp [Status.doing, Label.seen]) (.inl rfl) ?_ ?_
    · intro hd _ hi
      exact keepF (by rw [e]; rfl) (by simp [Status.doing, Label.seen]) hd hi
    · intro k i x hh _
      match k with
      | 0 => simp [Status.doing] at hh
      | 1 =>
        simp [Status.doing, Label.seen] at hh
        obtain ⟨-, rfl⟩ := hh
        exact Took.back hk _
      | k + 2 => simp [Status.doing, Label.seen] at hh

theorem wf_exec {tr : Trace Unit Field Event} {s s' : State} (r : Exec s tr s') (h : WF s) : WF s' := by
  induction r with
  | refl => exact h
  | step _ st _ ih => exact ih.step st
  | spurious _ st ih => exact ih.step st

theorem inv_exec {tr : Trace Unit Field Event} {s : State} (r : Exec .fresh tr s) : Inv tr s := by
  generalize hs : State.fresh = s₀ at r
  induction r with
  | refl =>
    subst hs
    exact ⟨.nil, fun t => trivial, fun t d h => by simp [State.fresh] at h, fun h => by simp [State.fresh] at h,
      fun j u v h => by simp [At] at h⟩
  | step r st m ih => exact ih.step (wf_exec r (hs ▸ WF.fresh)) st m
  | @spurious s s' tr r st ih =>
    have h := ih
    cases st with
    | @spurious t e =>
      refine ⟨h.guarded, fun i => ?_, fun i d hi => ?_, fun hd hc => h.fresh hd fun i => ?_, h.back⟩
      · simp only [set_th]
        split
        · trivial
        · exact h.knows i
      · simp only [set_th] at hi
        split at hi
        · cases hi
        · exact h.stored i d hi
      · have := hc i
        simp only [set_th] at this
        split at this
        · rename_i hb; rw [hb, e]; rfl
        · exact this

/-- The thread of a call or a return. -/
def thread : Event → Nat
  | .call t _ => t
  | .ret t _ _ => t

/-- Calls and returns are done by the threads they name. -/
theorem exec_thread {tr : Trace Unit Field Event} {s s' : State} (r : Exec s tr s') {j u : Nat} {e : Event}
    (h : At tr j u (.ev e)) : thread e = u := by
  induction r with
  | refl => simp [At] at h
  | spurious _ _ ih => exact ih h
  | @step s s' l tr t _ st m ih =>
    rcases at_append h with ⟨_, h⟩ | ⟨_, rfl, h⟩
    · exact ih h
    · have h := List.mem_of_getElem? h
      rw [List.mem_append] at h
      rcases h with h | h
      · generalize s.th u = x at h
        cases x <;> simp [Status.doing] at h
      · cases st <;> simp [Label.seen] at h
        · subst h; exact (mover m (by intro i hi _; simp only [thread] at hi; simp [hi])).symm
        · subst h; exact (mover m (by intro i hi _; simp only [thread] at hi; simp [hi])).symm
        · subst h; exact (mover m (by intro i hi _; simp only [thread] at hi; simp [hi])).symm

/-! ## Main theorems -/

/-- The functions never race for the object. -/
theorem cond_race_free {tr : Trace Unit Field Event} {s : State} (r : Exec .fresh tr s) : ¬ Racy tr :=
  (inv_exec r).guarded.not_racy

/-- A wait that returns `v` has loaded what some signal of `v` stored, and nothing was stored in
between; the call of that signal, and so all that its thread did before, happens before the return of
the wait. -/
theorem cond_handover {tr : Trace Unit Field Event} {s : State} (r : Exec .fresh tr s) {j u v : Nat}
    (hj : At tr j u (.ev (.ret u .wait v))) :
    ∃ t c w l, At tr c t (.ev (.call t (.signal v))) ∧ At tr w t (.wr .data) ∧ At tr l u (.rd .data) ∧
      c < w ∧ w < l ∧ l < j ∧ (∀ k, w < k → k < l → ∀ i, ¬ At tr k i (.wr .data)) ∧
      (∀ k, l < k → k < j → ∀ e, ¬ At tr k u (.ev e)) ∧ HB tr c j := by
  have h := inv_exec r
  obtain ⟨t, c, w, l, h1, h2, h3, h4, h5, h6, h7, h8⟩ := h.back j u v hj
  refine ⟨t, c, w, l, h4, h5, h7, h1, h2, h3, h6, h8, ?_⟩
  exact .trans (.thread h1 h4 h5) (.trans (Race.ordered h.guarded h2 h5 h7 (x := Field.data) rfl rfl) (.thread h3 h7 hj))

/-! ## Windows -/

/-- Executions on Windows and what the threads do in them; the accesses are those of
condition/sc_cond.c:70-101, in the same order. -/
inductive Win.Exec : Win.WState → Trace Unit Field Event → Win.WState → Prop
  | refl {s} : Exec s [] s
  | step {s s' s'' l tr t} : Exec s tr s' → Win.Step s' l s'' → s'.th t ≠ s''.th t → s'.th t ≠ .blocked →
      Exec s (tr ++ ((s'.th t).doing ++ l.seen.map Race.Act.ev).map fun a => (t, a)) s''
  | spurious {s s' s'' tr} : Exec s tr s' → Win.Step s' .spurious s'' → Exec s tr s''

theorem Win.exec_up {s₀ : State} (w : WF s₀) {tr : Trace Unit Field Event} {s' : Win.WState}
    (r : Win.Exec (Win.up s₀) tr s') : ∃ s, Cond.Exec s₀ tr s ∧ s' = Win.up s := by
  generalize h0 : Win.up s₀ = s₁ at r
  induction r with
  | refl => exact ⟨s₀, .refl, h0.symm⟩
  | step _ st m1 m2 ih =>
    obtain ⟨s, r, rfl⟩ := ih
    obtain ⟨s₂, st', rfl⟩ := Win.step_up (wf_exec r w) st
    exact ⟨s₂, .step r st' ⟨m1, m2⟩, rfl⟩
  | spurious _ st ih =>
    obtain ⟨s, r, rfl⟩ := ih
    obtain ⟨s₂, st', rfl⟩ := Win.step_up (wf_exec r w) st
    exact ⟨s₂, .spurious r st', rfl⟩

/-- The same on Windows. -/
theorem Win.cond_race_free {tr : Trace Unit Field Event} {s : Win.WState} (r : Win.Exec .fresh tr s) : ¬ Racy tr := by
  obtain ⟨s, r, -⟩ := Win.exec_up WF.fresh (s₀ := .fresh) r
  exact Cond.cond_race_free r

/-- The same on Windows. -/
theorem Win.cond_handover {tr : Trace Unit Field Event} {s : Win.WState} (r : Win.Exec .fresh tr s) {j u v : Nat}
    (hj : At tr j u (.ev (.ret u .wait v))) :
    ∃ t c w l, At tr c t (.ev (.call t (.signal v))) ∧ At tr w t (.wr .data) ∧ At tr l u (.rd .data) ∧
      c < w ∧ w < l ∧ l < j ∧ (∀ k, w < k → k < l → ∀ i, ¬ At tr k i (.wr .data)) ∧
      (∀ k, l < k → k < j → ∀ e, ¬ At tr k u (.ev e)) ∧ HB tr c j := by
  obtain ⟨s, r, -⟩ := Win.exec_up WF.fresh (s₀ := .fresh) r
  exact Cond.cond_handover r hj

/-! ## Examples -/

/-- There are executions in which a wait returns. -/
example : ∃ tr s j, Exec .fresh tr s ∧ At tr j 1 (.ev (.ret 1 .wait 8)) := by
  obtain ⟨tr, r, e⟩ := exec_of_run two_signals
  have h : Event.ret 1 .wait 8 ∈ seen tr := by rw [e]; simp
  obtain ⟨⟨u, a⟩, hp, hq⟩ := List.mem_filterMap.1 h
  obtain ⟨j, hj⟩ := List.getElem?_of_mem hp
  match a, hq with
  | .ev e', hq =>
    cases Option.some.inj hq
    have : u = 1 := (exec_thread r hj).symm
    subst this
    exact ⟨tr, _, j, r, hj⟩

/-- A wait that looks at the flag without the mutex would race with a signal. -/
example : Racy ([(1, .rd .done), (2, .acq ()), (2, .wr .done), (2, .rel ())] : Trace Unit Field Event) := by
  have key : ∀ i j, HB ([(1, .rd .done), (2, .acq ()), (2, .wr .done), (2, .rel ())] : Trace Unit Field Event) i j →
      1 ≤ i ∧ i < j := by
    intro i j h
    induction h with
    | @thread i j t a b h h1 h2 =>
      have := Race.lt_of_some h2
      match i, j with
      | 0, 0 | 0, 1 | 0, 2 | 0, 3 => simp [At] at h h1 h2 <;> omega
      | 0, j + 4 => simp at this; omega
      | i + 1, j => exact ⟨by omega, h⟩
    | @mutex i j t u l h h1 h2 =>
      match i with
      | 0 => simp [At] at h1
      | i + 1 => exact ⟨by omega, h⟩
    | trans _ _ a b => omega
  exact ⟨0, 2, 1, 2, .rd .done, .wr .done, .done, rfl, rfl, by decide, rfl, rfl, .inr rfl,
    fun h => absurd (key _ _ h) (by omega), fun h => absurd (key _ _ h) (by omega)⟩

end Verif.Cond
