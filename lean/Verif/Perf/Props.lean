import Verif.Perf.Model

/-! # Properties of measuring -/

namespace Verif.Perf

open Spec (Event Report Tally Right Tame Undivided)

/-- What the program multiplies a count with: the share itself. -/
def scaled (t : Tally) : Rat := t.count * (if t.enabled > 0 ∧ t.running > 0 then (t.running : Rat) / t.enabled else 1)

/-- The counter of a tally -/
def ctrOf (c : Bool) (t : Tally) : Counter := ⟨c, t.count, t.enabled, t.running⟩

/-- How the state stands for that of the specification. -/
inductive Rel (names : List String) (s : State) : Spec.State → Prop
  | idle : s.p.init = false → (∀ i, s.w.ctr i = none) → Rel names s .idle
  | on {c ns ts} : s.p.init = true → s.p.running = c → s.p.items.map Item.name = names → (s.p.items.map Item.fd).Nodup →
      (∀ it ∈ s.p.items, it.value = 0 ∧ it.active = 0) →
      s.p.items.map (fun it => s.w.ctr it.fd) = ts.map (fun t => some (ctrOf c t)) →
      (∀ i, i ∉ s.p.items.map Item.fd → s.w.ctr i = none) →
      (c = true → s.p.start ≤ s.w.clock) → ns ≤ s.w.clock →
      s.p.total + (if c then s.w.clock - s.p.start else 0) = ns → Rel names s (.on c ns ts)

/-! ## Opening the counters -/

/-- A counter that cannot be opened ends the program, and nothing else does. -/
theorem set_aborts : ∀ {its : List Item} {fds : List Int} {w : World}, its.length ≤ fds.length →
    (set its fds w = none ↔ -1 ∈ fds.take its.length)
  | [], fds, w, _ => by simp [set]
  | it :: its, [], w, h => by simp at h
  | it :: its, fd :: fds, w, h => by
    have ih := set_aborts (its := its) (fds := fds) (w := w.opened fd) (by simpa using h)
    simp only [set, List.length_cons, List.take_succ_cons, List.mem_cons]
    by_cases hf : fd = -1
    · simp [hf]
    · rw [if_neg hf, ← ih]
      cases hs : set its fds (w.opened fd) with
      | none => simp
      | some x => simp; omega

theorem set_spec {its : List Item} {fds : List Int} {w w' : World} {its' : List Item} (hn : fds.Nodup)
    (hf : ∀ fd ∈ fds, w.ctr fd = none) (h : set its fds w = some (w', its')) :
    ∃ l, l <+: fds ∧ its'.map Item.fd = l ∧ its'.map Item.name = its.map Item.name ∧
      (∀ it ∈ its', ∃ it' ∈ its, it.value = it'.value ∧ it.active = it'.active) ∧ w'.clock = w.clock ∧
      (∀ i ∈ l, w'.ctr i = some ⟨false, 0, 0, 0⟩) ∧ ∀ i, i ∉ l → w'.ctr i = w.ctr i := by
  induction its generalizing fds w its' with
  | nil =>
    simp only [set, Option.some.injEq, Prod.mk.injEq] at h
    obtain ⟨rfl, rfl⟩ := h
    exact ⟨[], List.nil_prefix, rfl, rfl, by simp, rfl, by simp, fun _ _ => rfl⟩
  | cons it its ih =>
    cases fds with
    | nil => simp [set] at h
    | cons fd fds =>
      simp only [set] at h
      split at h
      · cases h
      · cases hs : set its fds (w.opened fd) with
        | none => rw [hs] at h; cases h
        | some x =>
          obtain ⟨w₁, its₁⟩ := x
          rw [hs] at h
          simp only [Option.some.injEq, Prod.mk.injEq] at h
          obtain ⟨rfl, rfl⟩ := h
          obtain ⟨hnf, hn⟩ := List.nodup_cons.1 hn
          obtain ⟨l, h1, h2, h3, h4, h5, h6, h7⟩ := ih hn (w := w.opened fd) (by
            intro i hi
            show (if i = fd then _ else _) = _
            rw [if_neg (by rintro rfl; exact hnf hi)]
            exact hf i (List.mem_cons_of_mem _ hi)) hs
          have hfl : fd ∉ l := fun hm => hnf (h1.subset hm)
          refine ⟨fd :: l, by simpa using h1, by simp [h2], by simp [h3], ?_, h5, ?_, ?_⟩
          · intro x hx
            rcases List.mem_cons.1 hx with rfl | hx
            · exact ⟨it, by simp, rfl, rfl⟩
            · obtain ⟨y, hy, e⟩ := h4 x hx
              exact ⟨y, List.mem_cons_of_mem _ hy, e⟩
          · intro i hi
            rcases List.mem_cons.1 hi with rfl | hi
            · rw [h7 _ hfl]; simp [World.opened]
            · exact h6 i hi
          · intro i hi
            simp only [List.mem_cons, not_or] at hi
            rw [h7 i hi.2]
            simp [World.opened, hi.1]

/-! ## Reading them -/

theorem readAll_spec {w : World} {its its' : List Item} {ts : List Tally} {c : Bool}
    (h0 : ∀ it ∈ its, it.value = 0 ∧ it.active = 0)
    (hc : its.map (fun it => w.ctr it.fd) = ts.map (fun t => some (ctrOf c t))) (h : readAll w its = some its') :
    its'.map (fun it => (it.name, it.value, it.active)) = List.zipWith (Tally.line scaled) (its.map Item.name) ts ∧
      its'.map Item.fd = its.map Item.fd := by
  induction its generalizing ts its' with
  | nil =>
    simp only [readAll, Option.some.injEq] at h
    subst h
    simp
  | cons it its ih =>
    cases ts with
    | nil => simp at hc
    | cons t ts =>
      simp only [List.map_cons, List.cons.injEq] at hc
      simp only [readAll, hc.1, ctrOf] at h
      cases hr : readAll w its with
      | none => rw [hr] at h; cases h
      | some x =>
        rw [hr] at h
        simp only [Option.some.injEq] at h
        subst h
        obtain ⟨h1, h2⟩ := ih (fun it hi => h0 it (List.mem_cons_of_mem _ hi)) hc.2 hr
        obtain ⟨v0, a0⟩ := h0 it (by simp)
        refine ⟨?_, by simp [h2]⟩
        simp only [List.map_cons, List.zipWith_cons_cons, h1, List.cons.injEq, and_true, Tally.line, Prod.mk.injEq, true_and,
          scaled, Tally.share, v0, a0, Rat.zero_add]
        by_cases hp : t.enabled > 0 ∧ t.running > 0
        · have hq : ¬ (t.enabled = 0 ∨ t.running = 0) := by omega
          simp only [if_pos hp, if_neg hq, and_self]
        · have hq : t.enabled = 0 ∨ t.running = 0 := by omega
          simp only [if_neg hp, if_pos hq, and_self]

theorem closeAll {its : List Item} {w : World} :
    (∀ i, i ∉ its.map Item.fd → w.ctr i = none) → ∀ i, (its.foldl (fun w it => w.closed it.fd) w).ctr i = none := by
  induction its generalizing w with
  | nil => intro h i; exact h i (by simp)
  | cons it its ih =>
    intro h
    apply ih
    intro i hi
    show (if i = it.fd then _ else _) = none
    split
    · rfl
    · exact h i (by simp only [List.map_cons, List.mem_cons, not_or]; exact ⟨by assumption, hi⟩)

/-! ## Histories -/

theorem nano_switch (w : World) (b : Bool) : nano (w.switch b) = if w.clock < 2 ^ 63 then .ok w.clock else .ub := rfl

theorem pause_spec {names : List String} {s : State} {c : Bool} {ns : Nat} {ts : List Tally} {ok : Bool} {w : World} {p : Perf}
    (h : Rel names s (.on c ns ts)) (hp : pause ok s.w s.p = .ok (some (w, p))) :
    Rel names ⟨w, p⟩ (.on false ns ts) ∧ p.total = ns := by
  cases h with
  | on h1 h2 h3 h4 h5 h6 h7 h8 h9 h10 =>
    unfold pause at hp
    rw [if_neg (by simp [h1])] at hp
    cases c with
    | false =>
      rw [if_pos (by simp [h2])] at hp
      simp only [Res.ok.injEq, Option.some.injEq, Prod.mk.injEq] at hp
      obtain ⟨rfl, rfl⟩ := hp
      exact ⟨.on h1 h2 h3 h4 h5 h6 h7 (by simp) h9 (by simpa using h10), by simpa using h10⟩
    | true =>
      rw [if_neg (by simp [h2])] at hp
      split at hp
      · simp at hp
      · simp only [nano_switch] at hp
        by_cases hc : s.w.clock < 2 ^ 63
        · rw [if_pos hc] at hp
          simp only [Res.ok_bind, Res.ok.injEq, Option.some.injEq, Prod.mk.injEq] at hp
          obtain ⟨rfl, rfl⟩ := hp
          have h8 := h8 rfl
          simp only [if_true] at h10
          have e : (s.p.total + (s.w.clock + 2 ^ 64 - s.p.start) % 2 ^ 64) % 2 ^ 64 = ns := by omega
          rw [e]
          refine ⟨.on h1 rfl h3 h4 h5 ?_ ?_ (fun h => nomatch h) h9 rfl, rfl⟩
          · have := congrArg (List.map (fun o => o.map fun c : Counter => { c with on := false })) h6
            simpa [List.map_map, Function.comp_def, ctrOf, World.switch] using this
          · intro i hi
            simp [World.switch, h7 i hi]
        · rw [if_neg hc] at hp
          simp at hp

theorem step_spec {names : List String} {s s' : State} {e : Event} {x : Spec.State} (h : Rel names s x)
    (st : Step names s e s') (ht : e = .start → ∀ ns ts, x ≠ .on true ns ts) :
    ∃ x', Spec.next scaled names x e = some x' ∧ Rel names s' x' := by
  cases st with
  | @start fds ok w p hn hf hs =>
    unfold start at hs
    cases he : ensure names fds s.w s.p with
    | none => rw [he] at hs; simp at hs
    | some y =>
      obtain ⟨w₁, p₁⟩ := y
      rw [he] at hs
      simp only at hs
      split at hs
      · simp at hs
      · rw [nano_switch] at hs
        by_cases hc : w₁.clock < 2 ^ 63
        · rw [if_pos hc] at hs
          simp only [Res.ok_bind, Res.ok.injEq, Option.some.injEq, Prod.mk.injEq] at hs
          obtain ⟨rfl, rfl⟩ := hs
          cases h with
          | idle h1 h2 =>
            unfold ensure at he
            rw [if_pos (by simp [h1])] at he
            simp only at he
            cases hset : set (clear names).items fds s.w with
            | none => rw [hset] at he; cases he
            | some z =>
              obtain ⟨w₂, its⟩ := z
              rw [hset] at he
              simp only [Option.some.injEq, Prod.mk.injEq] at he
              obtain ⟨rfl, rfl⟩ := he
              obtain ⟨l, g1, g2, g3, g4, g5, g6, g7⟩ := set_spec hn hf hset
              have hlen : its.length = names.length := by
                have := congrArg List.length g3
                simpa [clear] using this
              refine ⟨_, rfl, .on rfl rfl ?_ ?_ ?_ ?_ ?_ (fun _ => Nat.le_refl _) (Nat.zero_le _) (by simp [clear, World.switch])⟩
              · show its.map Item.name = names
                rw [g3]; simp [clear, Function.comp_def]
              · show (its.map Item.fd).Nodup
                rw [g2]; exact hn.sublist g1.sublist
              · intro it hi
                obtain ⟨y, hy, e1, e2⟩ := g4 it hi
                simp only [clear, List.mem_map] at hy
                obtain ⟨n, -, rfl⟩ := hy
                exact ⟨e1, e2⟩
              · apply List.ext_getElem?
                intro i
                simp only [List.getElem?_map]
                by_cases hi : i < its.length
                · rw [List.getElem?_eq_getElem hi, List.getElem?_eq_getElem (by omega)]
                  have hm : its[i].fd ∈ l := by rw [← g2]; exact List.mem_map_of_mem (List.getElem_mem hi)
                  simp [World.switch, g6 _ hm, ctrOf]
                · rw [List.getElem?_eq_none (by omega), List.getElem?_eq_none (by omega)]
                  rfl
              · intro i hi
                have hi : i ∉ its.map Item.fd := hi
                rw [g2] at hi
                simp [World.switch, g7 i hi, h2 i]
          | @on c ns ts h1 h2 h3 h4 h5 h6 h7 h8 h9 h10 =>
            unfold ensure at he
            rw [if_neg (by simp [h1])] at he
            simp only [Option.some.injEq, Prod.mk.injEq] at he
            obtain ⟨rfl, rfl⟩ := he
            cases c with
            | true => exact absurd rfl (ht rfl ns ts)
            | false =>
              refine ⟨_, rfl, .on h1 rfl h3 h4 h5 ?_ ?_ (fun _ => Nat.le_refl _) h9 (by simpa [World.switch] using h10)⟩
              · have := congrArg (List.map (fun o => o.map fun c : Counter => { c with on := true })) h6
                simpa [List.map_map, Function.comp_def, ctrOf, World.switch] using this
              · intro i hi
                simp [World.switch, h7 i hi]
        · rw [if_neg hc] at hs
          simp at hs
  | @pause ok w p hp =>
    cases x with
    | idle =>
      cases h with
      | idle h1 h2 => simp [pause, h1] at hp
    | on c ns ts => exact ⟨_, rfl, (pause_spec h hp).1⟩
  | @stop ok w p r hp =>
    cases x with
    | idle =>
      cases h with
      | idle h1 h2 => simp [stop, h1] at hp
    | on c ns ts =>
      unfold stop at hp
      split at hp
      · simp at hp
      · rw [Res.bind_eq_ok] at hp
        obtain ⟨y, hy, hp⟩ := hp
        cases y with
        | none => simp at hp
        | some y =>
          obtain ⟨w₁, p₁⟩ := y
          obtain ⟨g1, g2⟩ := pause_spec h hy
          simp only at hp
          cases hr : readAll w₁ p₁.items with
          | none => rw [hr] at hp; simp at hp
          | some its =>
            rw [hr] at hp
            simp only [Res.ok.injEq, Option.some.injEq, Prod.mk.injEq] at hp
            obtain ⟨rfl, rfl, rfl⟩ := hp
            cases g1 with
            | on k1 k2 k3 k4 k5 k6 k7 k8 k9 k10 =>
              obtain ⟨e1, e2⟩ := readAll_spec k5 k6 hr
              refine ⟨.idle, ?_, .idle rfl (closeAll (by rw [e2]; exact k7))⟩
              have e3 : p₁.items.map Item.name = names := k3
              simp only [Spec.next, g2, e1, e3, if_true]
  | @tick d inc =>
    cases h with
    | idle h1 h2 => exact ⟨_, rfl, .idle h1 (fun i => by simp [World.tick, h2 i])⟩
    | @on c ns ts h1 h2 h3 h4 h5 h6 h7 h8 h9 h10 =>
      have hlen : s.p.items.length = ts.length := by simpa using congrArg List.length h6
      have hget : ∀ i (hi : i < ts.length) (hj : i < s.p.items.length), s.w.ctr s.p.items[i].fd = some (ctrOf c ts[i]) := by
        intro i hi hj
        have := congrArg (fun l => l[i]?) h6
        simpa [List.getElem?_eq_getElem, hi, hj] using this
      cases c with
      | true =>
        refine ⟨_, rfl, .on h1 h2 h3 h4 h5 ?_ (fun i hi => by simp [World.tick, h7 i hi]) ?_ ?_ ?_⟩
        · apply List.ext_getElem?
          intro i
          simp only [List.getElem?_map, List.getElem?_zipWith]
          by_cases hi : i < ts.length
          · rw [List.getElem?_eq_getElem hi, List.getElem?_eq_getElem (by omega)]
            simp [World.tick, hget i hi (by omega), ctrOf, Tally.add]
          · rw [List.getElem?_eq_none (by omega), List.getElem?_eq_none (by omega)]
            rfl
        · intro _; have := h8 rfl; simp only [World.tick]; omega
        · simp only [World.tick]; omega
        · have := h8 rfl; simp only [World.tick, if_true] at h10 ⊢; omega
      | false =>
        refine ⟨_, rfl, .on h1 h2 h3 h4 h5 ?_ (fun i hi => by simp [World.tick, h7 i hi]) (by simp) ?_ ?_⟩
        · apply List.ext_getElem?
          intro i
          simp only [List.getElem?_map]
          by_cases hi : i < ts.length
          · rw [List.getElem?_eq_getElem hi, List.getElem?_eq_getElem (by omega)]
            simp [World.tick, hget i hi (by omega), ctrOf]
          · rw [List.getElem?_eq_none (by omega), List.getElem?_eq_none (by omega)]
            rfl
        · simp only [World.tick]; omega
        · simpa using h10

theorem run_append {est : Tally → Rat} {names : List String} {es : List Event} {e : Event} :
    Spec.run est names (es ++ [e]) = (Spec.run est names es).bind fun x => Spec.next est names x e := by
  simp only [Spec.run, List.foldlM_append, List.foldlM_cons, List.foldlM_nil]
  cases List.foldlM (Spec.next est names) Spec.State.idle es with
  | none => rfl
  | some x => show (Spec.next est names x e >>= pure) = Spec.next est names x e; cases Spec.next est names x e <;> rfl

/-- The states of a history, from its end. -/
theorem snoc_induction {P : List Event → Prop} (h0 : P []) (h1 : ∀ es e, P es → P (es ++ [e])) (es : List Event) : P es := by
  have : ∀ n, ∀ es : List Event, es.length = n → P es := by
    intro n
    induction n with
    | zero => intro es h; rw [List.length_eq_zero_iff.1 h]; exact h0
    | succ n ih =>
      intro es h
      have hne : es ≠ [] := by rintro rfl; simp at h
      rw [← List.dropLast_concat_getLast hne]
      exact h1 _ _ (ih _ (by simp [h]))
  exact this _ es rfl

theorem counting_append (es : List Event) (e : Event) : Spec.counting (es ++ [e]) =
    match e with | .start => true | .pause => false | .stop _ => false | .tick _ _ => Spec.counting es := by
  simp only [Spec.counting, List.foldl_append, List.foldl_cons, List.foldl_nil]
  cases e <;> rfl

/-- Whether the specification is counting is seen in the history. -/
theorem counting_run {est : Tally → Rat} {names : List String} {es : List Event} :
    ∀ {x : Spec.State}, Spec.run est names es = some x → Spec.counting es = match x with | .idle => false | .on c _ _ => c := by
  induction es using snoc_induction with
  | h0 => intro x h; simp [Spec.run] at h; subst h; rfl
  | h1 es e ih =>
    intro x h
    rw [run_append] at h
    cases hx : Spec.run est names es with
    | none => rw [hx] at h; cases h
    | some y =>
      rw [hx] at h
      simp only [Option.bind_some] at h
      have ih := ih hx
      rw [counting_append]
      cases y with
      | idle => cases e <;> simp [Spec.next] at h <;> subst h <;> simp_all
      | on c ns ts =>
        cases e with
        | start => simp [Spec.next] at h; subst h; rfl
        | pause => simp [Spec.next] at h; subst h; rfl
        | stop r => simp [Spec.next] at h; obtain ⟨-, rfl⟩ := h; rfl
        | tick d incs => cases c <;> simp [Spec.next] at h <;> subst h <;> simpa using ih

theorem Tame.init {es : List Event} {e : Event} (h : Tame (es ++ [e])) : Tame es :=
  fun a b hab => h a (b ++ [e]) (by rw [hab]; simp)

theorem run_spec {names : List String} {clock : Nat} {es : List Event} {s : State} (r : Run names (.fresh names clock) es s)
    (ht : Tame es) : ∃ x, Spec.run scaled names es = some x ∧ Rel names s x := by
  generalize hf : State.fresh names clock = s₀ at r
  induction r with
  | refl => subst hf; exact ⟨_, rfl, .idle rfl fun _ => rfl⟩
  | @step s₁ s₂ e es r st ih =>
    obtain ⟨x, h1, h2⟩ := ih (Tame.init ht)
    have hx : e = .start → ∀ ns ts, x ≠ .on true ns ts := by
      rintro rfl ns ts rfl
      have := ht es [] rfl
      rw [counting_run h1] at this
      cases this
    obtain ⟨x', h3, h4⟩ := step_spec h2 st hx
    refine ⟨x', ?_, h4⟩
    rw [run_append, h1]
    exact h3

/-- **C76.** The time that is reported, and the shares, are those of the intervals between start and
pause or end, added up, and the numbers of events depend on the counts of these intervals only.
Missing: a start while measuring is under way, and the numbers. -/
theorem times_partial {names : List String} {clock : Nat} {es : List Event} {s : State}
    (r : Run names (.fresh names clock) es s) (ht : Tame es) : Right scaled names es := by
  obtain ⟨x, h, -⟩ := run_spec r ht
  unfold Right
  rw [h]
  exact fun h => nomatch h

/-- The tallies of a history in which every event is counted all the time. -/
theorem undivided_run {names : List String} {es : List Event} : Undivided es → ∀ {c : Bool} {ns : Nat} {ts : List Tally},
    Spec.run scaled names es = some (.on c ns ts) → ∀ t ∈ ts, t.running = t.enabled := by
  induction es using snoc_induction with
  | h0 => intro _ c ns ts h; simp [Spec.run] at h
  | h1 es e ih =>
    intro hu c ns ts h
    have hu' : Undivided es := fun d incs hm => hu d incs (List.mem_append_left _ hm)
    rw [run_append] at h
    cases hx : Spec.run scaled names es with
    | none => rw [hx] at h; cases h
    | some y =>
      rw [hx] at h
      simp only [Option.bind_some] at h
      cases y with
      | idle =>
        cases e <;> simp [Spec.next] at h
        obtain ⟨-, -, rfl⟩ := h
        simp
      | on c' ns' ts' =>
        have ih := ih hu' hx
        cases e with
        | start => simp [Spec.next] at h; obtain ⟨-, -, rfl⟩ := h; exact ih
        | pause => simp [Spec.next] at h; obtain ⟨-, -, rfl⟩ := h; exact ih
        | stop r => simp [Spec.next] at h
        | tick d incs =>
          cases c' with
          | false => simp [Spec.next] at h; obtain ⟨-, -, rfl⟩ := h; exact ih
          | true =>
            simp [Spec.next] at h
            obtain ⟨-, -, rfl⟩ := h
            intro t hm
            obtain ⟨i, hi⟩ := List.getElem?_of_mem hm
            rw [List.getElem?_zipWith] at hi
            split at hi
            · rename_i a b ha hb
              simp only [Option.some.injEq] at hi
              subst hi
              have e1 := ih a (List.mem_of_getElem? ha)
              have e2 := hu d incs (by simp) b (List.mem_of_getElem? hb)
              simp only [Tally.add]
              omega
            · cases hi

theorem scaled_estimate {t : Tally} (h : t.running = t.enabled) : scaled t = t.estimate := by
  unfold scaled Tally.estimate
  by_cases he : t.enabled = 0
  · rw [if_neg (by omega), if_pos (.inl he), Rat.mul_one]
  · rw [if_pos (by omega), if_neg (by omega), h]
    have h0 : (t.enabled : Rat) ≠ 0 := by exact_mod_cast he
    have h1 : (t.enabled : Rat) / t.enabled = 1 := by grind
    rw [h1]
    grind

/-- **C76.** If every event is counted all the time, the totals reported by `sc_perf_end` are the sums
over the intervals between start and pause or end. Missing: a start while measuring is under way, and
events that are counted for a part of the time. -/
theorem totals_partial {names : List String} {clock : Nat} {es : List Event} {s : State}
    (r : Run names (.fresh names clock) es s) (ht : Tame es) (hu : Undivided es) : Right Tally.estimate names es := by
  have key : ∀ es, Undivided es → ∀ x, Spec.run scaled names es = some x → Spec.run Tally.estimate names es = some x := by
    intro es
    induction es using snoc_induction with
    | h0 => intro _ x h; exact h
    | h1 es e ih =>
      intro hu x h
      have hu' : Undivided es := fun d incs hm => hu d incs (List.mem_append_left _ hm)
      rw [run_append] at h ⊢
      cases hx : Spec.run scaled names es with
      | none => rw [hx] at h; cases h
      | some y =>
        rw [ih hu' y hx]
        rw [hx] at h
        simp only [Option.bind_some] at h ⊢
        rw [← h]
        cases y with
        | idle => cases e <;> rfl
        | on c ns ts =>
          cases e with
          | stop r =>
            have e : List.zipWith (Tally.line Tally.estimate) names ts = List.zipWith (Tally.line scaled) names ts := by
              apply List.ext_getElem?
              intro i
              rw [List.getElem?_zipWith, List.getElem?_zipWith]
              cases hn : names[i]? with
              | none => rfl
              | some n =>
                cases ht : ts[i]? with
                | none => rfl
                | some t =>
                  simp only [Tally.line, scaled_estimate (undivided_run hu' hx t (List.mem_of_getElem? ht))]
            simp only [Spec.next, e]
          | start => rfl
          | pause => rfl
          | tick d incs => cases c <;> rfl
  obtain ⟨x, h, -⟩ := run_spec r ht
  unfold Right
  rw [key es hu x h]
  exact fun h => nomatch h

/-- After an end, and before a start, no counter is open. -/
theorem closed_after_end {names : List String} {clock : Nat} {es : List Event} {r : Report} {s : State}
    (run : Run names (.fresh names clock) (es ++ [.stop r]) s) (ht : Tame (es ++ [.stop r])) : ∀ i, s.w.ctr i = none := by
  obtain ⟨x, h, h2⟩ := run_spec run ht
  rw [run_append] at h
  cases hx : Spec.run scaled names es with
  | none => rw [hx] at h; cases h
  | some y =>
    rw [hx] at h
    simp only [Option.bind_some] at h
    have : x = .idle := by
      cases y with
      | idle => simp [Spec.next] at h
      | on c ns ts => simp [Spec.next] at h; exact h.2.symm
    subst this
    cases h2 with
    | idle _ h => exact h

/-! ## What fails -/

/-- **C76, violated.** An event counted 50 times in half of the time is reported as 25 and not as 100:
the count is multiplied with the share instead of being divided by it. -/
theorem scale_violated : ∃ es s, Run ["e"] (.fresh ["e"] 0) es s ∧ Tame es ∧ ¬ Right Tally.estimate ["e"] es := by
  have r0 : Run ["e"] (.fresh ["e"] 0) [] _ := .refl
  have r1 := r0.step (.start (fds := [3]) (ok := true) (by simp) (fun _ _ => rfl) rfl)
  have r2 := r1.step (.tick (d := 100) (inc := fun _ => (50, 50)))
  have r3 := r2.step (.stop (ok := true) rfl)
  refine ⟨_, _, r3, ?_, ?_⟩
  · intro a b h
    match a, h with
    | [], _ => rfl
    | [x], h => simp at h
    | [x, y], h => simp at h
    | x :: y :: z :: a, h => simp at h
  · unfold Right
    rw [Classical.not_not]
    decide +kernel

/-- **C76, violated.** A start while measuring is under way forgets the time since the last start,
though the counters go on: 30 and 12 nanoseconds are reported as 12. -/
theorem restart_violated : ∃ es s, Run ["e"] (.fresh ["e"] 0) es s ∧ Undivided es ∧ ¬ Right Tally.estimate ["e"] es := by
  have r0 : Run ["e"] (.fresh ["e"] 0) [] _ := .refl
  have r1 := r0.step (.start (fds := [3]) (ok := true) (by simp) (fun _ _ => rfl) rfl)
  have r2 := r1.step (.tick (d := 30) (inc := fun _ => (5, 30)))
  have r3 := r2.step (.start (fds := []) (ok := true) (by simp) (by simp) rfl)
  have r4 := r3.step (.tick (d := 12) (inc := fun _ => (7, 12)))
  have r5 := r4.step (.stop (ok := true) rfl)
  refine ⟨_, _, r5, ?_, ?_⟩
  · intro d incs h
    simp only [List.nil_append, List.cons_append, List.mem_cons, Event.tick.injEq, reduceCtorEq, false_or, List.not_mem_nil,
      or_false] at h
    rcases h with ⟨rfl, rfl⟩ | ⟨rfl, rfl⟩
    · intro i hi; obtain ⟨a, -, rfl⟩ := List.mem_map.1 hi; rfl
    · intro i hi; obtain ⟨a, -, rfl⟩ := List.mem_map.1 hi; rfl
  · unfold Right
    rw [Classical.not_not]
    decide +kernel

/-! ## Example -/

/-- Two intervals with a pause between them: 42 nanoseconds and 12 events; what happens in the pause
does not count. -/
example : ∃ s, Run ["e"] (.fresh ["e"] 0) [.start, .tick 30 [(5, 30)], .pause, .tick 1000 [(9, 1000)], .start, .tick 12 [(7, 12)],
    .stop ⟨42, [("e", 12, 1)]⟩] s := by
  have r0 : Run ["e"] (.fresh ["e"] 0) [] _ := .refl
  have r1 := r0.step (.start (fds := [3]) (ok := true) (by simp) (fun _ _ => rfl) rfl)
  have r2 := r1.step (.tick (d := 30) (inc := fun _ => (5, 30)))
  have r3 := r2.step (.pause (ok := true) rfl)
  have r4 := r3.step (.tick (d := 1000) (inc := fun _ => (9, 1000)))
  have r5 := r4.step (.start (fds := []) (ok := true) (by simp) (by simp) rfl)
  have r6 := r5.step (.tick (d := 12) (inc := fun _ => (7, 12)))
  have r7 := r6.step (.stop (ok := true) rfl)
  exact ⟨_, cast (congrArg (fun l => Run ["e"] (.fresh ["e"] 0) l _) (by decide +kernel)) r7⟩

end Verif.Perf
