import Verif.List.Iter

/-! # Properties C18, C19, C20, C21 of `sc_list` -/

namespace Verif.LList

open Spec

/-- What a caller can observe of the lists agrees with the abstract lists: for every list,
the forward and backward walks with any body, head, tail, emptiness and count. -/
structure Observes (h : Heap) (S : State) : Prop where
  foreach : ∀ (σ : Type) (body : σ → Addr → σ × Bool) (s : σ) l es fuel, S l = some es →
    es.length < fuel → foreach h l body fuel s = .ok (walk body s es)
  foreachR : ∀ (σ : Type) (body : σ → Addr → σ × Bool) (s : σ) l es fuel, S l = some es →
    es.length < fuel → foreachR h l body fuel s = .ok (walk body s es.reverse)
  head : ∀ l es, S l = some es → head h l = .ok es.head?
  tail : ∀ l es, S l = some es → tail h l = .ok es.getLast?
  isEmpty : ∀ l es, S l = some es → isEmpty h l = .ok es.isEmpty
  count : ∀ l es fuel, S l = some es → es.length < fuel →
    count fuel h l = .ok (es.length % W64)
  nodup : ∀ l es, S l = some es → (l :: es).Nodup
  disjoint : ∀ l es l' es', S l = some es → S l' = some es' → l ≠ l' →
    ∀ x, ¬ (x ∈ l :: es ∧ x ∈ l' :: es')

theorem Rep.observes {h : Heap} {S : State} (r : Rep h S) : Observes h S where
  foreach _ body s _ _ _ hl hf := foreach_eq body (r.ring _ _ hl) s hf
  foreachR _ body s _ _ _ hl hf := foreachR_eq body (r.ring _ _ hl) s hf
  head _ _ hl := (head_eq (r.ring _ _ hl)).1
  tail _ _ hl := (tail_eq (r.ring _ _ hl)).1
  isEmpty _ _ hl := (head_eq (r.ring _ _ hl)).2.1
  count l es fuel hl hf := by
    unfold LList.count
    rw [foreach_eq _ (r.ring _ _ hl) _ hf]
    have := walk_count es 0
    simp only [Nat.zero_mod, Nat.zero_add] at this
    rw [this]
  nodup _ _ hl := (r.ring _ _ hl).nodup
  disjoint _ _ _ _ hl hl' hne x hx := hne (r.disj _ _ _ _ hl hl' x hx.1 hx.2)

/-- Deleting each element in turn is detaching them all. -/
theorem safeWalk_del (es : List Addr) : ∀ {h : Heap} {S : State} {l : Addr}, Rep h S →
    S l = some es →
    (safeWalk (fun (_ : Unit) _ => ((), Action.del, false)) () S es).2 =
      put (detachAll S es) l [] := by
  induction es with
  | nil =>
    intro h S l r hl
    funext x; simp [safeWalk, put, detachAll]; rintro rfl; exact hl
  | cons e es ih =>
    intro h S l r hl
    obtain ⟨hu, h2, _⟩ := elem_used (as := []) r hl
    obtain ⟨h', _, r'⟩ := rep_del r hu h2
    have hd := detach_l (as := []) r hl
    simp only [safeWalk, Bool.false_eq_true, if_false, Action.apply]
    rw [ih r' hd, detach_eq (as := []) r hl]
    funext x
    simp only [put, detachAll, List.mem_cons, List.nil_append]
    grind

theorem rep_clear {h : Heap} {S : State} {l : Addr} {es : List Addr} (r : Rep h S)
    (hl : S l = some es) : ∃ h', (∀ fuel, es.length < fuel → clear fuel h l = .ok h') ∧
      Rep h' (put (detachAll S es) l []) := by
  have key : ∀ fuel, es.length < fuel → ∃ h', clear fuel h l = .ok h' ∧
      Rep h' (put (detachAll S es) l []) := by
    intro fuel hf
    obtain ⟨h', h1, r'⟩ := foreachSafe_eq r hl
      (fun (_ : Unit) _ => ((), Action.del, false)) (fun _ _ => trivial) () hf
    rw [safeWalk_del es r hl] at r'
    refine ⟨h', ?_, r'⟩
    unfold clear
    have hb : (actBody fun (_ : Unit) _ => ((), Action.del, false)) =
        (fun (_ : Unit) e h => do let h ← del h e; return ((), h, false)) := rfl
    rw [← hb, h1]; rfl
  -- the result does not depend on the fuel
  have mono : ∀ (fuel : Nat) (body : Unit → Addr → Heap → Res (Unit × Heap × Bool)) (e n : Addr)
      (h : Heap) x, foreachSafeFrom l body fuel e n h () = .ok x →
      foreachSafeFrom l body (fuel + 1) e n h () = .ok x := by
    intro fuel
    induction fuel with
    | zero => intro body e n h x hx; cases hx
    | succ fuel ih =>
      intro body e n h x hx
      rw [foreachSafeFrom] at hx ⊢
      split at hx
      · next hne =>
        rw [if_pos hne]
        obtain ⟨⟨s, h1, brk⟩, hb, hx⟩ := Res.bind_eq_ok.1 hx
        rw [hb, Res.ok_bind]
        cases brk with
        | true => simpa using hx
        | false =>
          simp only [Bool.false_eq_true, if_false] at hx ⊢
          obtain ⟨n', hn', hx⟩ := Res.bind_eq_ok.1 hx
          rw [hn', Res.ok_bind]
          exact ih body n n' h1 x hx
      · next hne => rw [if_neg hne]; exact hx
  have monoc : ∀ fuel x, clear fuel h l = .ok x → clear (fuel + 1) h l = .ok x := by
    intro fuel x hx
    unfold clear foreachSafe at hx ⊢
    obtain ⟨⟨u, h2⟩, h1, hx⟩ := Res.bind_eq_ok.1 hx
    obtain ⟨e, he, h1⟩ := Res.bind_eq_ok.1 h1
    obtain ⟨n, hn, h1⟩ := Res.bind_eq_ok.1 h1
    rw [he, Res.ok_bind, hn, Res.ok_bind, mono _ _ _ _ _ _ h1]
    exact hx
  obtain ⟨h', h1, r'⟩ := key (es.length + 1) (by omega)
  refine ⟨h', ?_, r'⟩
  intro fuel hf
  obtain ⟨k, rfl⟩ : ∃ k, fuel = es.length + 1 + k := ⟨fuel - (es.length + 1), by omega⟩
  clear hf
  induction k with
  | zero => exact h1
  | succ k ih => exact monoc _ _ ih

theorem step_rep {h : Heap} {S S' : State} {op : Op} {o : Option Addr} (r : Rep h S)
    (st : Spec.Step S op o S') :
    ∃ h' N, (∀ fuel, N ≤ fuel → step fuel h op = .ok (h', o)) ∧ Rep h' S' := by
  cases st with
  | init l hl => exact ⟨init h l, 0, fun _ _ => rfl, rep_init r hl⟩
  | addHead l e es ha hl =>
    obtain ⟨h', h1, r'⟩ := rep_addHead r ha hl
    exact ⟨h', 0, fun _ _ => by simp [step, h1], r'⟩
  | addTail l e es ha hl =>
    obtain ⟨h', h1, r'⟩ := rep_addTail r ha hl
    exact ⟨h', 0, fun _ _ => by simp [step, h1], r'⟩
  | addAfter l p e as bs ha hl =>
    obtain ⟨h', h1, r'⟩ := rep_addAfter r ha hl
    exact ⟨h', 0, fun _ _ => by simp [step, h1], r'⟩
  | addBefore l n e as bs ha hl =>
    obtain ⟨h', h1, r'⟩ := rep_addBefore r ha hl
    exact ⟨h', 0, fun _ _ => by simp [step, h1], r'⟩
  | popHead_empty l hl => exact ⟨h, 0, fun _ _ => rep_popHead r hl, r⟩
  | popHead l e es hl =>
    obtain ⟨h', h1, r'⟩ := rep_popHead r hl
    exact ⟨h', 0, fun _ _ => h1, r'⟩
  | popTail_empty l hl => exact ⟨h, 0, fun _ _ => (rep_popTail r).1 hl, r⟩
  | popTail l e es hl =>
    obtain ⟨h', h1, r'⟩ := (rep_popTail r).2 _ _ hl
    exact ⟨h', 0, fun _ _ => h1, r'⟩
  | del l e hu h2 =>
    obtain ⟨h', h1, r'⟩ := rep_del r hu h2
    exact ⟨h', 0, fun _ _ => by simp [step, h1], r'⟩
  | clear l es hl =>
    obtain ⟨h', h1, r'⟩ := rep_clear r hl
    exact ⟨h', es.length + 1, fun fuel hf => by simp [step, h1 fuel (by omega)], r'⟩

theorem run_rep {S S' : State} {ops : List Op} {os : List (Option Addr)}
    (hr : Spec.Run S ops os S') : ∀ {h : Heap}, Rep h S →
      ∃ h' N, (∀ fuel, N ≤ fuel → run fuel h ops = .ok (h', os)) ∧ Rep h' S' := by
  induction hr with
  | nil S => intro h r; exact ⟨h, 0, fun _ _ => rfl, r⟩
  | cons st _ ih =>
    intro h r
    obtain ⟨h1, N1, hs, r1⟩ := step_rep r st
    obtain ⟨h2, N2, hs2, r2⟩ := ih r1
    refine ⟨h2, max N1 N2, fun fuel hf => ?_, r2⟩
    simp [run, hs fuel (by omega), hs2 fuel (by omega)]

theorem rep_empty (h0 : Heap) : Rep h0 (fun _ => none) :=
  ⟨fun _ _ h => (nomatch h), fun _ _ _ _ h => (nomatch h)⟩

/-- **C18.** Start with any memory, and take any history of calls over any lists and
elements that respects the API: every object is initialised before use, what is added or
deleted is not itself the head of a non-empty list, and `add_after`/`add_before` name an
element of the list. Then every call terminates without undefined behaviour, the pops
return what the abstract sequences give, and at the end all lists are observably the
abstract sequences. -/
theorem list_refines_sequences (h0 : Heap) {ops : List Op} {os : List (Option Addr)} {S : State}
    (hr : Spec.Run (fun _ => none) ops os S) :
    ∃ h N, (∀ fuel, N ≤ fuel → run fuel h0 ops = .ok (h, os)) ∧ Observes h S := by
  obtain ⟨h, N, h1, r⟩ := run_rep hr (rep_empty h0)
  exact ⟨h, N, h1, r.observes⟩

/-- The memories that API-respecting histories reach, with their abstract lists. -/
def Reachable (h : Heap) (S : State) : Prop :=
  ∃ h0 ops os fuel, Spec.Run (fun _ => none) ops os S ∧ (∀ f, fuel ≤ f → run f h0 ops = .ok (h, os))

theorem Reachable.rep {h : Heap} {S : State} (hr : Reachable h S) : Rep h S := by
  obtain ⟨h0, ops, os, fuel, h1, h2⟩ := hr
  obtain ⟨h', N, h3, r⟩ := run_rep h1 (rep_empty h0)
  have e1 := h2 (max fuel N) (by omega)
  have e2 := h3 (max fuel N) (by omega)
  rw [e1] at e2; cases e2; exact r

/-- **C18.** Adding an element that is in another list moves it: it is at the end of the new
list, gone from the old one, and no other list changes. -/
theorem list_add_moves {h : Heap} {S : State} (hr : Reachable h S) {l d e : Addr}
    {as bs ds : List Addr} (hl : S l = some (as ++ e :: bs)) (hd : S d = some ds) (hdl : d ≠ l) :
    ∃ h', addTail h d e = .ok h' ∧
      (∀ S', (∀ x, S' x = if x = d then some (ds ++ [e]) else if x = l then some (as ++ bs)
        else S x) → Observes h' S') := by
  have r := hr.rep
  obtain ⟨hu, h2, h3⟩ := elem_used r hl
  obtain ⟨h4, hde⟩ := detach_other_root r hl hd hdl
  obtain ⟨h', h1, r'⟩ := rep_addTail r ⟨Ne.symm hde, hu, h2⟩ h4
  refine ⟨h', h1, ?_⟩
  intro S' hS'
  have : S' = put (absorb (detach S e) e) d (ds ++ [e]) := by
    funext x
    rw [hS', detach_eq r hl]
    simp only [put, absorb]
    have hle : l ≠ e := by rintro rfl; rw [h3] at hl; cases hl
    by_cases hx1 : x = d
    · simp [hx1]
    · by_cases hx2 : x = l
      · subst hx2; simp [hx1, hle]
      · by_cases hx3 : x = e
        · subst hx3; simp [hx1, hx2, h3]
        · simp [hx1, hx2, hx3]
  rw [this]; exact r'.observes

/-- A loop body that records the elements it is given and deletes those `d` selects. -/
def recordAndDelete (d : Addr → Bool) (seen : List Addr) (e : Addr) (h : Heap) :
    Res (List Addr × Heap × Bool) := do
  let h ← if d e then del h e else .ok h
  return (seen ++ [e], h, false)

theorem safeWalk_record (d : Addr → Bool) (es : List Addr) : ∀ {h : Heap} {S : State} {l : Addr}
    (ks seen : List Addr), Rep h S → S l = some (ks ++ es) →
    safeWalk (fun seen e => (seen ++ [e], if d e then Action.del else .keep, false)) seen S es =
      (seen ++ es, fun x => if x ∈ es ∧ d x = true then some []
        else if x = l then some (ks ++ es.filter (fun e => !d e)) else S x) := by
  induction es with
  | nil =>
    intro h S l ks seen r hl
    simp only [safeWalk, List.append_nil, Prod.mk.injEq, true_and]
    funext x; by_cases hx : x = l
    · subst hx; simp [hl]
    · simp [hx]
  | cons e es ih =>
    intro h S l ks seen r hl
    obtain ⟨hu, h2, h3⟩ := elem_used r hl
    have hel : e ≠ l := by rintro rfl; rw [h3] at hl; cases hl
    simp only [safeWalk, Bool.false_eq_true, if_false]
    by_cases hd : d e = true
    · obtain ⟨h', _, r'⟩ := rep_del r hu h2
      simp only [hd, if_true, Action.apply]
      rw [ih ks (seen ++ [e]) r' (detach_l r hl), detach_eq r hl]
      simp only [List.append_assoc, List.cons_append, List.nil_append, Prod.mk.injEq, true_and]
      funext x
      simp only [put, List.mem_cons, List.filter_cons, hd, Bool.not_true, Bool.false_eq_true,
        if_false]
      grind
    · have hd' : d e = false := by simpa using hd
      simp only [hd', Bool.false_eq_true, if_false, Action.apply]
      rw [ih (ks ++ [e]) (seen ++ [e]) r (by simpa using hl)]
      simp only [List.append_assoc, List.cons_append, List.nil_append, Prod.mk.injEq, true_and]
      funext x
      simp only [List.mem_cons, List.filter_cons, hd', Bool.not_false, if_true]
      grind

theorem safeWalk_record_rev (d : Addr → Bool) (es : List Addr) : ∀ {h : Heap} {S : State} {l : Addr}
    (ks seen : List Addr), Rep h S → S l = some (es.reverse ++ ks) →
    safeWalk (fun seen e => (seen ++ [e], if d e then Action.del else .keep, false)) seen S es =
      (seen ++ es, fun x => if x ∈ es ∧ d x = true then some []
        else if x = l then some ((es.filter (fun e => !d e)).reverse ++ ks) else S x) := by
  induction es with
  | nil =>
    intro h S l ks seen r hl
    simp only [safeWalk, List.append_nil, Prod.mk.injEq, true_and]
    funext x; by_cases hx : x = l
    · subst hx; simpa using hl
    · simp [hx]
  | cons e es ih =>
    intro h S l ks seen r hl
    rw [List.reverse_cons, List.append_assoc, List.singleton_append] at hl
    obtain ⟨hu, h2, h3⟩ := elem_used r hl
    have hel : e ≠ l := by rintro rfl; rw [h3] at hl; cases hl
    simp only [safeWalk, Bool.false_eq_true, if_false]
    by_cases hd : d e = true
    · obtain ⟨h', _, r'⟩ := rep_del r hu h2
      simp only [hd, if_true, Action.apply]
      rw [ih ks (seen ++ [e]) r' (detach_l r hl), detach_eq r hl]
      simp only [List.append_assoc, List.cons_append, List.nil_append, Prod.mk.injEq, true_and]
      funext x
      simp only [put, List.mem_cons, List.filter_cons, hd, Bool.not_true, Bool.false_eq_true,
        if_false]
      grind
    · have hd' : d e = false := by simpa using hd
      simp only [hd', Bool.false_eq_true, if_false, Action.apply]
      rw [ih (e :: ks) (seen ++ [e]) r hl]
      simp only [List.append_assoc, List.cons_append, List.nil_append, Prod.mk.injEq, true_and]
      funext x
      simp only [List.mem_cons, List.filter_cons, hd', Bool.not_false, if_true, List.reverse_cons,
        List.append_assoc, List.singleton_append]
      grind

theorem actBody_record (d : Addr → Bool) :
    actBody (fun seen e => (seen ++ [e], if d e then Action.del else .keep, false)) =
      recordAndDelete d := by
  funext seen e h
  unfold actBody recordAndDelete
  cases hd : d e <;> simp [hd, Action.exec]

/-- **C19.** `sc_list_foreach_safe` over any list of any reachable memory, with a body that
deletes the elements any `d` selects: it terminates, visits each element exactly once in
order, leaves the list with exactly the elements not deleted in their order, the deleted
elements detached, and all other lists as they were. -/
theorem list_foreach_safe {h : Heap} {S : State} (hr : Reachable h S) {l : Addr} {es : List Addr}
    (hl : S l = some es) (d : Addr → Bool) {fuel : Nat} (hf : es.length < fuel) :
    ∃ h', foreachSafe h l (recordAndDelete d) fuel [] = .ok (es, h') ∧
      Observes h' (fun x => if x ∈ es ∧ d x = true then some []
        else if x = l then some (es.filter (fun e => !d e)) else S x) := by
  have r := hr.rep
  obtain ⟨h', h1, r'⟩ := foreachSafe_eq r hl
    (fun seen e => (seen ++ [e], if d e then Action.del else .keep, false))
    (fun s e => by simp only; split <;> trivial) [] hf
  rw [safeWalk_record d es [] [] r hl] at h1 r'
  rw [actBody_record] at h1
  exact ⟨h', h1, r'.observes⟩

/-- **C19.** The same for `sc_list_foreach_safe_r`, in reverse order. -/
theorem list_foreach_safe_r {h : Heap} {S : State} (hr : Reachable h S) {l : Addr}
    {es : List Addr} (hl : S l = some es) (d : Addr → Bool) {fuel : Nat} (hf : es.length < fuel) :
    ∃ h', foreachSafeR h l (recordAndDelete d) fuel [] = .ok (es.reverse, h') ∧
      Observes h' (fun x => if x ∈ es ∧ d x = true then some []
        else if x = l then some (es.filter (fun e => !d e)) else S x) := by
  have r := hr.rep
  obtain ⟨h', h1, r'⟩ := foreachSafeR_eq r hl
    (fun seen e => (seen ++ [e], if d e then Action.del else .keep, false))
    (fun s e => by simp only; split <;> trivial) [] hf
  rw [safeWalk_record_rev d es.reverse [] [] r (by simpa using hl)] at h1 r'
  rw [actBody_record] at h1
  refine ⟨h', h1, ?_⟩
  have := r'.observes
  simpa using this

/-- **C19.** More generally the body may keep a state, `break`, delete the current element
or move it to the head or tail of other lists; the loop then does to the lists what visiting
the elements one by one in order does (forwards, or backwards for `_r`). -/
theorem list_foreach_safe_actions {h : Heap} {S : State} (hr : Reachable h S) {l : Addr}
    {es : List Addr} (hl : S l = some es) (act : σ → Addr → σ × Action × Bool)
    (hact : ∀ s e, (act s e).2.1.Legal S l) (s : σ) {fuel : Nat} (hf : es.length < fuel) :
    (∃ h', foreachSafe h l (actBody act) fuel s = .ok ((safeWalk act s S es).1, h') ∧
      Observes h' (safeWalk act s S es).2) ∧
    (∃ h', foreachSafeR h l (actBody act) fuel s = .ok ((safeWalk act s S es.reverse).1, h') ∧
      Observes h' (safeWalk act s S es.reverse).2) := by
  obtain ⟨h1, e1, r1⟩ := foreachSafe_eq hr.rep hl act hact s hf
  obtain ⟨h2, e2, r2⟩ := foreachSafeR_eq hr.rep hl act hact s hf
  exact ⟨⟨h1, e1, r1.observes⟩, ⟨h2, e2, r2.observes⟩⟩

theorem run_snoc {S S' S'' : State} {ops : List Op} {os : List (Option Addr)} {op : Op}
    {o : Option Addr} (hr : Spec.Run S ops os S') (st : Spec.Step S' op o S'') :
    Spec.Run S (ops ++ [op]) (os ++ [o]) S'' := by
  induction hr with
  | nil S => exact .cons st (.nil _)
  | cons s0 _ ih => exact .cons s0 (ih st)

/-- The list an operation works on. -/
def Op.target : Op → Addr
  | .init l | .addHead l _ | .addTail l _ | .addAfter l _ _ | .addBefore l _ _
  | .popHead l | .popTail l | .del l _ | .clear l => l

/-- The element an operation adds or deletes. -/
def Op.elem : Op → Option Addr
  | .addHead _ e | .addTail _ e | .addAfter _ _ e | .addBefore _ _ e | .del _ e => some e
  | _ => none

/-- **C20.** In every reachable memory, an operation changes neither the sequence nor a
single pointer of any list other than its own and the one that holds the element it adds or
deletes. -/
theorem list_frame {h : Heap} {S S' : State} (hr : Reachable h S) {op : Op} {o : Option Addr}
    (st : Spec.Step S op o S') :
    ∃ h' N, (∀ fuel, N ≤ fuel → step fuel h op = .ok (h', o)) ∧ Reachable h' S' ∧
      ∀ l es, S l = some es → l ≠ op.target → (∀ e, op.elem = some e → e ∉ l :: es) →
        S' l = some es ∧ ∀ (σ : Type) (body : σ → Addr → σ × Bool) (s : σ) fuel,
          es.length < fuel → foreach h' l body fuel s = foreach h l body fuel s := by
  have r := hr.rep
  obtain ⟨h', N, h1, r'⟩ := step_rep r st
  have hS : ∀ l es, S l = some es → l ≠ op.target → (∀ e, op.elem = some e → e ∉ l :: es) →
      S' l = some es := by
    intro l es hl hne hel
    have det : ∀ e, e ∉ l :: es → detach S e l = some es := by
      intro e he
      have h1 : l ≠ e := by rintro rfl; exact he (by simp)
      simp only [detach, h1, if_false, hl, Option.map_some]
      rw [filter_ne_self (fun hm => he (List.mem_cons_of_mem _ hm))]
    have root : ∀ l' es' e, S l' = some es' → e ∈ es' → l ≠ e := by
      rintro l' es' _ h1 h2 rfl
      have := r.disj l es l' es' hl h1 l (by simp) (List.mem_cons_of_mem _ h2)
      subst this
      have := (r.ring l es' h1).nodup
      exact (List.nodup_cons.1 this).1 h2
    cases st with
    | init l' hl' => simp only [Op.target] at hne; simp [put, hne, hl]
    | addHead l' e es' ha hl' =>
      have := hel e rfl
      have hle : l ≠ e := by rintro rfl; exact this (by simp)
      simp only [Op.target] at hne; simp [put, absorb, hne, hle, det e this]
    | addTail l' e es' ha hl' =>
      have := hel e rfl
      have hle : l ≠ e := by rintro rfl; exact this (by simp)
      simp only [Op.target] at hne; simp [put, absorb, hne, hle, det e this]
    | addAfter l' p e as bs ha hl' =>
      have := hel e rfl
      have hle : l ≠ e := by rintro rfl; exact this (by simp)
      simp only [Op.target] at hne; simp [put, absorb, hne, hle, det e this]
    | addBefore l' p e as bs ha hl' =>
      have := hel e rfl
      have hle : l ≠ e := by rintro rfl; exact this (by simp)
      simp only [Op.target] at hne; simp [put, absorb, hne, hle, det e this]
    | popHead_empty l' hl' => exact hl
    | popTail_empty l' hl' => exact hl
    | popHead l' e es' hl' =>
      have := root l' _ e hl' (by simp)
      simp only [Op.target] at hne; simp [put, hne, this, hl]
    | popTail l' e es' hl' =>
      have := root l' _ e hl' (by simp)
      simp only [Op.target] at hne; simp [put, hne, this, hl]
    | del l' e hu h2 => exact det e (hel e rfl)
    | clear l' es' hl' =>
      have : l ∉ es' := fun hm => root l' es' l hl' hm rfl
      simp only [Op.target] at hne; simp [put, detachAll, hne, this, hl]
  refine ⟨h', N, h1, ?_, ?_⟩
  · obtain ⟨h0, ops, os, fuel, hr1, hr2⟩ := hr
    refine ⟨h0, ops ++ [op], os ++ [o], max fuel N, ?_, ?_⟩
    · exact run_snoc hr1 st
    · intro f hf
      have e1 := hr2 f (by omega)
      have e2 := h1 f (by omega)
      clear hr1 hr2 h1
      induction ops generalizing h0 os with
      | nil => simp [run] at e1; obtain ⟨rfl, rfl⟩ := e1; simp [run, e2]
      | cons op' ops ih =>
        simp only [run] at e1
        obtain ⟨⟨h3, o3⟩, hs3, e1⟩ := Res.bind_eq_ok.1 e1
        obtain ⟨⟨h4, o4⟩, hs4, e1⟩ := Res.bind_eq_ok.1 e1
        cases e1
        have := ih h3 o4 hs4
        simp [run, hs3, this]
  · intro l es hl hne hel
    have h2 := hS l es hl hne hel
    refine ⟨h2, ?_⟩
    intro σ body s fuel hf
    rw [r'.observes.foreach σ body s l es fuel h2 hf, r.observes.foreach σ body s l es fuel hl hf]

/-- **C21.** Clearing any list of any reachable memory terminates; the list is then empty,
each former element is detached (an empty list of its own), everything else is unchanged.
Deleting a former element then does nothing at all, and adding it to any other list appends
it there. -/
theorem list_clear_detaches {h : Heap} {S : State} (hr : Reachable h S) {l : Addr}
    {es : List Addr} (hl : S l = some es) :
    ∃ h', (∀ fuel, es.length < fuel → clear fuel h l = .ok h') ∧
      Observes h' (put (detachAll S es) l []) ∧
      (∀ e ∈ es, del h' e = .ok h') ∧
      (∀ e ∈ es, ∀ d ds, d ∉ l :: es → S d = some ds → ∃ h'', addTail h' d e = .ok h'' ∧
        ∀ (σ : Type) (body : σ → Addr → σ × Bool) (s : σ) fuel, ds.length + 1 < fuel →
          foreach h'' d body fuel s = .ok (walk body s (ds ++ [e]))) := by
  have r := hr.rep
  obtain ⟨h', h1, r'⟩ := rep_clear r hl
  have nd := (r.ring l es hl).nodup
  have hSe : ∀ e ∈ es, put (detachAll S es) l [] e = some [] := by
    intro e he
    have hne : e ≠ l := by rintro rfl; exact (List.nodup_cons.1 nd).1 he
    simp [put, detachAll, hne, he]
  refine ⟨h', h1, r'.observes, ?_, ?_⟩
  · intro e he
    exact del_self (r'.ring e [] (hSe e he))
  · intro e he d ds hd hds
    have hdl : d ≠ l := by rintro rfl; exact hd (by simp)
    have hde : d ∉ es := fun hm => hd (List.mem_cons_of_mem _ hm)
    have hd' : put (detachAll S es) l [] d = some ds := by simp [put, detachAll, hdl, hde, hds]
    have hne : e ≠ d := by rintro rfl; exact hde he
    have hdet : detach (put (detachAll S es) l []) e = put (detachAll S es) l [] :=
      detach_self r' (hSe e he)
    obtain ⟨h'', h2, r''⟩ := rep_addTail (l := d) (es := ds) r'
      ⟨hne, ⟨e, [], hSe e he, Or.inl rfl⟩, fun es' hs => by rw [hSe e he] at hs; cases hs; rfl⟩
      (by rw [hdet]; exact hd')
    refine ⟨h'', h2, ?_⟩
    intro σ body s fuel hf
    exact r''.observes.foreach σ body s d _ fuel (by simp [put]) (by simpa using hf)

/-- **C18**, a case outside the documented use: `sc_list_add_after(l, e, e)` and
`sc_list_add_before(l, e, e)` leave `e` detached, wherever it was. -/
theorem list_add_next_to_itself {h : Heap} {S : State} (hr : Reachable h S) {e : Addr}
    (hu : Used S e) (h2 : ∀ es, S e = some es → es = []) :
    (∃ h', addAfter h e e = .ok h' ∧ Observes h' (detach S e)) ∧
    (∃ h', addBefore h e e = .ok h' ∧ Observes h' (detach S e)) := by
  obtain ⟨h1, hd, r1⟩ := rep_del hr.rep hu h2
  have ge := r1.ring e [] detach_e
  obtain ⟨hn, hp⟩ := ge.self_next
  have se := isSome_of_next hn
  have hw : wn h1 e e = h1 := by
    funext z; unfold wn; split
    · next hz =>
      subst hz
      unfold nextOf at hn
      cases hh : h1 z with
      | none => rfl
      | some n => rw [hh] at hn; cases n; simp at hn; simp [hn]
    · rfl
  have hwp : wp h1 e e = h1 := by
    funext z; unfold wp; split
    · next hz =>
      subst hz
      unfold prevOf at hp
      cases hh : h1 z with
      | none => rfl
      | some n => rw [hh] at hp; cases n; simp at hp; simp [hp]
    · rfl
  refine ⟨⟨h1, ?_, r1.observes⟩, ⟨h1, ?_, r1.observes⟩⟩
  · unfold addAfter
    rw [hd, Res.ok_bind, getNext_eq.2 hn, Res.ok_bind, setNext_eq se, hw, Res.ok_bind,
      setNext_eq se, hw, Res.ok_bind, setPrev_eq se, hwp, Res.ok_bind, setPrev_eq se, hwp]
  · unfold addBefore
    rw [hd, Res.ok_bind, getPrev_eq.2 hp, Res.ok_bind, setPrev_eq se, hwp, Res.ok_bind,
      setNext_eq se, hw, Res.ok_bind, setPrev_eq se, hwp, Res.ok_bind, setNext_eq se, hw]

/-! ## The hypotheses are met -/

/-- Two lists `1` and `2`; `10` and `11` are put in list `1`, `11` is then moved to list
`2`. -/
def demo : List Op :=
  [.init 1, .init 2, .init 10, .init 11, .addTail 1 10, .addHead 1 11, .addTail 2 11]

theorem not_used_empty (a : Addr) : ¬ Used (fun _ => none) a := by
  rintro ⟨_, _, h, _⟩; cases h

/-- The specification has an outcome for this history. -/
example : ∃ os S, Spec.Run (fun _ => none) demo os S ∧ S 1 = some [10] ∧ S 2 = some [11] := by
  have nu : ∀ (S : State) (a : Addr), S a = none → (∀ l es, S l = some es → es = []) →
      ¬ Used S a := by
    rintro S a h1 h2 ⟨l, es, h3, rfl | h4⟩
    · rw [h1] at h3; cases h3
    · rw [h2 l es h3] at h4; cases h4
  let S4 : State := put (put (put (put (fun _ => none) 1 []) 2 []) 10 []) 11 []
  refine ⟨[none, none, none, none, none, none, none], _,
    .cons (.init _ 1 (Or.inl (not_used_empty 1))) <| .cons (.init _ 2 (Or.inl ?_)) <|
    .cons (.init _ 10 (Or.inl ?_)) <| .cons (.init _ 11 (Or.inl ?_)) <|
    .cons (.addTail S4 1 10 [] ⟨by decide, ⟨10, [], rfl, Or.inl rfl⟩, ?_⟩ rfl) <|
    .cons (.addHead _ 1 11 [10] ⟨by decide, ⟨11, [], rfl, Or.inl rfl⟩, ?_⟩ rfl) <|
    .cons (.addTail _ 2 11 [] ⟨by decide, ⟨1, [11, 10], rfl, Or.inr (by simp)⟩, ?_⟩ rfl) <| .nil _,
    rfl, rfl⟩
  · refine nu _ _ rfl fun l es h => ?_
    simp only [put] at h; grind
  · refine nu _ _ rfl fun l es h => ?_
    simp only [put] at h; grind
  · refine nu _ _ rfl fun l es h => ?_
    simp only [put] at h; grind
  · intro es h; cases h; rfl
  · intro es h; cases h; rfl
  · intro es h; cases h

/-- And the code gives this: the walk of list 1 is `[10]`, that of list 2 is `[11]`. -/
example : (do
    let (h, _) ← run 5 (fun _ => none) demo
    let a ← foreach h 1 (fun s e => (s ++ [e], false)) 5 []
    let b ← foreach h 2 (fun s e => (s ++ [e], false)) 5 []
    let c ← count 5 h 1
    return (a, b, c)) = .ok ([10], [11], 1) := rfl

example : (do
    let (h, _) ← run 5 (fun _ => none)
      [.init 1, .init 10, .init 11, .init 12, .addTail 1 10, .addTail 1 11, .addTail 1 12]
    let (seen, h) ← foreachSafe h 1 (recordAndDelete (fun e => e == 11)) 5 []
    let left ← foreach h 1 (fun s e => (s ++ [e], false)) 5 []
    return (seen, left)) = .ok ([10, 11, 12], [10, 12]) := rfl

end Verif.LList
