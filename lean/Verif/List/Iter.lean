import Verif.List.Calls

/-! # Steps and iterations -/

namespace Verif.LList

open Spec

theorem rep_addTail {h : Heap} {S : State} {l e : Addr} {es : List Addr} (r : Rep h S)
    (ha : Addable S l e) (hl : detach S e l = some es) :
    ∃ h', addTail h l e = .ok h' ∧ Rep h' (put (absorb (detach S e) e) l (es ++ [e])) := by
  obtain ⟨hel, hu, h2⟩ := ha
  obtain ⟨h1, hd, r1⟩ := rep_del r hu h2
  have g := r1.ring l es hl
  have ge := r1.ring e [] detach_e
  have hnm := r1.notMem hl detach_e hel
  obtain ⟨p, hp⟩ := exists_prev (g.some_of_mem (by simp : l ∈ l :: es))
  have hpm := g.seg.prev_mem hp
  obtain ⟨h', hw, s⟩ := spliced_tail (p := p) (n := l) (g.some_of_mem hpm)
    (g.some_of_mem (by simp)) (ge.some_of_mem (by simp : e ∈ [e]))
    (by rintro rfl; exact hnm hpm) hel
  refine ⟨h', ?_, rep_splice_tail r1 hl detach_e hel hp s⟩
  unfold addTail
  rw [hd, Res.ok_bind, getPrev_eq.2 hp, Res.ok_bind]
  exact hw

theorem rep_addHead {h : Heap} {S : State} {l e : Addr} {es : List Addr} (r : Rep h S)
    (ha : Addable S l e) (hl : detach S e l = some es) :
    ∃ h', addHead h l e = .ok h' ∧ Rep h' (put (absorb (detach S e) e) l (e :: es)) := by
  obtain ⟨hel, hu, h2⟩ := ha
  obtain ⟨h1, hd, r1⟩ := rep_del r hu h2
  have g := r1.ring l es hl
  have ge := r1.ring e [] detach_e
  have hnm := r1.notMem hl detach_e hel
  obtain ⟨n, hn⟩ := exists_next (g.some_of_mem (by simp : l ∈ l :: es))
  have hnm' := g.next_mem (by simp) hn
  obtain ⟨h', hw, s⟩ := spliced_head (p := l) (n := n) (g.some_of_mem (by simp))
    (g.some_of_mem hnm') (ge.some_of_mem (by simp : e ∈ [e])) hel
    (by rintro rfl; exact hnm hnm')
  refine ⟨h', ?_, rep_splice_head r1 hl detach_e hel hn s⟩
  unfold addHead
  rw [hd, Res.ok_bind, getNext_eq.2 hn, Res.ok_bind]
  exact hw

theorem rep_addAfter {h : Heap} {S : State} {l p e : Addr} {as bs : List Addr} (r : Rep h S)
    (ha : Addable S l e) (hl : detach S e l = some (as ++ p :: bs)) :
    ∃ h', addAfter h p e = .ok h' ∧
      Rep h' (put (absorb (detach S e) e) l (as ++ p :: e :: bs)) := by
  obtain ⟨hel, hu, h2⟩ := ha
  obtain ⟨h1, hd, r1⟩ := rep_del r hu h2
  have g := r1.ring l _ hl
  have ge := r1.ring e [] detach_e
  have hnm := r1.notMem hl detach_e hel
  have hpm : p ∈ l :: (as ++ p :: bs) := by simp
  obtain ⟨n, hn⟩ := exists_next (g.some_of_mem hpm)
  have hnm' := g.next_mem hpm hn
  obtain ⟨h', hw, s⟩ := spliced_after (p := p) (n := n) (g.some_of_mem hpm)
    (g.some_of_mem hnm') (ge.some_of_mem (by simp : e ∈ [e])) (by rintro rfl; exact hnm hpm)
    (by rintro rfl; exact hnm hnm')
  refine ⟨h', ?_, rep_splice_after r1 hl detach_e hel hn s⟩
  unfold addAfter
  rw [hd, Res.ok_bind, getNext_eq.2 hn, Res.ok_bind]
  exact hw

theorem rep_addBefore {h : Heap} {S : State} {l n e : Addr} {as bs : List Addr} (r : Rep h S)
    (ha : Addable S l e) (hl : detach S e l = some (as ++ n :: bs)) :
    ∃ h', addBefore h n e = .ok h' ∧
      Rep h' (put (absorb (detach S e) e) l (as ++ e :: n :: bs)) := by
  obtain ⟨hel, hu, h2⟩ := ha
  obtain ⟨h1, hd, r1⟩ := rep_del r hu h2
  have g := r1.ring l _ hl
  have ge := r1.ring e [] detach_e
  have hnm := r1.notMem hl detach_e hel
  have hnmm : n ∈ l :: (as ++ n :: bs) := by simp
  obtain ⟨p, hp⟩ := exists_prev (g.some_of_mem hnmm)
  have hpm := g.prev_mem hnmm hp
  obtain ⟨h', hw, s⟩ := spliced_tail (p := p) (n := n) (g.some_of_mem hpm)
    (g.some_of_mem hnmm) (ge.some_of_mem (by simp : e ∈ [e])) (by rintro rfl; exact hnm hpm)
    (by rintro rfl; exact hnm hnmm)
  refine ⟨h', ?_, rep_splice_before r1 hl detach_e hel hp s⟩
  unfold addBefore
  rw [hd, Res.ok_bind, getPrev_eq.2 hp, Res.ok_bind]
  exact hw

theorem rep_init {h : Heap} {S : State} {l : Addr} (r : Rep h S)
    (hl : ¬ Used S l ∨ S l = some []) : Rep (init h l) (put S l []) := by
  have cases' : ∀ l' x', put S l [] l' = some x' →
      (l' = l ∧ x' = []) ∨ (l' ≠ l ∧ S l' = some x') := by
    intro l' x' hd; unfold put at hd
    split at hd
    · next h1 => cases hd; exact Or.inl ⟨h1, rfl⟩
    · next h1 => exact Or.inr ⟨h1, hd⟩
  have key : ∀ l' x', l' ≠ l → S l' = some x' → l ∉ l' :: x' := by
    intro l' x' h1 hS hm
    rcases hl with hl | hl
    · exact hl ⟨l', x', hS, by simpa using hm⟩
    · exact h1 (r.disj l' x' l [] hS hl l hm (by simp))
  constructor
  · intro l' x' hd
    rcases cases' l' x' hd with ⟨rfl, rfl⟩ | ⟨h1, h2⟩
    · exact ⟨⟨by simp [nextOf, init], by simp [prevOf, init]⟩, by simp⟩
    · refine (r.ring l' x' h2).congr fun z hz => ?_
      have : z ≠ l := by rintro rfl; exact key l' x' h1 h2 hz
      simp [init, this]
  · intro l1 x1 l2 x2 hd1 hd2 z hz1 hz2
    rcases cases' l1 x1 hd1 with ⟨rfl, rfl⟩ | ⟨h1, h2⟩ <;>
      rcases cases' l2 x2 hd2 with ⟨rfl, rfl⟩ | ⟨k1, k2⟩
    · rfl
    · simp only [List.mem_cons, List.not_mem_nil, or_false] at hz1
      subst hz1; exact absurd hz2 (key l2 x2 k1 k2)
    · simp only [List.mem_cons, List.not_mem_nil, or_false] at hz2
      subst hz2; exact absurd hz1 (key l1 x1 h1 h2)
    · exact r.disj l1 x1 l2 x2 h2 k2 z hz1 hz2

/-- Detaching an element of the list `l` only changes `l` and the element. -/
theorem detach_eq {h : Heap} {S : State} {l e : Addr} {as bs : List Addr} (r : Rep h S)
    (hl : S l = some (as ++ e :: bs)) : detach S e = put (put S l (as ++ bs)) e [] := by
  have g := r.ring l _ hl
  funext z
  unfold detach put
  split
  · rfl
  · split
    · next h1 => subst h1; rw [hl]; simp only [Option.map_some]
                 rw [filter_ne_mid (List.nodup_cons.1 g.nodup).2]
    · next h1 =>
      cases hS : S z with
      | none => rfl
      | some es =>
        have : e ∉ es := fun hm => h1 (r.disj z es l _ hS hl e (List.mem_cons_of_mem _ hm) (by simp))
        simp only [Option.map_some]
        rw [filter_ne_self this]

theorem detach_l {h : Heap} {S : State} {l e : Addr} {as bs : List Addr} (r : Rep h S)
    (hl : S l = some (as ++ e :: bs)) : detach S e l = some (as ++ bs) := by
  have g := r.ring l _ hl
  have hne : l ≠ e := by rintro rfl; exact (List.nodup_cons.1 g.nodup).1 (by simp)
  rw [detach_eq r hl]; simp [put, hne]

theorem elem_used {h : Heap} {S : State} {l e : Addr} {as bs : List Addr} (r : Rep h S)
    (hl : S l = some (as ++ e :: bs)) : Used S e ∧ (∀ es, S e = some es → es = []) ∧ S e = none := by
  have g := r.ring l _ hl
  have hne : l ≠ e := by rintro rfl; exact (List.nodup_cons.1 g.nodup).1 (by simp)
  have hnone : ∀ es, S e ≠ some es := fun es hs =>
    hne (r.disj l _ e es hl hs e (by simp) (by simp))
  refine ⟨⟨l, _, hl, Or.inr (by simp)⟩, fun es hs => absurd hs (hnone es), ?_⟩
  cases hS : S e with
  | none => rfl
  | some es => exact absurd hS (hnone es)

theorem head_eq {h : Heap} {l : Addr} {es : List Addr} (g : Ring h l es) :
    head h l = .ok es.head? ∧ isEmpty h l = .ok es.isEmpty ∧
      getNext h l = .ok (es.head?.getD l) := by
  unfold head isEmpty
  cases es with
  | nil =>
    have := g.self_next.1
    simp [getNext_eq.2 this]
  | cons x es =>
    have h1 := g.seg.1.1
    have hne : x ≠ l := by rintro rfl; exact (List.nodup_cons.1 g.nodup).1 (by simp)
    simp [getNext_eq.2 h1, hne]

theorem tail_eq {h : Heap} {l : Addr} {es : List Addr} (g : Ring h l es) :
    tail h l = .ok es.getLast? ∧ getPrev h l = .ok (es.getLast?.getD l) := by
  unfold tail
  rcases List.eq_nil_or_concat es with rfl | ⟨t, y, rfl⟩
  · have := g.self_next.2
    simp [getPrev_eq.2 this]
  · rw [List.concat_eq_append] at *
    have h1 := (seg_append.1 g.seg).2.2
    have hne : y ≠ l := by rintro rfl; exact (List.nodup_cons.1 g.nodup).1 (by simp)
    simp [getPrev_eq.2 h1, hne]

theorem rep_popHead {h : Heap} {S : State} {l : Addr} {es : List Addr} (r : Rep h S)
    (hl : S l = some es) : match es with
      | [] => popHead h l = .ok (h, none)
      | e :: es => ∃ h', popHead h l = .ok (h', some e) ∧ Rep h' (put (put S l es) e []) := by
  have g := r.ring l es hl
  obtain ⟨h1, h2, h3⟩ := head_eq g
  cases es with
  | nil => simp only; unfold popHead; rw [h3, Res.ok_bind, h2]; rfl
  | cons e es =>
    simp only
    obtain ⟨hu, h2', _⟩ := elem_used (as := []) r hl
    obtain ⟨h', hd, r'⟩ := rep_del r hu h2'
    refine ⟨h', ?_, ?_⟩
    · unfold popHead
      rw [h3, Res.ok_bind, h2, Res.ok_bind]
      simp only [List.isEmpty_cons, Bool.false_eq_true, if_false, List.head?_cons, Option.getD_some]
      rw [Res.ok_bind, hd]; rfl
    · rw [detach_eq (as := []) r hl] at r'; exact r'

theorem rep_popTail {h : Heap} {S : State} {l : Addr} (r : Rep h S) :
    (S l = some [] → popTail h l = .ok (h, none)) ∧
    (∀ es e, S l = some (es ++ [e]) →
      ∃ h', popTail h l = .ok (h', some e) ∧ Rep h' (put (put S l es) e [])) := by
  constructor
  · intro hl
    have g := r.ring l _ hl
    unfold popTail; rw [(tail_eq g).2, Res.ok_bind, (head_eq g).2.1]; rfl
  · intro es e hl
    have g := r.ring l _ hl
    obtain ⟨hu, h2', _⟩ := elem_used (bs := []) r hl
    obtain ⟨h', hd, r'⟩ := rep_del r hu h2'
    refine ⟨h', ?_, ?_⟩
    · unfold popTail
      rw [(tail_eq g).2, Res.ok_bind, (head_eq g).2.1, Res.ok_bind]
      have : (es ++ [e]).isEmpty = false := by simp
      simp only [this, Bool.false_eq_true, if_false]
      simp only [List.getLast?_append, List.getLast?_singleton, Option.some_or, Option.getD_some,
        Res.ok_bind]
      rw [hd]; rfl
    · rw [detach_eq (bs := []) r hl, List.append_nil] at r'; exact r'

/-! ## Loops that do not modify the list -/

theorem foreachFrom_eq {h : Heap} {l : Addr} (body : σ → Addr → σ × Bool) {a : Addr}
    {es : List Addr} (hs : Seg h a es l) (hl : l ∉ es) (s : σ) (fuel : Nat)
    (hf : es.length < fuel) (hn : getNext h a = .ok n) :
    foreachFrom h l body fuel n s = .ok (walk body s es) := by
  induction es generalizing a s fuel n with
  | nil =>
    have := getNext_eq.2 hs.1; rw [hn] at this; cases this
    cases fuel with
    | zero => simp at hf
    | succ fuel => simp [foreachFrom, walk]
  | cons x es ih =>
    have := getNext_eq.2 hs.1.1; rw [hn] at this; cases this
    cases fuel with
    | zero => simp at hf
    | succ fuel =>
      have hne : x ≠ l := by rintro rfl; exact hl (by simp)
      have hx : ∃ m, getNext h x = .ok m := by
        obtain ⟨nd, hnd⟩ := hs.2.mem_some x (by simp)
        exact ⟨nd.next, by simp [getNext, hnd]⟩
      obtain ⟨m, hm⟩ := hx
      simp only [foreachFrom, walk, ne_eq, hne, not_false_eq_true, if_true]
      split
      · rfl
      · rw [hm, Res.ok_bind]
        exact ih hs.2 (fun h => hl (List.mem_cons_of_mem _ h)) _ _ (by simp at hf; omega) hm

theorem foreach_eq {h : Heap} {l : Addr} (body : σ → Addr → σ × Bool) {es : List Addr}
    (g : Ring h l es) (s : σ) {fuel : Nat} (hf : es.length < fuel) :
    foreach h l body fuel s = .ok (walk body s es) := by
  unfold foreach
  rw [(head_eq g).2.2, Res.ok_bind]
  exact foreachFrom_eq body g.seg (List.nodup_cons.1 g.nodup).1 s fuel hf (head_eq g).2.2

theorem foreachRFrom_eq {h : Heap} {l : Addr} (body : σ → Addr → σ × Bool) {b n : Addr}
    {es : List Addr} (hs : Seg h l es.reverse b) (hl : l ∉ es) (s : σ) (fuel : Nat)
    (hf : es.length < fuel) (hn : getPrev h b = .ok n) :
    foreachRFrom h l body fuel n s = .ok (walk body s es) := by
  induction es generalizing b s fuel n with
  | nil =>
    have := getPrev_eq.2 hs.2; rw [hn] at this; cases this
    cases fuel with
    | zero => simp at hf
    | succ fuel => simp [foreachRFrom, walk]
  | cons x es ih =>
    rw [List.reverse_cons] at hs
    obtain ⟨hs1, hs2⟩ := seg_append.1 hs
    have := getPrev_eq.2 hs2.2; rw [hn] at this; cases this
    cases fuel with
    | zero => simp at hf
    | succ fuel =>
      have hne : x ≠ l := by rintro rfl; exact hl (by simp)
      have hx : ∃ m, getPrev h x = .ok m := by
        obtain ⟨nd, hnd⟩ := hs2.mem_some x (by simp)
        exact ⟨nd.prev, by simp [getPrev, hnd]⟩
      obtain ⟨m, hm⟩ := hx
      simp only [foreachRFrom, walk, ne_eq, hne, not_false_eq_true, if_true]
      split
      · rfl
      · rw [hm, Res.ok_bind]
        exact ih hs1 (fun h => hl (List.mem_cons_of_mem _ h)) _ _ (by simp at hf; omega) hm

theorem foreachR_eq {h : Heap} {l : Addr} (body : σ → Addr → σ × Bool) {es : List Addr}
    (g : Ring h l es) (s : σ) {fuel : Nat} (hf : es.length < fuel) :
    foreachR h l body fuel s = .ok (walk body s es.reverse) := by
  unfold foreachR
  rw [(tail_eq g).2, Res.ok_bind]
  refine foreachRFrom_eq body (by rw [List.reverse_reverse]; exact g.seg) ?_ s fuel (by simpa using hf)
    (tail_eq g).2
  have := (List.nodup_cons.1 g.nodup).1
  simpa using this

theorem walk_count (es : List Addr) (c : Nat) :
    walk (fun c _ => (add64 c 1, false)) (c % W64) es = (c + es.length) % W64 := by
  induction es generalizing c with
  | nil => simp [walk]
  | cons x es ih =>
    simp only [walk, Bool.false_eq_true, if_false]
    have : add64 (c % W64) 1 = (c + 1) % W64 := by unfold add64; omega
    rw [this, ih]
    simp only [List.length_cons]
    congr 1; omega

/-! ## Loops whose body moves the current element -/

/-- What the body of a safe loop may do with the element it is given. -/
inductive Action where
  | keep
  | del
  | moveHead (d : Addr)
  | moveTail (d : Addr)

/-- The calls the body makes. -/
def Action.exec (h : Heap) (e : Addr) : Action → Res Heap
  | .keep => .ok h
  | .del => LList.del h e
  | .moveHead d => addHead h d e
  | .moveTail d => addTail h d e

/-- Their effect on the abstract lists. -/
def Action.apply (S : State) (e : Addr) : Action → State
  | .keep => S
  | .del => detach S e
  | .moveHead d => put (absorb (detach S e) e) d (e :: ((detach S e d).getD []))
  | .moveTail d => put (absorb (detach S e) e) d ((detach S e d).getD [] ++ [e])

/-- The elements are moved to lists other than `l`. -/
def Action.Legal (S : State) (l : Addr) : Action → Prop
  | .moveHead d => d ≠ l ∧ ∃ es, S d = some es
  | .moveTail d => d ≠ l ∧ ∃ es, S d = some es
  | _ => True

theorem detach_other_root {h : Heap} {S : State} {l e d : Addr} {as bs ds : List Addr}
    (r : Rep h S) (hl : S l = some (as ++ e :: bs)) (hd : S d = some ds) (hdl : d ≠ l) :
    detach S e d = some ds ∧ d ≠ e := by
  have hne : d ≠ e := by
    rintro rfl
    rw [(elem_used r hl).2.2] at hd; cases hd
  refine ⟨?_, hne⟩
  rw [detach_eq r hl]; simp [put, hne, hdl, hd]

theorem action_spec {h : Heap} {S : State} {l e : Addr} {as bs : List Addr} (r : Rep h S)
    (hl : S l = some (as ++ e :: bs)) (a : Action) (ha : a.Legal S l) :
    ∃ h', a.exec h e = .ok h' ∧ Rep h' (a.apply S e) ∧
      (a.apply S e l = some (as ++ e :: bs) ∨ a.apply S e l = some (as ++ bs)) ∧
      (∀ d, d ≠ l → (∃ ds, S d = some ds) → ∃ ds, a.apply S e d = some ds) := by
  obtain ⟨hu, h2, h3⟩ := elem_used r hl
  have root : ∀ d, d ≠ l → (∃ ds, S d = some ds) → ∃ ds, detach S e d = some ds := by
    rintro d hdl ⟨ds, hds⟩; exact ⟨ds, (detach_other_root r hl hds hdl).1⟩
  have rootne : ∀ d, d ≠ l → (∃ ds, S d = some ds) → d ≠ e := by
    rintro d hdl ⟨ds, hds⟩; exact (detach_other_root r hl hds hdl).2
  have hle : l ≠ e := by
    rintro rfl; rw [h3] at hl; cases hl
  have rootmv : ∀ d es d', d' ≠ l → (∃ ds, S d' = some ds) →
      ∃ ds, put (absorb (detach S e) e) d es d' = some ds := by
    intro d es d' hd' hds
    obtain ⟨ds, h1⟩ := root d' hd' hds
    unfold put absorb; split
    · exact ⟨_, rfl⟩
    · rw [if_neg (rootne d' hd' hds)]; exact ⟨ds, h1⟩
  cases a with
  | keep => exact ⟨h, rfl, r, Or.inl hl, fun d _ hd => hd⟩
  | del =>
    obtain ⟨h', h1, r'⟩ := rep_del r hu h2
    exact ⟨h', h1, r', Or.inr (detach_l r hl), root⟩
  | moveHead d =>
    obtain ⟨hdl, ds, hds⟩ := ha
    obtain ⟨h4, hde⟩ := detach_other_root r hl hds hdl
    obtain ⟨h', h1, r'⟩ := rep_addHead r ⟨Ne.symm hde, hu, h2⟩ h4
    refine ⟨h', h1, ?_, Or.inr ?_, ?_⟩
    · simp only [Action.apply, h4, Option.getD_some]; exact r'
    · simp only [Action.apply, put, absorb]
      rw [if_neg (Ne.symm hdl), if_neg hle, detach_l r hl]
    · exact fun d' => rootmv d _ d'
  | moveTail d =>
    obtain ⟨hdl, ds, hds⟩ := ha
    obtain ⟨h4, hde⟩ := detach_other_root r hl hds hdl
    obtain ⟨h', h1, r'⟩ := rep_addTail r ⟨Ne.symm hde, hu, h2⟩ h4
    refine ⟨h', h1, ?_, Or.inr ?_, ?_⟩
    · simp only [Action.apply, h4, Option.getD_some]; exact r'
    · simp only [Action.apply, put, absorb]
      rw [if_neg (Ne.symm hdl), if_neg hle, detach_l r hl]
    · exact fun d' => rootmv d _ d'

/-- A loop body in terms of actions: from the loop state and the element to the new loop
state, what to do with the element, and whether to `break`. -/
def actBody (act : σ → Addr → σ × Action × Bool) (s : σ) (e : Addr) (h : Heap) :
    Res (σ × Heap × Bool) := do
  let (s', a, brk) := act s e
  let h ← a.exec h e
  return (s', h, brk)

/-- The loop on the abstract lists: visit `es` in order, apply the actions. -/
def safeWalk (act : σ → Addr → σ × Action × Bool) : σ → State → List Addr → σ × State
  | s, S, [] => (s, S)
  | s, S, e :: es =>
    let (s', a, brk) := act s e
    if brk then (s', a.apply S e) else safeWalk act s' (a.apply S e) es

theorem Action.Legal.mono {S S' : State} {l : Addr} {a : Action} (ha : a.Legal S l)
    (hr : ∀ d, d ≠ l → (∃ ds, S d = some ds) → ∃ ds, S' d = some ds) : a.Legal S' l := by
  cases a with
  | keep => trivial
  | del => trivial
  | moveHead d => exact ⟨ha.1, hr d ha.1 ha.2⟩
  | moveTail d => exact ⟨ha.1, hr d ha.1 ha.2⟩

theorem foreachSafeFrom_eq {l : Addr} (act : σ → Addr → σ × Action × Bool) (es : List Addr) :
    ∀ {h : Heap} {S : State} {ks : List Addr} {n n' : Addr} {fuel : Nat} (s : σ), Rep h S →
      S l = some (ks ++ es) → (∀ s e, (act s e).2.1.Legal S l) → es.length < fuel →
      n = es.head?.getD l → (∀ x rest, es = x :: rest → n' = rest.head?.getD l) →
      ∃ h', foreachSafeFrom l (actBody act) fuel n n' h s = .ok ((safeWalk act s S es).1, h') ∧
        Rep h' (safeWalk act s S es).2 := by
  induction es with
  | nil =>
    intro h S ks n n' fuel s r hl hact hf hn hn'
    cases fuel with
    | zero => simp at hf
    | succ fuel => simp at hn; exact ⟨h, by simp [foreachSafeFrom, safeWalk, hn], r⟩
  | cons e es ih =>
    intro h S ks n n' fuel s r hl hact hf hn hn'
    simp only [List.head?_cons, Option.getD_some] at hn; subst hn
    have hn' := hn' n es rfl
    cases fuel with
    | zero => simp at hf
    | succ fuel =>
      have hne : n ≠ l := by
        rintro rfl
        have := (r.ring n _ hl).nodup
        exact (List.nodup_cons.1 this).1 (by simp)
      have hleg := hact s n
      rcases hres : act s n with ⟨s', a, brk⟩
      rw [hres] at hleg
      obtain ⟨h', h1, r', hl', hroots⟩ := action_spec r hl a hleg
      simp only [foreachSafeFrom, ne_eq, hne, not_false_eq_true, if_true, actBody, hres, h1,
        Res.ok_bind, Res.pure_eq, safeWalk]
      cases brk with
      | true => exact ⟨h', by simp, by simpa using r'⟩
      | false =>
        simp only [Bool.false_eq_true, if_false]
        have hks : ∃ ks', a.apply S n l = some (ks' ++ es) := by
          rcases hl' with h | h
          · exact ⟨ks ++ [n], by rw [h]; simp⟩
          · exact ⟨ks, h⟩
        obtain ⟨ks', hks⟩ := hks
        have g' := r'.ring l _ hks
        have hmem : n' ∈ l :: (ks' ++ es) := by
          rw [hn']; cases es <;> simp
        obtain ⟨m, hm⟩ := exists_next (g'.some_of_mem hmem)
        rw [getNext_eq.2 hm, Res.ok_bind]
        refine ih s' r' hks (fun s e => (hact s e).mono hroots) (by simp at hf; omega) hn' ?_
        intro x rest hes
        subst hes
        simp only [List.head?_cons, Option.getD_some] at hn'
        subst hn'
        have := (g'.rotate).seg
        cases rest with
        | nil =>
          have := this.1.1; rw [hm] at this; cases this; rfl
        | cons y rest =>
          have := this.1.1; rw [hm] at this; cases this; rfl

theorem foreachSafe_eq {h : Heap} {S : State} {l : Addr} {es : List Addr} (r : Rep h S)
    (hl : S l = some es) (act : σ → Addr → σ × Action × Bool)
    (hact : ∀ s e, (act s e).2.1.Legal S l) (s : σ) {fuel : Nat} (hf : es.length < fuel) :
    ∃ h', foreachSafe h l (actBody act) fuel s = .ok ((safeWalk act s S es).1, h') ∧
      Rep h' (safeWalk act s S es).2 := by
  have g := r.ring l es hl
  unfold foreachSafe
  rw [(head_eq g).2.2, Res.ok_bind]
  have hmem : es.head?.getD l ∈ l :: es := by cases es <;> simp
  obtain ⟨m, hm⟩ := exists_next (g.some_of_mem hmem)
  rw [getNext_eq.2 hm, Res.ok_bind]
  refine foreachSafeFrom_eq act es (ks := []) s r hl hact hf rfl ?_
  intro x rest hes
  subst hes
  simp only [List.head?_cons, Option.getD_some] at hm
  have := g.seg.2
  cases rest with
  | nil => have := this.1; rw [hm] at this; cases this; rfl
  | cons y rest => have := this.1.1; rw [hm] at this; cases this; rfl

theorem foreachSafeRFrom_eq {l : Addr} (act : σ → Addr → σ × Action × Bool) (es : List Addr) :
    ∀ {h : Heap} {S : State} {ks : List Addr} {n n' : Addr} {fuel : Nat} (s : σ), Rep h S →
      S l = some (es.reverse ++ ks) → (∀ s e, (act s e).2.1.Legal S l) → es.length < fuel →
      n = es.head?.getD l → (∀ x rest, es = x :: rest → n' = rest.head?.getD l) →
      ∃ h', foreachSafeRFrom l (actBody act) fuel n n' h s = .ok ((safeWalk act s S es).1, h') ∧
        Rep h' (safeWalk act s S es).2 := by
  induction es with
  | nil =>
    intro h S ks n n' fuel s r hl hact hf hn hn'
    cases fuel with
    | zero => simp at hf
    | succ fuel => simp at hn; exact ⟨h, by simp [foreachSafeRFrom, safeWalk, hn], r⟩
  | cons e es ih =>
    intro h S ks n n' fuel s r hl hact hf hn hn'
    simp only [List.head?_cons, Option.getD_some] at hn; subst hn
    have hn' := hn' n es rfl
    rw [List.reverse_cons, List.append_assoc, List.singleton_append] at hl
    cases fuel with
    | zero => simp at hf
    | succ fuel =>
      have hne : n ≠ l := by
        rintro rfl
        have := (r.ring n _ hl).nodup
        exact (List.nodup_cons.1 this).1 (by simp)
      have hleg := hact s n
      rcases hres : act s n with ⟨s', a, brk⟩
      rw [hres] at hleg
      obtain ⟨h', h1, r', hl', hroots⟩ := action_spec r hl a hleg
      simp only [foreachSafeRFrom, ne_eq, hne, not_false_eq_true, if_true, actBody, hres, h1,
        Res.ok_bind, Res.pure_eq, safeWalk]
      cases brk with
      | true => exact ⟨h', by simp, by simpa using r'⟩
      | false =>
        simp only [Bool.false_eq_true, if_false]
        have hks : ∃ ks', a.apply S n l = some (es.reverse ++ ks') := by
          rcases hl' with h | h
          · exact ⟨n :: ks, h⟩
          · exact ⟨ks, h⟩
        obtain ⟨ks', hks⟩ := hks
        have g' := r'.ring l _ hks
        have hmem : n' ∈ l :: (es.reverse ++ ks') := by
          rw [hn']; cases es <;> simp
        obtain ⟨m, hm⟩ := exists_prev (g'.some_of_mem hmem)
        rw [getPrev_eq.2 hm, Res.ok_bind]
        refine ih s' r' hks (fun s e => (hact s e).mono hroots) (by simp at hf; omega) hn' ?_
        intro x rest hes
        subst hes
        simp only [List.head?_cons, Option.getD_some] at hn'
        subst hn'
        rw [List.reverse_cons, List.append_assoc, List.singleton_append] at g'
        have := (seg_append.1 g'.seg).1
        cases rest with
        | nil => have := this.2; rw [hm] at this; cases this; rfl
        | cons y rest =>
          rw [List.reverse_cons] at this
          have := (seg_append.1 this).2.2; rw [hm] at this; cases this; rfl

theorem foreachSafeR_eq {h : Heap} {S : State} {l : Addr} {es : List Addr} (r : Rep h S)
    (hl : S l = some es) (act : σ → Addr → σ × Action × Bool)
    (hact : ∀ s e, (act s e).2.1.Legal S l) (s : σ) {fuel : Nat} (hf : es.length < fuel) :
    ∃ h', foreachSafeR h l (actBody act) fuel s = .ok ((safeWalk act s S es.reverse).1, h') ∧
      Rep h' (safeWalk act s S es.reverse).2 := by
  have g := r.ring l es hl
  unfold foreachSafeR
  rw [(tail_eq g).2, Res.ok_bind]
  have hmem : es.getLast?.getD l ∈ l :: es := by
    rcases List.eq_nil_or_concat es with rfl | ⟨t, y, rfl⟩ <;> simp
  obtain ⟨m, hm⟩ := exists_prev (g.some_of_mem hmem)
  rw [getPrev_eq.2 hm, Res.ok_bind]
  refine foreachSafeRFrom_eq act es.reverse (ks := []) s r (by simpa using hl) hact (by simpa using hf)
    (by simp) ?_
  intro x rest hes
  have hes' : es = rest.reverse ++ [x] := by
    have := congrArg List.reverse hes; simpa using this
  subst hes'
  simp only [List.getLast?_append, List.getLast?_singleton, Option.some_or, Option.getD_some] at hm
  have := (seg_append.1 g.seg).1
  cases rest with
  | nil => have := this.2; rw [hm] at this; cases this; rfl
  | cons y rest =>
    rw [List.reverse_cons] at this
    have := (seg_append.1 this).2.2; rw [hm] at this; cases this; rfl

end Verif.LList
