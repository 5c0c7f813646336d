import Verif.List.Props

/-! # `sc_list_foreach` and `sc_list_foreach_safe` with bodies that change the list -/

namespace Verif.LList

open Spec

/-- The calls end, with this memory. -/
def Calls (h : Heap) (ops : List Op) (h' : Heap) : Prop := ∃ os N, ∀ fuel, N ≤ fuel → run fuel h ops = .ok (h', os)

/-- `sc_list_foreach`, linked-list/sc_list.h:163-164, from `e` on: the elements visited, and the outcome, `none` if it is undefined. `body s e` is the new
state of the program, the calls made and whether it ends with `break`. -/
inductive Loop (l : Addr) (body : σ → Addr → σ × List Op × Bool) : Addr → σ → Heap → List Addr → Option (σ × Heap) → Prop
  | stop {s h} : Loop l body l s h [] (some (s, h))
  | bad {e s h} : e ≠ l → (∀ h', ¬ Calls h (body s e).2.1 h') → Loop l body e s h [e] none
  | quit {e s h h'} : e ≠ l → Calls h (body s e).2.1 h' → (body s e).2.2 = true → Loop l body e s h [e] (some ((body s e).1, h'))
  | lost {e s h h'} : e ≠ l → Calls h (body s e).2.1 h' → (body s e).2.2 = false → getNext h' e = .ub → Loop l body e s h [e] none
  | next {e s h h' n vs out} : e ≠ l → Calls h (body s e).2.1 h' → (body s e).2.2 = false → getNext h' e = .ok n →
      Loop l body n (body s e).1 h' vs out → Loop l body e s h (e :: vs) out

/-- As long as the condition `I` on the program and the lists holds, the body makes calls that respect the API, and takes no element out of the list that it
goes through nor puts one to another place; it may add elements anywhere. -/
def Adds (l : Addr) (I : σ → State → Prop) (body : σ → Addr → σ × List Op × Bool) : Prop :=
  ∀ s S e as bs, I s S → S l = some (as ++ e :: bs) → ∃ os S' as' bs', Spec.Run S (body s e).2.1 os S' ∧ S' l = some (as' ++ e :: bs') ∧
    as ⊆ as' ∧ bs.Sublist bs' ∧ I (body s e).1 S'

theorem Calls.det {h h' h'' : Heap} {ops : List Op} (a : Calls h ops h') (b : Calls h ops h'') : h' = h'' := by
  obtain ⟨_, N, a⟩ := a
  obtain ⟨_, M, b⟩ := b
  have h1 := a (max N M) (by omega)
  rw [b (max N M) (by omega)] at h1
  cases h1; rfl

theorem seg_next {h : Heap} {r b e : Addr} {as bs : List Addr} (g : Seg h r (as ++ e :: bs) b) : nextOf h e = some ((bs ++ [b]).head (by simp)) := by
  have h1 := (seg_append.1 g).2
  cases bs with
  | nil => exact h1.1
  | cons x bs => exact h1.1.1

theorem loop_adds {l : Addr} {I : σ → State → Prop} {body : σ → Addr → σ × List Op × Bool} (hb : Adds l I body) {e : Addr} {s : σ} {h : Heap}
    {vs : List Addr} {out : Option (σ × Heap)} (hl : Loop l body e s h vs out) : ∀ {S : State} {as bs : List Addr}, Rep h S → S l = some (as ++ bs) →
    e = (bs ++ [l]).head (by simp) → I s S →
    ∃ s' h' S', out = some (s', h') ∧ Rep h' S' ∧ I s' S' ∧ vs.Nodup ∧ (∀ x ∈ vs, x ∉ as) ∧ ((∀ s e, (body s e).2.2 = false) → bs.Sublist vs) := by
  induction hl with
  | @stop s h =>
    intro S as bs r hS he hI
    refine ⟨s, h, S, rfl, r, hI, by simp, by simp, fun _ => ?_⟩
    cases bs with
    | nil => exact List.Sublist.slnil
    | cons x bs =>
      have hn := (r.ring _ _ hS).nodup
      simp only [List.cons_append, List.head_cons] at he
      subst he
      simp at hn
  | @bad e s h hne hno =>
    intro S as bs r hS he hI
    cases bs with
    | nil => exact absurd he hne
    | cons x bs =>
      obtain rfl : e = x := he
      obtain ⟨os, S', as', bs', hr, _⟩ := hb s S e as bs hI hS
      obtain ⟨h', N, h1, _⟩ := run_rep hr r
      exact absurd ⟨os, N, h1⟩ (hno h')
  | @quit e s h h1 hne hc hbr =>
    intro S as bs r hS he hI
    cases bs with
    | nil => exact absurd he hne
    | cons x bs =>
      obtain rfl : e = x := he
      obtain ⟨os, S', as', bs', hr, hS', ha, hsub, hI'⟩ := hb s S e as bs hI hS
      obtain ⟨h2, N, h3, r'⟩ := run_rep hr r
      obtain rfl := hc.det ⟨os, N, h3⟩
      have hn := (r.ring _ _ hS).nodup
      refine ⟨_, _, S', rfl, r', hI', by simp, ?_, ?_⟩
      · intro x hx
        simp at hx; subst hx
        grind
      · intro hno; rw [hno] at hbr; cases hbr
  | @lost e s h h1 hne hc hbr hu =>
    intro S as bs r hS he hI
    cases bs with
    | nil => exact absurd he hne
    | cons x bs =>
      obtain rfl : e = x := he
      obtain ⟨os, S', as', bs', hr, hS', ha, hsub, hI'⟩ := hb s S e as bs hI hS
      obtain ⟨h2, N, h3, r'⟩ := run_rep hr r
      obtain rfl := hc.det ⟨os, N, h3⟩
      rw [getNext_eq.2 (seg_next (r'.ring _ _ hS').seg)] at hu
      cases hu
  | @next e s h h1 n vs out hne hc hbr hu _ ih =>
    intro S as bs r hS he hI
    cases bs with
    | nil => exact absurd he hne
    | cons x bs =>
      obtain rfl : e = x := he
      obtain ⟨os, S', as', bs', hr, hS', ha, hsub, hI'⟩ := hb s S e as bs hI hS
      obtain ⟨h2, N, h3, r'⟩ := run_rep hr r
      obtain rfl := hc.det ⟨os, N, h3⟩
      rw [getNext_eq.2 (seg_next (r'.ring _ _ hS').seg)] at hu
      cases hu
      obtain ⟨s', h', S'', e1, r2, i2, n2, d2, p2⟩ := ih r' (as := as' ++ [e]) (bs := bs') (by rw [hS']; simp) rfl hI'
      have hn := (r.ring _ _ hS).nodup
      refine ⟨s', h', S'', e1, r2, i2, ?_, ?_, ?_⟩
      · exact List.nodup_cons.2 ⟨fun hm => d2 e hm (by simp), n2⟩
      · intro x hx
        rcases List.mem_cons.1 hx with rfl | hx
        · grind
        · intro hm
          exact d2 x hx (by simp [ha hm])
      · intro hno
        exact (hsub.trans (p2 hno)).cons_cons e

/-- **C128 (part).** A loop over a list whose body only adds elements to it, anywhere, and does what it likes with other lists, is defined, visits no element
twice, and visits all that were in the list, in order, if it does not break. Missing: bodies that take out or move elements; for those that take out the
element they are at there is `sc_list_foreach_safe`, see `list_foreach_safe_actions`. -/
theorem list_loop_partial {h : Heap} {S : State} (hr : Reachable h S) {l : Addr} {es : List Addr} (hS : S l = some es) {I : σ → State → Prop}
    {body : σ → Addr → σ × List Op × Bool} (hb : Adds l I body) {s : σ} (hI : I s S) {e : Addr} (he : getNext h l = .ok e) {vs : List Addr}
    {out : Option (σ × Heap)} (hl : Loop l body e s h vs out) :
    ∃ s' h' S', out = some (s', h') ∧ Rep h' S' ∧ I s' S' ∧ vs.Nodup ∧ ((∀ s e, (body s e).2.2 = false) → es.Sublist vs) := by
  have r := hr.rep
  have hn : e = (es ++ [l]).head (by simp) := by
    have h1 := getNext_eq.1 he
    have g := (r.ring _ _ hS).seg
    cases es with
    | nil => rw [g.1] at h1; exact (Option.some.inj h1).symm
    | cons x es => rw [g.1.1] at h1; exact (Option.some.inj h1).symm
  obtain ⟨s', h', S', h1, h2, h3, h4, _, h6⟩ := loop_adds hb hl r (as := []) hS hn hI
  exact ⟨s', h', S', h1, h2, h3, h4, h6⟩

/-- As `Adds`, but the body adds nothing behind the element it is at. -/
def AddsBefore (l : Addr) (I : σ → State → Prop) (body : σ → Addr → σ × List Op × Bool) : Prop :=
  ∀ s S e as bs, I s S → S l = some (as ++ e :: bs) → ∃ os S' as', Spec.Run S (body s e).2.1 os S' ∧ S' l = some (as' ++ e :: bs) ∧
    I (body s e).1 S'

theorem loop_ends {l : Addr} {I : σ → State → Prop} {body : σ → Addr → σ × List Op × Bool} (hb : AddsBefore l I body) (bs : List Addr) :
    ∀ {s : σ} {h : Heap} {S : State} {as : List Addr}, Rep h S → S l = some (as ++ bs) → I s S →
    ∃ vs s' h' S', Loop l body ((bs ++ [l]).head (by simp)) s h vs (some (s', h')) ∧ Rep h' S' ∧ I s' S' ∧ vs <+: bs ∧
      ((∀ s e, (body s e).2.2 = false) → vs = bs) := by
  induction bs with
  | nil => intro s h S as r _ hI; exact ⟨[], s, h, S, .stop, r, hI, List.prefix_rfl, fun _ => rfl⟩
  | cons e bs ih =>
    intro s h S as r hS hI
    have hne : e ≠ l := by
      have hn := (r.ring _ _ hS).nodup
      rintro rfl
      simp at hn
    obtain ⟨os, S', as', hr, hS', hI'⟩ := hb s S e as bs hI hS
    obtain ⟨h', N, h1, r'⟩ := run_rep hr r
    have hc : Calls h (body s e).2.1 h' := ⟨os, N, h1⟩
    cases hq : (body s e).2.2 with
    | true =>
      exact ⟨[e], _, h', S', .quit hne hc hq, r', hI', ⟨bs, rfl⟩, fun hno => by rw [hno] at hq; cases hq⟩
    | false =>
      obtain ⟨vs, s2, h2, S2, k1, k2, k3, k4, k5⟩ := ih (s := (body s e).1) (as := as' ++ [e]) r' (by rw [hS']; simp) hI'
      exact ⟨e :: vs, s2, h2, S2, .next hne hc hq (getNext_eq.2 (seg_next (r'.ring _ _ hS').seg)) k1, k2, k3,
        (List.prefix_cons_inj e).2 k4, fun hno => by rw [k5 hno]⟩

/-- **C128, that loops end.** If the body adds elements only before the one it is at, or to other lists, then the loop ends, having visited the elements that
were in the list from the first on, each once: all of them, if it does not break. -/
theorem list_loop_ends {h : Heap} {S : State} (hr : Reachable h S) {l : Addr} {es : List Addr} (hS : S l = some es) {I : σ → State → Prop}
    {body : σ → Addr → σ × List Op × Bool} (hb : AddsBefore l I body) {s : σ} (hI : I s S) : ∃ e, getNext h l = .ok e ∧
    ∃ vs s' h' S', Loop l body e s h vs (some (s', h')) ∧ Rep h' S' ∧ I s' S' ∧ vs <+: es ∧ ((∀ s e, (body s e).2.2 = false) → vs = es) := by
  have r := hr.rep
  refine ⟨(es ++ [l]).head (by simp), getNext_eq.2 ?_, loop_ends hb es r (as := []) hS hI⟩
  have g := (r.ring _ _ hS).seg
  cases es with
  | nil => exact g.1
  | cons x es => exact g.1.1

/-- A body that adds `f` at the end, once -/
def addOnce (l f : Addr) (s : Bool) (_ : Addr) : Bool × List Op × Bool := (true, if s then [] else [.addTail l f], false)

/-- For example one that adds an element which is in no list. -/
theorem addOnce_adds {l f : Addr} (hne : f ≠ l) : Adds l (fun s S => s = true ∨ S f = some [] ∧ ∀ es, S l = some es → f ∉ es) (addOnce l f) := by
  intro s S e as bs hI hS
  cases s with
  | true => exact ⟨[], S, as, bs, .nil S, hS, fun _ h => h, .refl _, Or.inl rfl⟩
  | false =>
    obtain ⟨h1, h2⟩ := hI.resolve_left (by simp)
    have h3 : detach S f l = some (as ++ e :: bs) := by
      have h4 := h2 _ hS
      simp only [detach, if_neg (Ne.symm hne), hS, Option.map_some]
      rw [List.filter_eq_self.2]
      intro x hx
      simp only [ne_eq, decide_not, Bool.not_eq_eq_eq_not, Bool.not_true, decide_eq_false_iff_not]
      rintro rfl
      exact h4 hx
    refine ⟨[none], _, as, bs ++ [f], .cons (.addTail S l f _ ⟨hne, ⟨f, [], h1, Or.inl rfl⟩, fun es h => by rw [h1] at h; cases h; rfl⟩ h3) (.nil _), ?_, fun _ h => h,
      List.sublist_append_left _ _, Or.inl rfl⟩
    simp [put]

/-- A body that deletes `b` when it is at `a` -/
def delNext (a b : Addr) (s : Unit) (e : Addr) (h : Heap) : Res (Unit × Heap × Bool) :=
  if e = a then do let h ← del h b; return (s, h, false) else .ok (s, h, false)

theorem safe_stuck {l a b : Addr} (hl : b ≠ l) (hab : b ≠ a) {h : Heap} (g : nextOf h b = some b) : ∀ fuel, foreachSafeFrom l (delNext a b) fuel b b h () = .ub := by
  intro fuel
  induction fuel with
  | zero => rfl
  | succ n ih =>
    rw [foreachSafeFrom, if_pos hl]
    simp only [delNext, if_neg hab, Res.ok_bind, Bool.false_eq_true, if_false, getNext_eq.2 g]
    exact ih

/-- **C128 is violated**: "It is safe to delete items from the list while using this iterator"; but when the body deletes the element after the one it is at,
`sc_list_foreach_safe` never ends. -/
theorem list_loop_violated {h : Heap} {S : State} (hr : Reachable h S) {l a b : Addr} {es : List Addr} (hS : S l = some (a :: b :: es)) :
    ∀ fuel, foreachSafe h l (delNext a b) fuel () = .ub := by
  intro fuel
  have r := hr.rep
  have g := r.ring _ _ hS
  have hn := g.nodup
  simp only [List.nodup_cons, List.mem_cons, not_or] at hn
  have h1 : getNext h l = .ok a := getNext_eq.2 g.seg.1.1
  have h2 : getNext h a = .ok b := getNext_eq.2 g.seg.2.1.1
  unfold foreachSafe
  simp only [h1, h2, Res.ok_bind]
  cases fuel with
  | zero => rfl
  | succ n =>
    obtain ⟨h', h3, _, g2, _⟩ := del_ring (as := [a]) g
    rw [foreachSafeFrom, if_pos (fun hc => hn.1.1 hc.symm)]
    have h4 : nextOf h' b = some b := g2.seg.1
    simp only [delNext, if_true, h3, Res.ok_bind, Res.pure_eq, Bool.false_eq_true, if_false, getNext_eq.2 h4]
    exact safe_stuck (fun hc => hn.1.2.1 hc.symm) (fun hc => hn.2.1.1 hc.symm) h4 n

/-- With 10 and 11 in list 1, the loop visits 10, then 11, then 12, added by the body. -/
example : (do
    let (h, _) ← run 5 (fun _ => none) [.init 1, .init 10, .init 11, .init 12, .addTail 1 10, .addTail 1 11]
    let e ← getNext h 1
    let (h, _) ← run 5 h (addOnce 1 12 false e).2.1
    let e1 ← getNext h e
    let e2 ← getNext h e1
    let e3 ← getNext h e2
    return [e, e1, e2, e3]) = .ok [10, 11, 12, 1] := rfl

/-- A body that changes nothing and counts -/
example (l : Addr) : AddsBefore l (fun (_ : Nat) _ => True) (fun n _ => (n + 1, [], false)) :=
  fun _ S _ as _ _ hS => ⟨[], S, as, .nil S, hS, trivial⟩

end Verif.LList
