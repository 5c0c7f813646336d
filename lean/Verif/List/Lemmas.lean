import Verif.List.Spec

/-! # Rings of nodes -/

namespace Verif.LList

def nextOf (h : Heap) (a : Addr) : Option Addr := (h a).map (·.next)
def prevOf (h : Heap) (a : Addr) : Option Addr := (h a).map (·.prev)

/-- `a` is followed by `b`. -/
def Link (h : Heap) (a b : Addr) : Prop := nextOf h a = some b ∧ prevOf h b = some a

/-- `a`, the elements of `l`, and `b` follow one another. -/
def Seg (h : Heap) : Addr → List Addr → Addr → Prop
  | a, [], b => Link h a b
  | a, x :: l, b => Link h a x ∧ Seg h x l b

/-- `r` and the elements of `l` form a ring. -/
structure Ring (h : Heap) (r : Addr) (l : List Addr) : Prop where
  seg : Seg h r l r
  nodup : (r :: l).Nodup

theorem seg_append {h : Heap} {a b x : Addr} {l1 l2 : List Addr} :
    Seg h a (l1 ++ x :: l2) b ↔ Seg h a l1 x ∧ Seg h x l2 b := by
  induction l1 generalizing a with
  | nil => simp [Seg]
  | cons y l1 ih => simp [Seg, ih, and_assoc]

theorem Ring.rotate {h : Heap} {a b : Addr} {l1 l2 : List Addr}
    (r : Ring h a (l1 ++ b :: l2)) : Ring h b (l2 ++ a :: l1) := by
  obtain ⟨h1, h2⟩ := seg_append.1 r.seg
  refine ⟨seg_append.2 ⟨h2, h1⟩, ?_⟩
  have hp : (b :: (l2 ++ a :: l1)).Perm (a :: (l1 ++ b :: l2)) := by
    have e1 : b :: (l2 ++ a :: l1) = (b :: l2) ++ (a :: l1) := rfl
    have e2 : a :: (l1 ++ b :: l2) = (a :: l1) ++ (b :: l2) := rfl
    rw [e1, e2]; exact List.perm_append_comm
  exact hp.nodup_iff.2 r.nodup

theorem Ring.rotate_iff {h : Heap} {a b : Addr} {l1 l2 : List Addr} :
    Ring h a (l1 ++ b :: l2) ↔ Ring h b (l2 ++ a :: l1) := ⟨Ring.rotate, Ring.rotate⟩

theorem Seg.congr {h h' : Heap} {a b : Addr} {l : List Addr}
    (hn : ∀ x ∈ a :: l, nextOf h' x = nextOf h x)
    (hp : ∀ x ∈ l ++ [b], prevOf h' x = prevOf h x) (s : Seg h a l b) : Seg h' a l b := by
  induction l generalizing a with
  | nil =>
    obtain ⟨h1, h2⟩ := s
    exact ⟨by rw [hn a (by simp)]; exact h1, by rw [hp b (by simp)]; exact h2⟩
  | cons x l ih =>
    obtain ⟨⟨h1, h2⟩, h3⟩ := s
    refine ⟨⟨by rw [hn a (by simp)]; exact h1, by rw [hp x (by simp)]; exact h2⟩, ?_⟩
    exact ih (fun y hy => hn y (List.mem_cons_of_mem _ hy))
      (fun y hy => hp y (by simp only [List.cons_append, List.mem_cons]; exact Or.inr hy)) h3

theorem Ring.congr {h h' : Heap} {r : Addr} {l : List Addr}
    (he : ∀ x ∈ r :: l, h' x = h x) (g : Ring h r l) : Ring h' r l := by
  refine ⟨g.seg.congr ?_ ?_, g.nodup⟩
  · intro x hx; simp [nextOf, he x hx]
  · intro x hx
    have : x ∈ r :: l := by
      simp only [List.mem_append, List.mem_cons, List.not_mem_nil, or_false] at hx ⊢
      exact hx.symm
    simp [prevOf, he x this]

/-- The node before the end of a segment is one of its nodes. -/
theorem Seg.prev_mem {h : Heap} {a b y : Addr} {l : List Addr} (s : Seg h a l b)
    (hy : prevOf h b = some y) : y ∈ a :: l := by
  induction l generalizing a with
  | nil => have := s.2; rw [hy] at this; cases this; simp
  | cons x l ih => exact List.mem_cons_of_mem _ (ih s.2)

/-- Redirecting the end of a segment. -/
theorem Seg.redirect {h h' : Heap} {a b e y : Addr} {t : List Addr} (s : Seg h a t e)
    (hy : prevOf h e = some y) (nd : (a :: t).Nodup)
    (h1 : nextOf h' y = some b) (h2 : prevOf h' b = some y)
    (hn : ∀ x ∈ a :: t, x ≠ y → nextOf h' x = nextOf h x)
    (hp : ∀ x ∈ t, prevOf h' x = prevOf h x) : Seg h' a t b := by
  induction t generalizing a with
  | nil =>
    have := s.2; rw [hy] at this; cases this
    exact ⟨h1, h2⟩
  | cons x t ih =>
    have hyx : y ∈ x :: t := Seg.prev_mem s.2 hy
    have hay : a ≠ y := by
      rintro rfl
      exact (List.nodup_cons.1 nd).1 hyx
    refine ⟨⟨?_, ?_⟩, ?_⟩
    · rw [hn a (by simp) hay]; exact s.1.1
    · rw [hp x (by simp)]; exact s.1.2
    · exact ih s.2 (List.nodup_cons.1 nd).2 (fun z hz => hn z (List.mem_cons_of_mem _ hz))
        (fun z hz => hp z (List.mem_cons_of_mem _ hz))

theorem Seg.mem_some {h : Heap} {a b : Addr} {l : List Addr} (s : Seg h a l b) :
    ∀ x ∈ a :: l, ∃ n, h x = some n := by
  induction l generalizing a with
  | nil =>
    intro x hx
    simp only [List.mem_singleton] at hx; subst hx
    have := s.1
    unfold nextOf at this
    cases hx : h x with
    | none => rw [hx] at this; cases this
    | some n => exact ⟨n, rfl⟩
  | cons y l ih =>
    intro x hx
    rcases List.mem_cons.1 hx with rfl | hx
    · have := s.1.1
      unfold nextOf at this
      cases hx : h x with
      | none => rw [hx] at this; cases this
      | some n => exact ⟨n, rfl⟩
    · exact ih s.2 x hx

/-! ## Reads and writes -/

theorem getNext_eq {h : Heap} {a b : Addr} : getNext h a = .ok b ↔ nextOf h a = some b := by
  unfold getNext nextOf; cases h a <;> simp

theorem getPrev_eq {h : Heap} {a b : Addr} : getPrev h a = .ok b ↔ prevOf h a = some b := by
  unfold getPrev prevOf; cases h a <;> simp

/-- The heap after `p->next = v`. -/
def wn (h : Heap) (p v : Addr) : Heap :=
  fun x => if x = p then (h p).map (fun n => { n with next := v }) else h x
/-- The heap after `p->prev = v`. -/
def wp (h : Heap) (p v : Addr) : Heap :=
  fun x => if x = p then (h p).map (fun n => { n with prev := v }) else h x

theorem setNext_eq {h : Heap} {p v : Addr} (hs : (h p).isSome = true) :
    setNext h p v = .ok (wn h p v) := by
  unfold setNext wn
  cases hp : h p with
  | none => rw [hp] at hs; cases hs
  | some n => rfl

theorem setPrev_eq {h : Heap} {p v : Addr} (hs : (h p).isSome = true) :
    setPrev h p v = .ok (wp h p v) := by
  unfold setPrev wp
  cases hp : h p with
  | none => rw [hp] at hs; cases hs
  | some n => rfl

theorem isSome_wn {h : Heap} {p v x : Addr} : (wn h p v x).isSome = (h x).isSome := by
  unfold wn; split
  · next hx => subst hx; simp
  · rfl
theorem isSome_wp {h : Heap} {p v x : Addr} : (wp h p v x).isSome = (h x).isSome := by
  unfold wp; split
  · next hx => subst hx; simp
  · rfl
theorem nextOf_wn {h : Heap} {p v x : Addr} (hs : (h p).isSome = true) :
    nextOf (wn h p v) x = if x = p then some v else nextOf h x := by
  unfold nextOf wn; split
  · cases hp : h p with
    | none => rw [hp] at hs; cases hs
    | some n => rfl
  · rfl
theorem prevOf_wn {h : Heap} {p v x : Addr} : prevOf (wn h p v) x = prevOf h x := by
  unfold prevOf wn; split
  · next hx => subst hx; cases h x <;> rfl
  · rfl
theorem prevOf_wp {h : Heap} {p v x : Addr} (hs : (h p).isSome = true) :
    prevOf (wp h p v) x = if x = p then some v else prevOf h x := by
  unfold prevOf wp; split
  · cases hp : h p with
    | none => rw [hp] at hs; cases hs
    | some n => rfl
  · rfl
theorem nextOf_wp {h : Heap} {p v x : Addr} : nextOf (wp h p v) x = nextOf h x := by
  unfold nextOf wp; split
  · next hx => subst hx; cases h x <;> rfl
  · rfl
theorem wn_ne {h : Heap} {p v x : Addr} (hx : x ≠ p) : wn h p v x = h x := by simp [wn, hx]
theorem wp_ne {h : Heap} {p v x : Addr} (hx : x ≠ p) : wp h p v x = h x := by simp [wp, hx]

theorem isSome_of_next {h : Heap} {a b : Addr} (hn : nextOf h a = some b) :
    (h a).isSome = true := by
  unfold nextOf at hn; cases ha : h a with
  | none => rw [ha] at hn; cases hn
  | some n => rfl
theorem isSome_of_prev {h : Heap} {a b : Addr} (hn : prevOf h a = some b) :
    (h a).isSome = true := by
  unfold prevOf at hn; cases ha : h a with
  | none => rw [ha] at hn; cases hn
  | some n => rfl

theorem Ring.self_next {h : Heap} {r : Addr} (g : Ring h r []) :
    nextOf h r = some r ∧ prevOf h r = some r := g.seg

/-- Deleting a node from a ring of at least two. -/
theorem del_spec {h : Heap} {e x : Addr} {t : List Addr} (g : Ring h e (x :: t)) :
    ∃ h', del h e = .ok h' ∧ Ring h' x t ∧ Ring h' e [] ∧
      (∀ z, z ∉ e :: x :: t → h' z = h z) := by
  obtain ⟨⟨hex1, hex2⟩, hs⟩ := g.seg
  have nd := g.nodup
  have he : e ∉ x :: t := (List.nodup_cons.1 nd).1
  have ndx : (x :: t).Nodup := (List.nodup_cons.1 nd).2
  obtain ⟨ne, hne⟩ := g.seg.mem_some e (by simp)
  obtain ⟨y, hy⟩ : ∃ y, prevOf h e = some y := ⟨ne.prev, by simp [prevOf, hne]⟩
  have hymem : y ∈ x :: t := hs.prev_mem hy
  obtain ⟨ny, hny⟩ := g.seg.mem_some y (List.mem_cons_of_mem _ hymem)
  obtain ⟨nx, hnx⟩ := g.seg.mem_some x (by simp)
  have hye : y ≠ e := by rintro rfl; exact he hymem
  have hxe : x ≠ e := by rintro rfl; exact he (by simp)
  have sy : (h y).isSome = true := by simp [hny]
  have sx : (h x).isSome = true := by simp [hnx]
  have se : (h e).isSome = true := by simp [hne]
  have n1 := fun z => nextOf_wn (h := h) (p := y) (v := x) (x := z) sy
  have n2 : ∀ z, nextOf (wp (wn h y x) x y) z = if z = y then some x else nextOf h z := by
    intro z; rw [nextOf_wp, n1]
  have p2 : ∀ z, prevOf (wp (wn h y x) x y) z = if z = x then some y else prevOf h z := by
    intro z; rw [prevOf_wp (by rw [isSome_wn]; exact sx), prevOf_wn]
  have sfin : ((wp (wn h y x) x y) e).isSome = true := by rw [isSome_wp, isSome_wn]; exact se
  have n3 : ∀ z, nextOf (wp (wn (wp (wn h y x) x y) e e) e e) z =
      if z = e then some e else if z = y then some x else nextOf h z := by
    intro z; rw [nextOf_wp, nextOf_wn sfin, n2]
  have p3 : ∀ z, prevOf (wp (wn (wp (wn h y x) x y) e e) e e) z =
      if z = e then some e else if z = x then some y else prevOf h z := by
    intro z; rw [prevOf_wp (by rw [isSome_wn]; exact sfin), prevOf_wn, p2]
  refine ⟨wp (wn (wp (wn h y x) x y) e e) e e, ?_, ⟨?_, ndx⟩, ⟨⟨?_, ?_⟩, by simp⟩, ?_⟩
  · unfold del
    rw [getPrev_eq.2 hy, Res.ok_bind, getNext_eq.2 hex1, Res.ok_bind, setNext_eq sy, Res.ok_bind]
    have e1 : getNext (wn h y x) e = .ok x := by
      rw [getNext_eq, n1, if_neg (Ne.symm hye)]; exact hex1
    have e2 : getPrev (wn h y x) e = .ok y := by rw [getPrev_eq, prevOf_wn]; exact hy
    rw [e1, Res.ok_bind, e2, Res.ok_bind, setPrev_eq (by rw [isSome_wn]; exact sx), Res.ok_bind,
      setNext_eq sfin, Res.ok_bind, setPrev_eq (by rw [isSome_wn]; exact sfin)]
  · refine hs.redirect hy ndx ?_ ?_ ?_ ?_
    · rw [n3, if_neg hye, if_pos rfl]
    · rw [p3, if_neg hxe, if_pos rfl]
    · intro z hz hzy
      have hze : z ≠ e := by rintro rfl; exact he hz
      rw [n3, if_neg hze, if_neg hzy]
    · intro z hz
      have hze : z ≠ e := by rintro rfl; exact he (List.mem_cons_of_mem _ hz)
      have hzx : z ≠ x := by rintro rfl; exact (List.nodup_cons.1 ndx).1 hz
      rw [p3, if_neg hze, if_neg hzx]
  · rw [n3, if_pos rfl]
  · rw [p3, if_pos rfl]
  · intro z hz
    have hze : z ≠ e := by rintro rfl; exact hz (by simp)
    have hzx : z ≠ x := by rintro rfl; exact hz (by simp)
    have hzy : z ≠ y := by rintro rfl; exact hz (List.mem_cons_of_mem _ hymem)
    rw [wp_ne hze, wn_ne hze, wp_ne hzx, wn_ne hzy]

/-- Deleting a detached node changes nothing. -/
theorem del_self {h : Heap} {e : Addr} (g : Ring h e []) : del h e = .ok h := by
  obtain ⟨h1, h2⟩ := g.self_next
  have se := isSome_of_next h1
  have hw : wn h e e = h := by
    funext z; unfold wn; split
    · next hz =>
      subst hz
      unfold nextOf at h1
      cases hh : h z with
      | none => rfl
      | some n => rw [hh] at h1; cases n; simp at h1; simp [h1]
    · rfl
  have hwp : wp h e e = h := by
    funext z; unfold wp; split
    · next hz =>
      subst hz
      unfold prevOf at h2
      cases hh : h z with
      | none => rfl
      | some n => rw [hh] at h2; cases n; simp at h2; simp [h2]
    · rfl
  unfold del
  rw [getPrev_eq.2 h2, Res.ok_bind, getNext_eq.2 h1, Res.ok_bind, setNext_eq se, Res.ok_bind, hw,
    getNext_eq.2 h1, Res.ok_bind, getPrev_eq.2 h2, Res.ok_bind, setPrev_eq se, Res.ok_bind, hwp,
    setNext_eq se, Res.ok_bind, hw, setPrev_eq se, hwp]

/-- The heap in which `e` was linked in between `p` and `n`: what any order of the four
writes gives. -/
structure Spliced (h h' : Heap) (p n e : Addr) : Prop where
  nx : ∀ z, nextOf h' z = if z = e then some n else if z = p then some e else nextOf h z
  pv : ∀ z, prevOf h' z = if z = e then some p else if z = n then some e else prevOf h z
  frame : ∀ z, z ≠ e → z ≠ p → z ≠ n → h' z = h z

/-- Linking in after `p`. -/
theorem Spliced.ring_after {h h' : Heap} {p n e : Addr} {t : List Addr} (s : Spliced h h' p n e)
    (g : Ring h p t) (hn : nextOf h p = some n) (he : e ∉ p :: t) :
    Ring h' p (e :: t) := by
  have hpe : p ≠ e := by rintro rfl; exact he (by simp)
  have nd := g.nodup
  refine ⟨⟨⟨?_, ?_⟩, ?_⟩, ?_⟩
  · rw [s.nx, if_neg hpe, if_pos rfl]
  · rw [s.pv, if_pos rfl]
  · cases t with
    | nil =>
      have : n = p := by have := g.self_next.1; rw [hn] at this; exact Option.some.inj this
      subst this
      exact ⟨by rw [s.nx, if_pos rfl], by rw [s.pv, if_neg hpe, if_pos rfl]⟩
    | cons x t =>
      obtain ⟨⟨h1, h2⟩, hs⟩ := g.seg
      rw [hn] at h1; cases h1
      have hne : n ≠ e := by rintro rfl; exact he (by simp)
      refine ⟨⟨by rw [s.nx, if_pos rfl], by rw [s.pv, if_neg hne, if_pos rfl]⟩, ?_⟩
      refine hs.congr ?_ ?_
      · intro z hz
        have hze : z ≠ e := by rintro rfl; exact he (List.mem_cons_of_mem _ hz)
        have hzp : z ≠ p := by rintro rfl; exact (List.nodup_cons.1 nd).1 hz
        rw [s.nx, if_neg hze, if_neg hzp]
      · intro z hz
        have hze : z ≠ e := by
          rintro rfl
          rcases List.mem_append.1 hz with h | h
          · exact he (List.mem_cons_of_mem _ (List.mem_cons_of_mem _ h))
          · rw [List.mem_singleton] at h; exact hpe h.symm
        have hzn : z ≠ n := by
          rintro rfl
          rcases List.mem_append.1 hz with h | h
          · exact (List.nodup_cons.1 (List.nodup_cons.1 nd).2).1 h
          · rw [List.mem_singleton] at h; subst h
            exact (List.nodup_cons.1 nd).1 (by simp)
        rw [s.pv, if_neg hze, if_neg hzn]
  · have : (e :: p :: t).Nodup := List.nodup_cons.2 ⟨he, nd⟩
    exact (List.Perm.swap e p t).nodup_iff.2 this

/-- Linking in before `n`. -/
theorem Spliced.ring_before {h h' : Heap} {p n e : Addr} {t : List Addr} (s : Spliced h h' p n e)
    (g : Ring h n t) (hp : prevOf h n = some p) (he : e ∉ n :: t) : Ring h' n (t ++ [e]) := by
  have hpm : p ∈ n :: t := g.seg.prev_mem hp
  -- seen from p, this is linking in after p
  have hring : ∃ t', Ring h p t' ∧ nextOf h p = some n ∧ e ∉ p :: t' ∧
      (∀ h', Ring h' p (e :: t') → Ring h' n (t ++ [e])) := by
    rcases List.eq_nil_or_concat t with rfl | ⟨t0, y, rfl⟩
    · have : p = n := by have := g.self_next.2; rw [hp] at this; exact Option.some.inj this
      subst this
      exact ⟨[], g, g.self_next.1, he, fun h' r => r⟩
    · rw [List.concat_eq_append] at *
      have g2 := g
      have hg := (seg_append.1 g.seg).2
      have : p = y := by have := hg.2; rw [hp] at this; exact Option.some.inj this
      subst this
      have gr : Ring h p (n :: t0) := by simpa using g.rotate
      refine ⟨n :: t0, gr, gr.seg.1.1, ?_, ?_⟩
      · intro hm; apply he
        simp only [List.mem_cons, List.mem_append, List.not_mem_nil, or_false] at hm ⊢
        rcases hm with h | h | h
        · exact Or.inr (Or.inr h)
        · exact Or.inl h
        · exact Or.inr (Or.inl h)
      · intro h' r
        have : Ring h' p ([e] ++ n :: t0) := r
        have := this.rotate
        simpa using this
  obtain ⟨t', g', hn, he', hback⟩ := hring
  exact hback _ (s.ring_after g' hn he')

end Verif.LList
