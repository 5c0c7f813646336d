import Verif.List.Lemmas

/-! # The calls on rings, and the representation relation -/

namespace Verif.LList

open Spec

/-- The memory holds the lists of the abstract state. -/
structure Rep (h : Heap) (S : State) : Prop where
  ring : ∀ l es, S l = some es → Ring h l es
  disj : ∀ l es l' es', S l = some es → S l' = some es' →
    ∀ x, x ∈ l :: es → x ∈ l' :: es' → l = l'

theorem spliced_tail {h : Heap} {p n e : Addr} (sp : (h p).isSome = true)
    (sn : (h n).isSome = true) (se : (h e).isSome = true) (hp : e ≠ p) (_ : e ≠ n) :
    ∃ h', (do
      let h ← setPrev h n e
      let h ← setNext h e n
      let h ← setPrev h e p
      setNext h p e) = .ok h' ∧ Spliced h h' p n e := by
  refine ⟨wn (wp (wn (wp h n e) e n) e p) p e, ?_, ?_⟩
  · rw [setPrev_eq sn, Res.ok_bind, setNext_eq (by simpa [isSome_wp] using se), Res.ok_bind,
      setPrev_eq (by simpa [isSome_wp, isSome_wn] using se), Res.ok_bind,
      setNext_eq (by simpa [isSome_wp, isSome_wn] using sp)]
  · constructor
    · intro z
      rw [nextOf_wn (by simpa [isSome_wp, isSome_wn] using sp), nextOf_wp,
        nextOf_wn (by simpa [isSome_wp] using se), nextOf_wp]
      grind
    · intro z
      rw [prevOf_wn, prevOf_wp (by simpa [isSome_wp, isSome_wn] using se), prevOf_wn,
        prevOf_wp sn]
    · intro z h1 h2 h3
      rw [wn_ne h2, wp_ne h1, wn_ne h1, wp_ne h3]

theorem spliced_head {h : Heap} {p n e : Addr} (sp : (h p).isSome = true)
    (sn : (h n).isSome = true) (se : (h e).isSome = true) (_ : e ≠ p) (hn : e ≠ n) :
    ∃ h', (do
      let h ← setNext h p e
      let h ← setPrev h e p
      let h ← setNext h e n
      setPrev h n e) = .ok h' ∧ Spliced h h' p n e := by
  refine ⟨wp (wn (wp (wn h p e) e p) e n) n e, ?_, ?_⟩
  · rw [setNext_eq sp, Res.ok_bind, setPrev_eq (by simpa [isSome_wn] using se), Res.ok_bind,
      setNext_eq (by simpa [isSome_wp, isSome_wn] using se), Res.ok_bind,
      setPrev_eq (by simpa [isSome_wp, isSome_wn] using sn)]
  · constructor
    · intro z
      rw [nextOf_wp, nextOf_wn (by simpa [isSome_wp, isSome_wn] using se), nextOf_wp,
        nextOf_wn sp]
    · intro z
      rw [prevOf_wp (by simpa [isSome_wp, isSome_wn] using sn), prevOf_wn,
        prevOf_wp (by simpa [isSome_wn] using se), prevOf_wn]
      grind
    · intro z h1 h2 h3
      rw [wp_ne h3, wn_ne h1, wp_ne h1, wn_ne h2]

theorem spliced_after {h : Heap} {p n e : Addr} (sp : (h p).isSome = true)
    (sn : (h n).isSome = true) (se : (h e).isSome = true) (_ : e ≠ p) (hn : e ≠ n) :
    ∃ h', (do
      let h ← setNext h p e
      let h ← setNext h e n
      let h ← setPrev h e p
      setPrev h n e) = .ok h' ∧ Spliced h h' p n e := by
  refine ⟨wp (wp (wn (wn h p e) e n) e p) n e, ?_, ?_⟩
  · rw [setNext_eq sp, Res.ok_bind, setNext_eq (by simpa [isSome_wn] using se), Res.ok_bind,
      setPrev_eq (by simpa [isSome_wp, isSome_wn] using se), Res.ok_bind,
      setPrev_eq (by simpa [isSome_wp, isSome_wn] using sn)]
  · constructor
    · intro z
      rw [nextOf_wp, nextOf_wp, nextOf_wn (by simpa [isSome_wp, isSome_wn] using se),
        nextOf_wn sp]
    · intro z
      rw [prevOf_wp (by simpa [isSome_wp, isSome_wn] using sn),
        prevOf_wp (by simpa [isSome_wn] using se), prevOf_wn, prevOf_wn]
      grind
    · intro z h1 h2 h3
      rw [wp_ne h3, wp_ne h1, wn_ne h1, wn_ne h2]

/-! ## Deleting -/

theorem filter_ne_self {l : List Addr} {e : Addr} (h : e ∉ l) : l.filter (· ≠ e) = l := by
  rw [List.filter_eq_self]; intro a ha
  simp only [ne_eq, decide_eq_true_eq]
  rintro rfl; exact h ha

theorem filter_ne_mid {as bs : List Addr} {e : Addr} (h : (as ++ e :: bs).Nodup) :
    (as ++ e :: bs).filter (· ≠ e) = as ++ bs := by
  have h1 := List.nodup_append.1 h
  have ha : e ∉ as := fun hm => h1.2.2 e hm e (by simp) rfl
  have hb : e ∉ bs := (List.nodup_cons.1 h1.2.1).1
  rw [List.filter_append, List.filter_cons_of_neg (by simp), filter_ne_self ha, filter_ne_self hb]

theorem detach_self {h : Heap} {S : State} {e : Addr} (r : Rep h S) (he : S e = some []) :
    detach S e = S := by
  funext l
  unfold detach
  split
  · next hl => rw [hl, he]
  · next hl =>
    cases hS : S l with
    | none => rfl
    | some es =>
      have : e ∉ es := fun hm => hl (r.disj l es e [] hS he e (List.mem_cons_of_mem _ hm) (by simp))
      simp only [Option.map_some]
      rw [filter_ne_self this]

theorem used_cases {S : State} {e : Addr} (hu : Used S e) (h2 : ∀ es, S e = some es → es = []) :
    S e = some [] ∨ ∃ l as bs, S l = some (as ++ e :: bs) := by
  obtain ⟨l, es, hl, rfl | hm⟩ := hu
  · left; rw [hl, h2 es hl]
  · right
    obtain ⟨as, bs, rfl⟩ := List.append_of_mem hm
    exact ⟨l, as, bs, hl⟩

/-- Detaching an element that sits in a list. -/
theorem rep_detach {h h' : Heap} {S : State} {l e : Addr} {as bs : List Addr} (r : Rep h S)
    (hl : S l = some (as ++ e :: bs)) (g1 : Ring h' l (as ++ bs)) (g2 : Ring h' e [])
    (hf : ∀ z, z ∉ l :: (as ++ e :: bs) → h' z = h z) : Rep h' (detach S e) := by
  have g := r.ring l _ hl
  have hle : l ≠ e := by
    rintro rfl; exact (List.nodup_cons.1 g.nodup).1 (by simp)
  have hmid : (as ++ e :: bs).filter (· ≠ e) = as ++ bs :=
    filter_ne_mid (List.nodup_cons.1 g.nodup).2
  have other : ∀ l' es', l' ≠ l → l' ≠ e → S l' = some es' → e ∉ es' := fun l' es' h1 _ hS hm =>
    h1 (r.disj l' es' l _ hS hl e (List.mem_cons_of_mem _ hm) (by simp))
  have cases' : ∀ l' es', detach S e l' = some es' →
      (l' = e ∧ es' = []) ∨ (l' = l ∧ es' = as ++ bs) ∨ (l' ≠ e ∧ l' ≠ l ∧ S l' = some es') := by
    intro l' es' hd
    unfold detach at hd
    split at hd
    · next h1 => cases hd; exact Or.inl ⟨h1, rfl⟩
    · next h1 =>
      by_cases h2 : l' = l
      · subst h2; rw [hl] at hd; simp only [Option.map_some, Option.some.injEq] at hd
        rw [hmid] at hd; exact Or.inr (Or.inl ⟨rfl, hd.symm⟩)
      · cases hS : S l' with
        | none => rw [hS] at hd; cases hd
        | some es =>
          rw [hS] at hd; simp only [Option.map_some, Option.some.injEq] at hd
          rw [filter_ne_self (other l' es h2 h1 hS)] at hd
          exact Or.inr (Or.inr ⟨h1, h2, by rw [hd]⟩)
  have hnotin : ∀ l' es', l' ≠ l → S l' = some es' → ∀ x ∈ l' :: es', x ∉ l :: (as ++ e :: bs) :=
    fun l' es' h1 hS x hx hx2 => h1 (r.disj l' es' l _ hS hl x hx hx2)
  have hsub : ∀ x, x ∈ l :: (as ++ bs) → x ∈ l :: (as ++ e :: bs) := by
    intro x hx; simp only [List.mem_cons, List.mem_append] at hx ⊢; grind
  constructor
  · intro l' es' hd
    rcases cases' l' es' hd with ⟨rfl, rfl⟩ | ⟨rfl, rfl⟩ | ⟨h1, h2, h3⟩
    · exact g2
    · exact g1
    · exact (r.ring l' es' h3).congr fun x hx => hf x (hnotin l' es' h2 h3 x hx)
  · intro l1 es1 l2 es2 hd1 hd2 x hx1 hx2
    have hxe : ∀ x, x ∈ l :: (as ++ bs) → x ≠ e := by
      rintro x hx rfl
      have := g1.nodup
      have g := g.nodup
      simp only [List.nodup_cons, List.nodup_append, List.mem_cons, List.mem_append] at *
      grind
    have key : ∀ l', l' ≠ e → l' ≠ l → ∀ es', S l' = some es' → ∀ x, x ∈ l' :: es' →
        x ≠ e ∧ x ∉ l :: (as ++ bs) := by
      intro l' h1 h2 es' hS x hx
      have := hnotin l' es' h2 hS x hx
      refine ⟨?_, fun hm => this (hsub x hm)⟩
      rintro rfl; exact this (by simp)
    rcases cases' l1 es1 hd1 with ⟨rfl, rfl⟩ | ⟨rfl, rfl⟩ | ⟨h1, h2, h3⟩ <;>
      rcases cases' l2 es2 hd2 with ⟨rfl, rfl⟩ | ⟨rfl, rfl⟩ | ⟨k1, k2, k3⟩
    · rfl
    · simp only [List.mem_cons, List.not_mem_nil, or_false] at hx1
      exact absurd hx1 (hxe x hx2)
    · simp only [List.mem_cons, List.not_mem_nil, or_false] at hx1
      exact absurd hx1 (key _ k1 k2 _ k3 x hx2).1
    · simp only [List.mem_cons, List.not_mem_nil, or_false] at hx2
      exact absurd hx2 (hxe x hx1)
    · rfl
    · exact absurd hx1 (key _ k1 k2 _ k3 x hx2).2
    · simp only [List.mem_cons, List.not_mem_nil, or_false] at hx2
      exact absurd hx2 (key _ h1 h2 _ h3 x hx1).1
    · exact absurd hx2 (key _ h1 h2 _ h3 x hx1).2
    · exact r.disj l1 es1 l2 es2 h3 k3 x hx1 hx2

/-- Deleting an element of a ring. -/
theorem del_ring {h : Heap} {l e : Addr} {as bs : List Addr} (g : Ring h l (as ++ e :: bs)) :
    ∃ h', del h e = .ok h' ∧ Ring h' l (as ++ bs) ∧ Ring h' e [] ∧
      (∀ z, z ∉ l :: (as ++ e :: bs) → h' z = h z) := by
  have g' := g.rotate
  have hmem : ∀ z, z ∈ e :: (bs ++ l :: as) → z ∈ l :: (as ++ e :: bs) := by
    intro z hz; simp only [List.mem_cons, List.mem_append] at hz ⊢; grind
  cases bs with
  | nil =>
    obtain ⟨h', h1, h2, h3, h4⟩ := del_spec (x := l) (t := as) g'
    exact ⟨h', h1, by simpa using h2, h3, fun z hz => h4 z fun hm => hz (hmem z hm)⟩
  | cons x bs =>
    obtain ⟨h', h1, h2, h3, h4⟩ := del_spec (x := x) (t := bs ++ l :: as) g'
    exact ⟨h', h1, h2.rotate, h3, fun z hz => h4 z fun hm => hz (hmem z hm)⟩

theorem rep_del {h : Heap} {S : State} {e : Addr} (r : Rep h S) (hu : Used S e)
    (h2 : ∀ es, S e = some es → es = []) : ∃ h', del h e = .ok h' ∧ Rep h' (detach S e) := by
  rcases used_cases hu h2 with he | ⟨l, as, bs, hl⟩
  · exact ⟨h, del_self (r.ring e [] he), by rw [detach_self r he]; exact r⟩
  · obtain ⟨h', h1, g1, g2, hf⟩ := del_ring (r.ring l _ hl)
    exact ⟨h', h1, rep_detach r hl g1 g2 hf⟩

/-! ## Linking in -/

theorem rep_insert {h h' : Heap} {S : State} {l e : Addr} {es es' : List Addr} (r : Rep h S)
    (hl : S l = some es) (he : S e = some []) (hle : e ≠ l) (g : Ring h' l es')
    (hm : ∀ x, x ∈ es' ↔ x = e ∨ x ∈ es) (hf : ∀ z, z ∉ e :: l :: es → h' z = h z) :
    Rep h' (put (absorb S e) l es') := by
  have cases' : ∀ l' x', put (absorb S e) l es' l' = some x' →
      (l' = l ∧ x' = es') ∨ (l' ≠ l ∧ l' ≠ e ∧ S l' = some x') := by
    intro l' x' hd
    unfold put absorb at hd
    split at hd
    · next h1 => cases hd; exact Or.inl ⟨h1, rfl⟩
    · next h1 =>
      split at hd
      · cases hd
      · next h2 => exact Or.inr ⟨h1, h2, hd⟩
  have key : ∀ l' x', l' ≠ l → l' ≠ e → S l' = some x' → ∀ z ∈ l' :: x', z ∉ e :: l :: es := by
    intro l' x' h1 h2 hS z hz hz2
    rcases List.mem_cons.1 hz2 with rfl | hz2
    · exact h2 (r.disj l' x' z [] hS he z hz (by simp))
    · exact h1 (r.disj l' x' l es hS hl z hz hz2)
  have hmm : ∀ z, z ∈ l :: es' → z ∈ e :: l :: es := by
    intro z hz
    rcases List.mem_cons.1 hz with rfl | hz
    · simp
    · rcases (hm z).1 hz with rfl | h
      · simp
      · exact List.mem_cons_of_mem _ (List.mem_cons_of_mem _ h)
  constructor
  · intro l' x' hd
    rcases cases' l' x' hd with ⟨rfl, rfl⟩ | ⟨h1, h2, h3⟩
    · exact g
    · exact (r.ring l' x' h3).congr fun z hz => hf z (key l' x' h1 h2 h3 z hz)
  · intro l1 x1 l2 x2 hd1 hd2 z hz1 hz2
    rcases cases' l1 x1 hd1 with ⟨rfl, rfl⟩ | ⟨h1, h2, h3⟩ <;>
      rcases cases' l2 x2 hd2 with ⟨rfl, rfl⟩ | ⟨k1, k2, k3⟩
    · rfl
    · exact absurd (hmm z hz1) (key l2 x2 k1 k2 k3 z hz2)
    · exact absurd (hmm z hz2) (key l1 x1 h1 h2 h3 z hz1)
    · exact r.disj l1 x1 l2 x2 h3 k3 z hz1 hz2

theorem detach_e {S : State} {e : Addr} : detach S e e = some [] := by simp [detach]

theorem Rep.notMem {h : Heap} {S : State} {l e : Addr} {es : List Addr} (r : Rep h S)
    (hl : S l = some es) (he : S e = some []) (hle : e ≠ l) : e ∉ l :: es :=
  fun hm => hle (r.disj e [] l es he hl e (by simp) hm)

/-- `e` (detached) is linked in behind `p` of the list `l`. -/
theorem rep_splice_after {h h' : Heap} {S : State} {l e p n : Addr} {as bs : List Addr}
    (r : Rep h S) (hl : S l = some (as ++ p :: bs)) (he : S e = some []) (hle : e ≠ l)
    (hn : nextOf h p = some n) (s : Spliced h h' p n e) :
    Rep h' (put (absorb S e) l (as ++ p :: e :: bs)) := by
  have g := r.ring l _ hl
  have hnm := r.notMem hl he hle
  have gr := g.rotate
  have hnr : e ∉ p :: (bs ++ l :: as) := by
    intro hm; apply hnm
    simp only [List.mem_cons, List.mem_append] at hm ⊢; grind
  have gi := s.ring_after gr hn hnr
  have hnmem : n ∈ l :: (as ++ p :: bs) := by
    cases bs with
    | nil =>
      have := gr.seg.1.1; rw [hn] at this; cases this; simp
    | cons x bs =>
      have := gr.seg.1.1; rw [hn] at this; cases this; simp
  refine rep_insert r hl he hle (es' := as ++ p :: e :: bs) ?_ ?_ ?_
  · have : Ring h' p ((e :: bs) ++ l :: as) := gi
    exact this.rotate
  · intro x; simp only [List.mem_append, List.mem_cons]; grind
  · intro z hz
    refine s.frame z ?_ ?_ ?_
    · rintro rfl; exact hz (by simp)
    · rintro rfl; exact hz (by simp)
    · rintro rfl; exact hz (List.mem_cons_of_mem _ hnmem)

theorem rep_splice_before {h h' : Heap} {S : State} {l e p n : Addr} {as bs : List Addr}
    (r : Rep h S) (hl : S l = some (as ++ n :: bs)) (he : S e = some []) (hle : e ≠ l)
    (hp : prevOf h n = some p) (s : Spliced h h' p n e) :
    Rep h' (put (absorb S e) l (as ++ e :: n :: bs)) := by
  have g := r.ring l _ hl
  have hnm := r.notMem hl he hle
  have gr := g.rotate
  have hnr : e ∉ n :: (bs ++ l :: as) := by
    intro hm; apply hnm
    simp only [List.mem_cons, List.mem_append] at hm ⊢; grind
  have gi := s.ring_before gr hp hnr
  have hpmem : p ∈ l :: (as ++ n :: bs) := by
    have := gr.seg.prev_mem hp
    simp only [List.mem_cons, List.mem_append] at this ⊢; grind
  refine rep_insert r hl he hle (es' := as ++ e :: n :: bs) ?_ ?_ ?_
  · have : Ring h' n (bs ++ l :: (as ++ [e])) := by simpa using gi
    have := this.rotate
    simpa using this
  · intro x; simp only [List.mem_append, List.mem_cons]; grind
  · intro z hz
    refine s.frame z ?_ ?_ ?_
    · rintro rfl; exact hz (by simp)
    · rintro rfl; exact hz (List.mem_cons_of_mem _ hpmem)
    · rintro rfl; exact hz (by simp)

theorem rep_splice_head {h h' : Heap} {S : State} {l e n : Addr} {es : List Addr}
    (r : Rep h S) (hl : S l = some es) (he : S e = some []) (hle : e ≠ l)
    (hn : nextOf h l = some n) (s : Spliced h h' l n e) :
    Rep h' (put (absorb S e) l (e :: es)) := by
  have g := r.ring l _ hl
  have hnm := r.notMem hl he hle
  have gi := s.ring_after g hn hnm
  have hnmem : n ∈ l :: es := by
    cases es with
    | nil => have := g.self_next.1; rw [hn] at this; cases this; simp
    | cons x bs => have := g.seg.1.1; rw [hn] at this; cases this; simp
  refine rep_insert r hl he hle gi (by simp) ?_
  intro z hz
  refine s.frame z ?_ ?_ ?_
  · rintro rfl; exact hz (by simp)
  · rintro rfl; exact hz (by simp)
  · rintro rfl; exact hz (List.mem_cons_of_mem _ hnmem)

theorem rep_splice_tail {h h' : Heap} {S : State} {l e p : Addr} {es : List Addr}
    (r : Rep h S) (hl : S l = some es) (he : S e = some []) (hle : e ≠ l)
    (hp : prevOf h l = some p) (s : Spliced h h' p l e) :
    Rep h' (put (absorb S e) l (es ++ [e])) := by
  have g := r.ring l _ hl
  have hnm := r.notMem hl he hle
  have gi := s.ring_before g hp hnm
  have hpmem : p ∈ l :: es := g.seg.prev_mem hp
  refine rep_insert r hl he hle gi (by simp [or_comm]) ?_
  intro z hz
  refine s.frame z ?_ ?_ ?_
  · rintro rfl; exact hz (by simp)
  · rintro rfl; exact hz (List.mem_cons_of_mem _ hpmem)
  · rintro rfl; exact hz (by simp)

theorem Ring.some_of_mem {h : Heap} {r x : Addr} {l : List Addr} (g : Ring h r l)
    (hx : x ∈ r :: l) : (h x).isSome = true := by
  obtain ⟨n, hn⟩ := g.seg.mem_some x hx; simp [hn]

theorem Ring.next_mem {h : Heap} {r x n : Addr} {l : List Addr} (g : Ring h r l)
    (hx : x ∈ r :: l) (hn : nextOf h x = some n) : n ∈ r :: l := by
  rcases List.mem_cons.1 hx with rfl | hx
  · cases l with
    | nil => have := g.self_next.1; rw [hn] at this; cases this; simp
    | cons y l => have := g.seg.1.1; rw [hn] at this; cases this; simp
  · obtain ⟨as, bs, rfl⟩ := List.append_of_mem hx
    have := g.rotate
    cases bs with
    | nil => have := this.seg.1.1; rw [hn] at this; cases this; simp
    | cons y l => have := this.seg.1.1; rw [hn] at this; cases this; simp

theorem Ring.prev_mem {h : Heap} {r x n : Addr} {l : List Addr} (g : Ring h r l)
    (hx : x ∈ r :: l) (hn : prevOf h x = some n) : n ∈ r :: l := by
  rcases List.mem_cons.1 hx with rfl | hx
  · exact g.seg.prev_mem hn
  · obtain ⟨as, bs, rfl⟩ := List.append_of_mem hx
    have := g.rotate.seg.prev_mem hn
    simp only [List.mem_cons, List.mem_append] at this ⊢; grind

theorem exists_next {h : Heap} {x : Addr} (hs : (h x).isSome = true) : ∃ n, nextOf h x = some n := by
  unfold nextOf; cases hx : h x with
  | none => rw [hx] at hs; cases hs
  | some n => exact ⟨_, rfl⟩

theorem exists_prev {h : Heap} {x : Addr} (hs : (h x).isSome = true) : ∃ n, prevOf h x = some n := by
  unfold prevOf; cases hx : h x with
  | none => rw [hx] at hs; cases hs
  | some n => exact ⟨_, rfl⟩

end Verif.LList
