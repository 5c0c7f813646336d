import Verif.Race.Spec

/-! # Places guarded by mutexes are free of data races -/

namespace Verif.Race

variable {L X E : Type}

theorem keep {α : Type} {tr es : List α} {i : Nat} {x : α} (h : tr[i]? = some x) : (tr ++ es)[i]? = some x := by
  have := (List.getElem?_eq_some_iff.1 h).1
  rw [List.getElem?_append_left this]; exact h

theorem last {α : Type} (tr : List α) (x : α) : (tr ++ [x])[tr.length]? = some x := by simp

theorem lt_of_some {α : Type} {tr : List α} {i : Nat} {x : α} (h : tr[i]? = some x) : i < tr.length :=
  (List.getElem?_eq_some_iff.1 h).1

/-- An element of a list with one more at the end. -/
theorem snoc {α : Type} {tr : List α} {i : Nat} {x y : α} (h : (tr ++ [y])[i]? = some x) :
    tr[i]? = some x ∨ (i = tr.length ∧ x = y) := by
  rw [List.getElem?_append] at h
  split at h
  · exact .inl h
  · rename_i hi
    have : i - tr.length < 1 := by simpa using lt_of_some h
    have e : i = tr.length := by omega
    subst e
    simp at h
    exact .inr ⟨rfl, h.symm⟩

theorem HB.keep {tr : Trace L X E} {i j : Nat} (h : HB tr i j) (es : Trace L X E) : HB (tr ++ es) i j := by
  induction h with
  | thread h a b => exact .thread h (Race.keep a) (Race.keep b)
  | mutex h a b => exact .mutex h (Race.keep a) (Race.keep b)
  | trans _ _ a b => exact .trans a b

theorem HB.lt {tr : Trace L X E} {i j : Nat} (h : HB tr i j) : i < j := by
  induction h with
  | thread h _ _ => exact h
  | mutex h _ _ => exact h
  | trans _ _ a b => omega

/-- The last thing a thread does happens before nothing else, unless it is an unlock. -/
theorem no_hb_of_last {tr : Trace L X E} {i t : Nat} {a : Act L X E} (hi : At tr i t a)
    (hl : ∀ j b, i < j → ¬ At tr j t b) (hr : ∀ l, a ≠ .rel l) (j : Nat) : ¬ HB tr i j := by
  intro h
  induction h with
  | thread h h1 h2 =>
    cases Option.some.inj (hi.symm.trans h1)
    exact hl _ _ h h2
  | mutex h h1 h2 =>
    cases Option.some.inj (hi.symm.trans h1)
    exact hr _ rfl
  | trans _ _ ih _ => exact ih hi hl

/-- Something has happened before all that the holder of the mutex has still to do, or before the
next lock. -/
def Seen (l : L) (tr : Trace L X E) (o : Option Nat) (i : Nat) : Prop :=
  match o with
  | some u => ∃ k b, tr[k]? = some (u, b) ∧ (k = i ∨ HB tr i k)
  | none => ∃ r u, tr[r]? = some (u, .rel l) ∧ (r = i ∨ HB tr i r)

theorem Seen.keep {l : L} {tr : Trace L X E} {o : Option Nat} {i : Nat} (h : Seen l tr o i) (es : Trace L X E) :
    Seen l (tr ++ es) o i := by
  cases o with
  | some u => obtain ⟨k, b, a, c⟩ := h; exact ⟨k, b, Race.keep a, c.imp id (·.keep es)⟩
  | none => obtain ⟨k, b, a, c⟩ := h; exact ⟨k, b, Race.keep a, c.imp id (·.keep es)⟩

theorem Seen.next {l : L} {tr : Trace L X E} {t i : Nat} (h : Seen l tr (some t) i) (b : Act L X E) :
    HB (tr ++ [(t, b)]) i tr.length := by
  obtain ⟨k, c, hk, e⟩ := h
  have : HB (tr ++ [(t, b)]) k tr.length := .thread (lt_of_some hk) (Race.keep hk) (last _ _)
  rcases e with rfl | e
  · exact this
  · exact .trans (e.keep _) this

theorem seen_of_touch {g : X → L} {tr : Trace L X E} {o : L → Option Nat} (h : Guarded g tr o) {i t : Nat}
    {a : Act L X E} {x : X} (hi : tr[i]? = some (t, a)) (ha : a.touches x) : Seen (g x) tr (o (g x)) i := by
  induction h with
  | nil => simp at hi
  | @acq tr o o' u l _ h1 h2 h3 ih =>
    rcases snoc hi with hi | ⟨rfl, e⟩
    · have s := ih hi
      by_cases e : g x = l
      · subst e
        rw [h1] at s
        rw [h2]
        obtain ⟨r, v, hr, e⟩ := s
        have hh : HB (tr ++ [(u, .acq (g x))]) r tr.length := .mutex (lt_of_some hr) (keep hr) (last _ _)
        exact ⟨tr.length, _, last _ _, .inr (e.elim (fun e => e ▸ hh) fun e => .trans (e.keep _) hh)⟩
      · rw [h3 _ e]; exact s.keep _
    · cases e; exact absurd ha id
  | @rel tr o o' u l _ h1 h2 h3 ih =>
    rcases snoc hi with hi | ⟨rfl, e⟩
    · have s := ih hi
      by_cases e : g x = l
      · subst e
        rw [h1] at s
        rw [h2]
        exact ⟨tr.length, _, last _ _, .inr (s.next _)⟩
      · rw [h3 _ e]; exact s.keep _
    · cases e; exact absurd ha id
  | @rd tr o u y _ h1 ih =>
    rcases snoc hi with hi | ⟨rfl, e⟩
    · exact (ih hi).keep _
    · cases e
      have ha : y = x := ha
      subst ha
      rw [h1]; exact ⟨_, _, last _ _, .inl rfl⟩
  | @wr tr o u y _ h1 ih =>
    rcases snoc hi with hi | ⟨rfl, e⟩
    · exact (ih hi).keep _
    · cases e
      have ha : y = x := ha
      subst ha
      rw [h1]; exact ⟨_, _, last _ _, .inl rfl⟩
  | ev u e _ ih =>
    rcases snoc hi with hi | ⟨rfl, e⟩
    · exact (ih hi).keep _
    · cases e; exact absurd ha id

/-- Of two accesses to a place the first happens before the second. -/
theorem ordered {g : X → L} {tr : Trace L X E} {o : L → Option Nat} (h : Guarded g tr o) {i j t u : Nat}
    {a b : Act L X E} {x : X} (hij : i < j) (hi : tr[i]? = some (t, a)) (hj : tr[j]? = some (u, b))
    (ha : a.touches x) (hb : b.touches x) : HB tr i j := by
  induction h with
  | nil => simp at hi
  | acq v l _ h1 h2 h3 ih =>
    rcases snoc hj with hj | ⟨rfl, e⟩
    · rcases snoc hi with hi | ⟨rfl, -⟩
      · exact (ih hi hj).keep _
      · have := lt_of_some hj; omega
    · cases e; exact absurd hb id
  | rel v l _ h1 h2 h3 ih =>
    rcases snoc hj with hj | ⟨rfl, e⟩
    · rcases snoc hi with hi | ⟨rfl, -⟩
      · exact (ih hi hj).keep _
      · have := lt_of_some hj; omega
    · cases e; exact absurd hb id
  | @rd tr o v y hg h1 ih =>
    rcases snoc hi with hi' | ⟨rfl, -⟩
    · rcases snoc hj with hj | ⟨rfl, e⟩
      · exact (ih hi' hj).keep _
      · cases e
        have hb : y = x := hb
        subst hb
        have s := seen_of_touch hg hi' ha
        rw [h1] at s
        exact s.next _
    · have := lt_of_some hj; simp at this; omega
  | @wr tr o v y hg h1 ih =>
    rcases snoc hi with hi' | ⟨rfl, -⟩
    · rcases snoc hj with hj | ⟨rfl, e⟩
      · exact (ih hi' hj).keep _
      · cases e
        have hb : y = x := hb
        subst hb
        have s := seen_of_touch hg hi' ha
        rw [h1] at s
        exact s.next _
    · have := lt_of_some hj; simp at this; omega
  | ev v e _ ih =>
    rcases snoc hj with hj | ⟨rfl, e⟩
    · rcases snoc hi with hi | ⟨rfl, -⟩
      · exact (ih hi hj).keep _
      · have := lt_of_some hj; omega
    · cases e; exact absurd hb id

/-- Guarded places are free of data races. -/
theorem Guarded.not_racy {g : X → L} {tr : Trace L X E} {o : L → Option Nat} (h : Guarded g tr o) : ¬ Racy tr := by
  rintro ⟨i, j, t, u, a, b, x, hi, hj, ne, ha, hb, -, n1, n2⟩
  rcases Nat.lt_trichotomy i j with c | c | c
  · exact n1 (ordered h c hi hj ha hb)
  · subst c; cases Option.some.inj (hi.symm.trans hj); exact ne rfl
  · exact n2 (ordered h c hj hi hb ha)

/-! ## Places that are passed on -/

/-- Something has happened before all that the owner has still to do. -/
def Known (tr : Trace L X E) (o : Owner L) (i : Nat) : Prop :=
  match o with
  | .thread u => ∃ k b, At tr k u b ∧ (k = i ∨ HB tr i k)
  | .left l => ∃ r u, At tr r u (.rel l) ∧ (r = i ∨ HB tr i r)

theorem Known.keep {tr : Trace L X E} {o : Owner L} {i : Nat} (h : Known tr o i) (es : Trace L X E) :
    Known (tr ++ es) o i := by
  cases o with
  | thread u => obtain ⟨k, b, a, c⟩ := h; exact ⟨k, b, Race.keep a, c.imp id (·.keep es)⟩
  | left l => obtain ⟨k, b, a, c⟩ := h; exact ⟨k, b, Race.keep a, c.imp id (·.keep es)⟩

theorem Known.next {tr : Trace L X E} {t i : Nat} (h : Known tr (.thread t) i) (b : Act L X E) :
    HB (tr ++ [(t, b)]) i tr.length := by
  obtain ⟨k, c, hk, e⟩ := h
  have : HB (tr ++ [(t, b)]) k tr.length := .thread (lt_of_some hk) (Race.keep hk) (last _ _)
  rcases e with rfl | e
  · exact this
  · exact .trans (e.keep _) this

variable {K : Type}

theorem known_of_touch {g : X → K} {tr : Trace L X E} {o : K → Owner L} (h : Passed g tr o) {i t : Nat}
    {a : Act L X E} {x : X} (hi : At tr i t a) (ha : a.touches x) : Known tr (o (g x)) i := by
  induction h with
  | nil => simp [At] at hi
  | @acq tr o o' u l _ h1 ih =>
    rcases snoc hi with hi | ⟨rfl, e⟩
    · have s := ih hi
      rcases h1 (g x) with h1 | ⟨h1, h2⟩
      · rw [h1]; exact s.keep _
      · rw [h1] at s
        rw [h2]
        obtain ⟨r, v, hr, e⟩ := s
        have hh : HB (tr ++ [(u, .acq l)]) r tr.length := .mutex (lt_of_some hr) (keep hr) (last _ _)
        exact ⟨tr.length, _, last _ _, .inr (e.elim (fun e => e ▸ hh) fun e => .trans (e.keep _) hh)⟩
    · cases e; exact absurd ha id
  | @rel tr o o' u l _ h1 ih =>
    rcases snoc hi with hi | ⟨rfl, e⟩
    · have s := ih hi
      rcases h1 (g x) with h1 | ⟨h1, h2⟩
      · rw [h1]; exact s.keep _
      · rw [h1] at s
        rw [h2]
        exact ⟨tr.length, _, last _ _, .inr (s.next _)⟩
    · cases e; exact absurd ha id
  | @rd tr o u y _ h1 ih =>
    rcases snoc hi with hi | ⟨rfl, e⟩
    · exact (ih hi).keep _
    · cases e
      have ha : y = x := ha
      subst ha
      rw [h1]; exact ⟨_, _, last _ _, .inl rfl⟩
  | @wr tr o u y _ h1 ih =>
    rcases snoc hi with hi | ⟨rfl, e⟩
    · exact (ih hi).keep _
    · cases e
      have ha : y = x := ha
      subst ha
      rw [h1]; exact ⟨_, _, last _ _, .inl rfl⟩
  | ev u e _ ih =>
    rcases snoc hi with hi | ⟨rfl, e⟩
    · exact (ih hi).keep _
    · cases e; exact absurd ha id

/-- Of two accesses to a place the first happens before the second. -/
theorem Passed.ordered {g : X → K} {tr : Trace L X E} {o : K → Owner L} (h : Passed g tr o) {i j t u : Nat}
    {a b : Act L X E} {x : X} (hij : i < j) (hi : At tr i t a) (hj : At tr j u b)
    (ha : a.touches x) (hb : b.touches x) : HB tr i j := by
  have old : ∀ {tr : Trace L X E} {y : Nat × Act L X E}, (∀ {i j}, i < j → At tr i t a → At tr j u b → HB tr i j) →
      ∀ {i j}, i < j → At (tr ++ [y]) i t a → At tr j u b → HB (tr ++ [y]) i j := by
    intro tr y ih i j hij hi hj
    rcases snoc hi with hi | ⟨rfl, -⟩
    · exact (ih hij hi hj).keep _
    · have := lt_of_some hj; omega
  have new : ∀ {tr : Trace L X E} {o : K → Owner L} {v : Nat} {c : Act L X E}, Passed g tr o → o (g x) = .thread v →
      ∀ {i}, i < tr.length → At (tr ++ [(v, c)]) i t a → HB (tr ++ [(v, c)]) i tr.length := by
    intro tr o v c hp ho i hlt hi
    rcases snoc hi with hi | ⟨rfl, -⟩
    · have s := known_of_touch hp hi ha
      rw [ho] at s
      exact s.next _
    · omega
  induction h generalizing i j with
  | nil => simp [At] at hi
  | acq v l _ h1 ih =>
    rcases snoc hj with hj | ⟨rfl, e⟩
    · exact old (fun a b c => ih a b c) hij hi hj
    · cases e; exact absurd hb id
  | rel v l _ h1 ih =>
    rcases snoc hj with hj | ⟨rfl, e⟩
    · exact old (fun a b c => ih a b c) hij hi hj
    · cases e; exact absurd hb id
  | @rd tr o v y hp h1 ih =>
    rcases snoc hj with hj | ⟨rfl, e⟩
    · exact old (fun a b c => ih a b c) hij hi hj
    · cases e
      have hb : y = x := hb
      subst hb
      exact new hp h1 hij hi
  | @wr tr o v y hp h1 ih =>
    rcases snoc hj with hj | ⟨rfl, e⟩
    · exact old (fun a b c => ih a b c) hij hi hj
    · cases e
      have hb : y = x := hb
      subst hb
      exact new hp h1 hij hi
  | ev v e _ ih =>
    rcases snoc hj with hj | ⟨rfl, e⟩
    · exact old (fun a b c => ih a b c) hij hi hj
    · cases e; exact absurd hb id

/-- Places that are passed on are free of data races. -/
theorem Passed.not_racy {g : X → K} {tr : Trace L X E} {o : K → Owner L} (h : Passed g tr o) : ¬ Racy tr := by
  rintro ⟨i, j, t, u, a, b, x, hi, hj, ne, ha, hb, -, n1, n2⟩
  rcases Nat.lt_trichotomy i j with c | c | c
  · exact n1 (h.ordered c hi hj ha hb)
  · subst c; cases Option.some.inj (hi.symm.trans hj); exact ne rfl
  · exact n2 (h.ordered c hj hi hb ha)

end Verif.Race
