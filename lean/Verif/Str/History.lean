import Verif.Str.Props

/-!
# C131: a program of string calls computes with texts

A program has any number of `char *` variables, all NULL at first, and calls the functions of
`sc_str` on them in any order, with C strings or with other variables as arguments; every
allocation may fail. `Spec` says, in terms of texts only, what each call is supposed to do.
-/

namespace Verif.Str

/-- What a program passes as a C string: the block of a literal, or a variable. -/
inductive Arg where
  | text (block : List UInt8)
  | var (w : Nat)
  deriving Repr, DecidableEq

/-- A call; `v` is the variable whose address is passed. A format is given by the text it
yields. `dup v w` is `v = sc_str_dup(w)`. -/
inductive Op where
  | set (v : Nat) (a : Arg)
  | append (v : Nat) (a : Arg)
  | setFmt (v : Nat) (t : List UInt8)
  | appendFmt (v : Nat) (t : List UInt8)
  | trim (v : Nat) (a : Arg)
  | substring (v start end_ : Nat)
  | replace (v : Nat) (a b : Arg)
  | dup (v w : Nat)
  | destroy (v : Nat)
  | len (v : Nat)
  | cmp (v w : Nat)

/-- What a call returns; `hangs`: it does not return. -/
inductive Out where
  | unit
  | bool (b : Bool)
  | int (i : Int)
  | hangs
  deriving Repr, DecidableEq

/-- A call with what its allocation gives and what its local array holds at first. -/
structure Ev where
  op : Op
  al : Alloc UInt8
  tmp : Nat → UInt8 := fun _ => 0

/-- The values of the variables of a program, `f[v := x]`. -/
def upd {α : Type} (f : Nat → α) (v : Nat) (x : α) : Nat → α := fun i => if i = v then x else f i

/-! ## The program -/

/-- The block a C string argument points to; NULL is `none`. -/
def Arg.block (vars : Nat → Option S) : Arg → Option (List UInt8)
  | .text b => some b
  | .var w => (vars w).map S.buf

/-- Does a call of `sc_str_set`, …, `sc_str_cmp`, string/sc_str.c:145-431 and
string/sc_str.h:134-136, on the variables of a program. A NULL list is undefined for
`sc_str_trim`, a NULL string for `sc_str_cmp`. The first loop of `sc_str_replace` is given
`fuel` rounds. -/
def step (fuel : Nat) (vars : Nat → Option S) (e : Ev) : Res ((Nat → Option S) × Out) :=
  match e.op with
  | .set v a => do
    let (ok, s) ← set e.al (vars v) (a.block vars)
    .ok (upd vars v s, .bool ok)
  | .append v a => do
    let (ok, s) ← append e.al (vars v) (a.block vars)
    .ok (upd vars v s, .bool ok)
  | .setFmt v t => do
    let (ok, s) ← setFmt e.al e.tmp (vars v) (if t.length ≤ INT_MAX then some t else none)
    .ok (upd vars v s, .bool ok)
  | .appendFmt v t => do
    let (ok, s) ← appendFmt e.al e.tmp (vars v) (if t.length ≤ INT_MAX then some t else none)
    .ok (upd vars v s, .bool ok)
  | .trim v a =>
    match a.block vars with
    | none => .ub
    | some l => do
      let (ok, s) ← trim e.al (vars v) l
      .ok (upd vars v s, .bool ok)
  | .substring v st en => do
    let (ok, s) ← substring e.al (vars v) st en
    .ok (upd vars v s, .bool ok)
  | .replace v a b => do
    match ← replace e.al fuel (vars v) (a.block vars) (b.block vars) with
    | none => .ok (vars, .hangs)
    | some (ok, s) => .ok (upd vars v s, .bool ok)
  | .dup v w => do
    let s ← dup e.al (vars w)
    .ok (upd vars v s, .bool s.isSome)
  | .destroy v => .ok (upd vars v (destroy (vars v)), .unit)
  | .len v => .ok (vars, .int (len (vars v)))
  | .cmp v w =>
    match vars v, vars w with
    | some a, some b => do
      let r ← cmp a b
      .ok (vars, .bool r)
    | _, _ => .ub

/-- Runs a program: what the calls return, and the variables at the end. -/
def run (fuel : Nat) : (Nat → Option S) → List Ev → Res ((Nat → Option S) × List Out)
  | vars, [] => .ok (vars, [])
  | vars, e :: es => do
    let (vars, o) ← step fuel vars e
    let (vars, os) ← run fuel vars es
    .ok (vars, o :: os)

/-! ## What it is supposed to do -/

end Verif.Str

namespace Verif.Str.Spec

/-- The text of an argument, where the variables have the texts `V`. -/
def Txt (V : Nat → Option (List UInt8)) (t : List UInt8) : Arg → Prop
  | .text b => CStr b 0 t
  | .var w => V w = some t

/-- The variable a call may change. -/
def target : Op → Nat
  | .set v _ | .append v _ | .setFmt v _ | .appendFmt v _ | .trim v _ | .substring v _ _
  | .replace v _ _ | .dup v _ | .destroy v | .len v | .cmp v _ => v

/-- The longest text a call may make. -/
def limit : Op → Nat
  | .setFmt .. | .appendFmt .. => INT_MAX
  | _ => STR_MAX

/-- The call is to give its variable the text `x` (or leave it NULL). -/
def Goal (V : Nat → Option (List UInt8)) (x : Option (List UInt8)) : Op → Prop
  | .set _ a => ∃ t, Txt V t a ∧ x = some t
  | .append v a => ∃ t, Txt V t a ∧ x = some ((V v).getD [] ++ t)
  | .setFmt _ t => x = some t
  | .appendFmt v t => x = some ((V v).getD [] ++ t)
  | .trim v a =>
    match V v with
    | none => x = none
    | some c => ∃ l t, Txt V l a ∧ Trimmed l c t ∧ x = some t
  | .substring v st en =>
    ∃ c, V v = some c ∧ st ≤ en ∧ en ≤ c.length ∧ x = some ((c.take en).drop st)
  | .replace v a b =>
    match V v with
    | none => x = none
    | some c => ∃ r w t, Txt V r a ∧ Txt V w b ∧ Subst r w c t ∧ x = some t
  | .dup _ w => ∃ t, V w = some t ∧ x = some t
  | .destroy _ | .len _ | .cmp _ _ => False

/-- What a call does to texts, with or without memory. It may return false only if there is no
memory, if it has no goal (a range outside of the text, a copy of NULL) or if the text to be
made is too long; then nothing changes. -/
inductive Step (V : Nat → Option (List UInt8)) (mem : Prop) :
    Op → Out → (Nat → Option (List UInt8)) → Prop where
  | done {op : Op} {x : Option (List UInt8)} : Goal V x op →
      (∀ t, x = some t → t.length ≤ limit op) → Step V mem op (.bool true) (upd V (target op) x)
  | fail {op : Op} : (¬ mem ∨ ∀ x, Goal V x op → ∃ t, x = some t ∧ limit op < t.length) →
      (∀ v, op ≠ .destroy v) → (∀ v, op ≠ .len v) → (∀ v w, op ≠ .cmp v w) →
      Step V mem op (.bool false) V
  | destroy {v : Nat} : Step V mem (.destroy v) .unit (upd V v none)
  | len {v : Nat} : Step V mem (.len v)
      (.int (match V v with | none => -1 | some t => (t.length : Int))) V
  | cmp {v w : Nat} {a b : List UInt8} : V v = some a → V w = some b →
      Step V mem (.cmp v w) (.bool (decide (a = b))) V

/-- A program of such calls. -/
inductive Run : (Nat → Option (List UInt8)) → List Ev → List Out →
    (Nat → Option (List UInt8)) → Prop where
  | nil {V : Nat → Option (List UInt8)} : Run V [] [] V
  | cons {V V' V'' : Nat → Option (List UInt8)} {e : Ev} {es : List Ev} {o : Out}
      {os : List Out} : Step V (e.al ≠ none) e.op o V' → Run V' es os V'' →
      Run V (e :: es) (o :: os) V''

/-- What a program must respect: arguments are not NULL; the string that is appended to or
searched is not an argument too; formats make no NUL; what is searched for is not empty and not
longer than 4 GiB; only NULL variables are overwritten by a copy. -/
def Allowed (V : Nat → Option (List UInt8)) : Op → Prop
  | .set _ a => ∃ t, Txt V t a
  | .append v a => a ≠ .var v ∧ ∃ t, Txt V t a ∧ t.length < W64
  | .setFmt _ t => ∀ b ∈ t, b ≠ 0
  | .appendFmt _ t => ∀ b ∈ t, b ≠ 0
  | .trim _ a => ∃ t, Txt V t a
  | .substring .. => True
  | .replace v a b => a ≠ .var v ∧ b ≠ .var v ∧ ∃ r w, Txt V r a ∧ Txt V w b ∧ r ≠ [] ∧
      r.length < W32 - 1 ∧ w.length < W32 - 1
  | .dup v _ => V v = none
  | .destroy _ | .len _ => True
  | .cmp v w => V v ≠ none ∧ V w ≠ none

/-- A program that respects it, whatever its calls return. -/
def Keeps : (Nat → Option (List UInt8)) → List Ev → Prop
  | _, [] => True
  | V, e :: es => Allowed V e.op ∧ ∀ o V', Step V (e.al ≠ none) e.op o V' → Keeps V' es

end Verif.Str.Spec

namespace Verif.Str

/-- A variable has a text: NULL has none, an object holds it, without NUL. -/
inductive Has : Option S → Option (List UInt8) → Prop where
  | null : Has none none
  | obj {s : S} {c : List UInt8} : Holds s c → (∀ b ∈ c, b ≠ 0) → c.length ≤ STR_MAX →
      Has (some s) (some c)

/-! ## Proof -/

theorem Has.cstr {s : S} {c : List UInt8} (h : Has (some s) (some c)) : CStr s.buf 0 c := by
  cases h with
  | obj h1 h2 _ =>
    have := holds_cstr h1
    rwa [ctext_eq_self h2] at this

theorem upd_same {α : Type} {f : Nat → α} {v : Nat} {x : α} (h : f v = x) : upd f v x = f := by
  funext i
  unfold upd
  by_cases hi : i = v
  · rw [if_pos hi, hi, h]
  · rw [if_neg hi]

theorem has_upd {vars : Nat → Option S} {V : Nat → Option (List UInt8)}
    (h : ∀ v, Has (vars v) (V v)) {v : Nat} {s : Option S} {x : Option (List UInt8)}
    (hs : Has s x) : ∀ i, Has (upd vars v s i) (upd V v x i) := by
  intro i
  unfold upd
  by_cases hi : i = v
  · rw [if_pos hi, if_pos hi]; exact hs
  · rw [if_neg hi, if_neg hi]; exact h i

/-- The block of an argument is a C string with its text, without NUL. -/
theorem block_of {vars : Nat → Option S} {V : Nat → Option (List UInt8)}
    (h : ∀ v, Has (vars v) (V v)) {a : Arg} {t : List UInt8} (ht : Spec.Txt V t a) :
    ∃ b, a.block vars = some b ∧ CStr b 0 t := by
  cases a with
  | text b => exact ⟨b, rfl, ht⟩
  | var w =>
    have hw := h w
    have ht : V w = some t := ht
    rw [ht] at hw
    show ∃ b, (vars w).map S.buf = some b ∧ _
    generalize vars w = x at hw
    cases hw with
    | obj h1 h2 h3 => exact ⟨_, rfl, (Has.obj h1 h2 h3).cstr⟩

theorem txt_unique {V : Nat → Option (List UInt8)} {a : Arg} {t t' : List UInt8}
    (h : Spec.Txt V t a) (h' : Spec.Txt V t' a) : t = t' := by
  cases a with
  | text b =>
    have h1 := cstr_eq (show CStr b 0 t from h)
    rw [cstr_eq (show CStr b 0 t' from h')] at h1
    cases h1; rfl
  | var w =>
    have h : V w = some t := h
    rw [show V w = some t' from h'] at h
    cases h; rfl

/-- There is at most one goal. -/
theorem goal_unique {V : Nat → Option (List UInt8)} {op : Op} {x x' : Option (List UInt8)}
    (h : Spec.Goal V x op) (h' : Spec.Goal V x' op) : x = x' := by
  cases op with
  | set v a =>
    obtain ⟨t, h1, rfl⟩ := h; obtain ⟨t', h2, rfl⟩ := h'
    rw [txt_unique h1 h2]
  | append v a =>
    obtain ⟨t, h1, rfl⟩ := h; obtain ⟨t', h2, rfl⟩ := h'
    rw [txt_unique h1 h2]
  | setFmt v t => exact Eq.trans h (Eq.symm h')
  | appendFmt v t => exact Eq.trans h (Eq.symm h')
  | trim v a =>
    simp only [Spec.Goal] at h h'
    cases hv : V v with
    | none => rw [hv] at h h'; exact Eq.trans h (Eq.symm h')
    | some c =>
      rw [hv] at h h'
      obtain ⟨l, t, h1, h2, rfl⟩ := h; obtain ⟨l', t', h3, h4, rfl⟩ := h'
      rw [txt_unique h1 h3] at h2
      rw [trimmed_unique h2 h4]
  | substring v a b =>
    obtain ⟨c, h1, _, _, rfl⟩ := h; obtain ⟨c', h2, _, _, rfl⟩ := h'
    rw [h1] at h2; cases h2; rfl
  | replace v a b =>
    simp only [Spec.Goal] at h h'
    cases hv : V v with
    | none => rw [hv] at h h'; exact Eq.trans h (Eq.symm h')
    | some c =>
      rw [hv] at h h'
      obtain ⟨r, w, t, h1, h2, h3, rfl⟩ := h; obtain ⟨r', w', t', h4, h5, h6, rfl⟩ := h'
      rw [txt_unique h1 h4, txt_unique h2 h5] at h3
      rw [subst_unique h3 h6]
  | dup v w =>
    obtain ⟨t, h1, rfl⟩ := h; obtain ⟨t', h2, rfl⟩ := h'
    rw [h1] at h2; exact h2
  | destroy v => exact h.elim
  | len v => exact h.elim
  | cmp v w => exact h.elim

/-- What a call is supposed to do is determined. -/
theorem Spec.Step.det {V V1 V2 : Nat → Option (List UInt8)} {mem : Prop} {op : Op} {o1 o2 : Out}
    (h1 : Spec.Step V mem op o1 V1) (h2 : Spec.Step V mem op o2 V2) (hm : mem) :
    o1 = o2 ∧ V1 = V2 := by
  cases h1 with
  | done g l =>
    cases h2 with
    | done g' l' => rw [goal_unique g g']; exact ⟨rfl, rfl⟩
    | fail hf _ _ _ =>
      rcases hf with hf | hf
      · exact absurd hm hf
      · obtain ⟨t, rfl, hl⟩ := hf _ g
        exact absurd (l t rfl) (by omega)
    | destroy => exact g.elim
    | len => exact g.elim
    | cmp => exact g.elim
  | fail hf n1 n2 n3 =>
    cases h2 with
    | done g l =>
      rcases hf with hf | hf
      · exact absurd hm hf
      · obtain ⟨t, rfl, hl⟩ := hf _ g
        exact absurd (l t rfl) (by omega)
    | fail => exact ⟨rfl, rfl⟩
    | destroy => exact absurd rfl (n1 _)
    | len => exact absurd rfl (n2 _)
    | cmp => exact absurd rfl (n3 _ _)
  | destroy =>
    cases h2 with
    | done g => exact g.elim
    | fail _ n => exact absurd rfl (n _)
    | destroy => exact ⟨rfl, rfl⟩
  | len =>
    cases h2 with
    | done g => exact g.elim
    | fail _ _ n => exact absurd rfl (n _)
    | len => exact ⟨rfl, rfl⟩
  | cmp e1 e2 =>
    cases h2 with
    | done g => exact g.elim
    | fail _ _ _ n => exact absurd rfl (n _ _)
    | cmp e3 e4 => rw [e1] at e3; rw [e2] at e4; cases e3; cases e4; exact ⟨rfl, rfl⟩

theorem subst_nonzero {r w s t : List UInt8} (h : Subst r w s t) (hs : ∀ b ∈ s, b ≠ 0)
    (hw : ∀ b ∈ w, b ≠ 0) : ∀ b ∈ t, b ≠ 0 := by
  induction h with
  | none => exact hs
  | first _ _ ih =>
    intro b hb
    simp only [List.mem_append] at hb
    rcases hb with (hb | hb) | hb
    · exact hs b (by simp [hb])
    · exact hw b hb
    · exact ih (fun b hb => hs b (by simp [hb])) b hb

/-- One call does what it is supposed to. -/
theorem step_spec {fuel : Nat} (hf : W32 ≤ fuel) {vars : Nat → Option S}
    {V : Nat → Option (List UInt8)} (h : ∀ v, Has (vars v) (V v)) {e : Ev}
    (ha : Spec.Allowed V e.op) :
    ∃ vars' o V', step fuel vars e = .ok (vars', o) ∧ Spec.Step V (e.al ≠ none) e.op o V' ∧
      ∀ v, Has (vars' v) (V' v) := by
  obtain ⟨op, al, tmp⟩ := e
  -- a call that fails
  have hfail : ∀ {op : Op}, (∀ v, op ≠ .destroy v) → (∀ v, op ≠ .len v) →
      (∀ v w, op ≠ .cmp v w) →
      step fuel vars ⟨op, al, tmp⟩ = .ok (vars, .bool false) →
      (¬ al ≠ none ∨ ∀ x, Spec.Goal V x op → ∃ t, x = some t ∧ Spec.limit op < t.length) →
      ∃ vars' o V', step fuel vars ⟨op, al, tmp⟩ = .ok (vars', o) ∧
        Spec.Step V (al ≠ none) op o V' ∧ ∀ v, Has (vars' v) (V' v) :=
    fun n1 n2 n3 hs hr => ⟨vars, _, V, hs, .fail hr n1 n2 n3, h⟩
  -- a call that succeeds
  have hdone : ∀ {op : Op} {s : Option S} {x : Option (List UInt8)},
      step fuel vars ⟨op, al, tmp⟩ = .ok (upd vars (Spec.target op) s, .bool true) →
      Spec.Goal V x op → Has s x → (∀ t, x = some t → t.length ≤ Spec.limit op) →
      ∃ vars' o V', step fuel vars ⟨op, al, tmp⟩ = .ok (vars', o) ∧
        Spec.Step V (al ≠ none) op o V' ∧ ∀ v, Has (vars' v) (V' v) :=
    fun hs hg hh hl => ⟨_, _, _, hs, .done hg hl, has_upd h hh⟩
  cases op with
  | set v a =>
    obtain ⟨t, ht⟩ := ha
    obtain ⟨b, hb, hc⟩ := block_of h ht
    obtain ⟨h1, h2⟩ := str_set al (vars v) hc
    by_cases hr : al = none ∨ t.length > STR_MAX
    · refine hfail (fun _ => by simp) (fun _ => by simp) (fun _ _ => by simp) ?_ ?_
      · simp only [step, hb, h2 hr, Res.ok_bind, upd_same]
      · rcases hr with hr | hr
        · exact Or.inl (fun hn => hn hr)
        · refine Or.inr ?_
          rintro x ⟨t', ht', rfl⟩
          rw [txt_unique ht' ht]
          exact ⟨t, rfl, hr⟩
    · have hal : al ≠ none := fun hn => hr (Or.inl hn)
      have hle : t.length ≤ STR_MAX := by omega
      obtain ⟨s, e, hs⟩ := h1 hal hle
      refine hdone (s := some s) (x := some t) ?_ ⟨t, ht, rfl⟩ (.obj hs hc.nonzero hle) ?_
      · simp only [step, hb, e, Res.ok_bind, Spec.target]
      · rintro _ ⟨rfl⟩; exact hle
  | append v a =>
    obtain ⟨-, t, ht, hm⟩ := ha
    obtain ⟨b, hb, hc⟩ := block_of h ht
    have hv := h v
    obtain ⟨h1, h2⟩ : (al ≠ none → ((V v).getD [] ++ t).length ≤ STR_MAX →
          ∃ s', append al (vars v) (some b) = .ok (true, some s') ∧ Holds s' ((V v).getD [] ++ t)) ∧
        (al = none ∨ ((V v).getD [] ++ t).length > STR_MAX →
          append al (vars v) (some b) = .ok (false, vars v)) := by
      generalize vars v = y, V v = z at hv
      cases hv with
      | null => exact str_append_null al hc
      | @obj s c g1 g2 g3 =>
        obtain ⟨p1, p2⟩ := str_append_partial al g1 g3 hc hm
        simp only [Option.getD_some, List.length_append]
        exact ⟨p1, p2⟩
    have hnz : ∀ x ∈ (V v).getD [] ++ t, x ≠ 0 := by
      intro x hx
      rcases List.mem_append.1 hx with hx | hx
      · generalize vars v = y, V v = z at hv hx
        cases hv with
        | null => simp at hx
        | obj g1 g2 g3 => exact g2 x hx
      · exact hc.nonzero x hx
    by_cases hr : al = none ∨ ((V v).getD [] ++ t).length > STR_MAX
    · refine hfail (fun _ => by simp) (fun _ => by simp) (fun _ _ => by simp) ?_ ?_
      · simp only [step, hb, h2 hr, Res.ok_bind, upd_same]
      · rcases hr with hr | hr
        · exact Or.inl (fun hn => hn hr)
        · refine Or.inr ?_
          rintro x ⟨t', ht', rfl⟩
          rw [txt_unique ht' ht]
          exact ⟨_, rfl, hr⟩
    · have hal : al ≠ none := fun hn => hr (Or.inl hn)
      have hle : ((V v).getD [] ++ t).length ≤ STR_MAX :=
        Nat.le_of_not_lt (fun hn => hr (Or.inr hn))
      obtain ⟨s, e, hs⟩ := h1 hal hle
      refine hdone (s := some s) (x := some _) ?_ ⟨t, ht, rfl⟩ (.obj hs hnz hle) ?_
      · simp only [step, hb, e, Res.ok_bind, Spec.target]
      · rintro _ ⟨rfl⟩; exact hle
  | setFmt v t =>
    by_cases hr : al = none ∨ t.length > INT_MAX
    · refine hfail (fun _ => by simp) (fun _ => by simp) (fun _ _ => by simp) ?_ ?_
      · by_cases hle : t.length ≤ INT_MAX
        · have hn : al = none := by rcases hr with hr | hr; exact hr; omega
          have := (str_set_fmt al tmp (vars v) hle).2 hn
          simp only [step, if_pos hle, this, Res.ok_bind, upd_same]
        · have : setFmt al tmp (vars v) none = .ok (false, vars v) := rfl
          simp only [step, if_neg hle, this, Res.ok_bind, upd_same]
      · rcases hr with hr | hr
        · exact Or.inl (fun hn => hn hr)
        · refine Or.inr ?_
          rintro x rfl
          exact ⟨_, rfl, hr⟩
    · have hal : al ≠ none := fun hn => hr (Or.inl hn)
      have hle : t.length ≤ INT_MAX := by omega
      obtain ⟨s, e, hs⟩ := (str_set_fmt al tmp (vars v) hle).1 hal
      refine hdone (s := some s) (x := some t) ?_ rfl (.obj hs ha (by omega)) ?_
      · simp only [step, if_pos hle, e, Res.ok_bind, Spec.target]
      · rintro _ ⟨rfl⟩; exact hle
  | appendFmt v t =>
    have hv := h v
    obtain ⟨h1, h2⟩ : (al ≠ none → ((V v).getD [] ++ t).length ≤ INT_MAX →
          ∃ s', appendFmt al tmp (vars v) (if t.length ≤ INT_MAX then some t else none) =
            .ok (true, some s') ∧ Holds s' ((V v).getD [] ++ t)) ∧
        (al = none ∨ ((V v).getD [] ++ t).length > INT_MAX →
          appendFmt al tmp (vars v) (if t.length ≤ INT_MAX then some t else none) =
            .ok (false, vars v)) := by
      generalize vars v = y, V v = z at hv
      cases hv with
      | null =>
        simp only [Option.getD_none, List.nil_append]
        by_cases hle : t.length ≤ INT_MAX
        · rw [if_pos hle]
          obtain ⟨p1, p2⟩ := str_set_fmt al tmp none hle
          exact ⟨fun hn _ => p1 hn, fun hn => p2 (by rcases hn with hn | hn; exact hn; omega)⟩
        · rw [if_neg hle]
          exact ⟨fun _ hn => absurd hn hle, fun _ => rfl⟩
      | @obj s c g1 g2 g3 =>
        simp only [Option.getD_some]
        by_cases hle : t.length ≤ INT_MAX
        · rw [if_pos hle]; exact str_append_fmt_partial al tmp g1 g2
        · rw [if_neg hle]
          refine ⟨fun _ hn => ?_, fun _ => ?_⟩
          · simp only [List.length_append] at hn; omega
          · rw [appendFmt, cstr_eq (Has.obj g1 g2 g3).cstr, Res.ok_bind]; rfl
    have hnz : ∀ x ∈ (V v).getD [] ++ t, x ≠ 0 := by
      intro x hx
      rcases List.mem_append.1 hx with hx | hx
      · generalize vars v = y, V v = z at hv hx
        cases hv with
        | null => simp at hx
        | obj g1 g2 g3 => exact g2 x hx
      · exact ha x hx
    by_cases hr : al = none ∨ ((V v).getD [] ++ t).length > INT_MAX
    · refine hfail (fun _ => by simp) (fun _ => by simp) (fun _ _ => by simp) ?_ ?_
      · simp only [step, h2 hr, Res.ok_bind, upd_same]
      · rcases hr with hr | hr
        · exact Or.inl (fun hn => hn hr)
        · refine Or.inr ?_
          rintro x rfl
          exact ⟨_, rfl, hr⟩
    · have hal : al ≠ none := fun hn => hr (Or.inl hn)
      have hle : ((V v).getD [] ++ t).length ≤ INT_MAX :=
        Nat.le_of_not_lt (fun hn => hr (Or.inr hn))
      obtain ⟨s, e, hs⟩ := h1 hal hle
      refine hdone (s := some s) (x := some _) ?_ rfl
        (.obj hs hnz (Nat.le_trans hle (by decide))) ?_
      · simp only [step, e, Res.ok_bind, Spec.target]
      · rintro _ ⟨rfl⟩; exact hle
  | trim v a =>
    obtain ⟨l, hl⟩ := ha
    obtain ⟨b, hb, hc⟩ := block_of h hl
    have hv := h v
    cases hvv : vars v with
    | none =>
      rw [hvv] at hv
      generalize hV : V v = z at hv
      cases hv
      refine hdone (s := none) (x := none) ?_ ?_ .null (by intro t ht; cases ht)
      · simp only [step, hb, hvv, trim, Res.ok_bind, Spec.target]
      · simp only [Spec.Goal, hV]
    | some s =>
      rw [hvv] at hv
      generalize hV : V v = z at hv
      cases hv with
      | @obj _ c g1 g2 g3 =>
        obtain ⟨ok, s', e, p1, p2⟩ := str_trim_partial al g1 g2 hc
        cases ok with
        | true =>
          obtain ⟨t, q1, q2⟩ := p1 rfl
          obtain ⟨u, u', e1, _⟩ := id q1
          have hlt : t.length ≤ STR_MAX := by
            have := congrArg List.length e1
            simp only [List.length_append] at this
            omega
          have hnz : ∀ x ∈ t, x ≠ 0 := fun x hx => g2 x (by rw [e1]; simp [hx])
          refine hdone (s := some s') (x := some t) ?_ ?_ (.obj q2 hnz hlt) ?_
          · simp only [step, hb, hvv, e, Res.ok_bind, Spec.target]
          · simp only [Spec.Goal, hV]
            exact ⟨l, t, hl, q1, rfl⟩
          · rintro _ ⟨rfl⟩; exact hlt
        | false =>
          obtain ⟨rfl, hn⟩ := p2 rfl
          refine hfail (fun _ => by simp) (fun _ => by simp) (fun _ _ => by simp) ?_
            (Or.inl (fun hc => hc hn))
          simp only [step, hb, hvv, e, Res.ok_bind, upd_same]
  | substring v st en =>
    have hv := h v
    cases hvv : vars v with
    | none =>
      rw [hvv] at hv
      generalize hV : V v = z at hv
      cases hv
      refine hfail (fun _ => by simp) (fun _ => by simp) (fun _ _ => by simp) ?_ (Or.inr ?_)
      · simp only [step, hvv, substring, Res.ok_bind, upd_same]
      · rintro x ⟨c, hx, _⟩
        rw [hV] at hx; cases hx
    | some s =>
      rw [hvv] at hv
      generalize hV : V v = z at hv
      cases hv with
      | @obj _ c g1 g2 g3 =>
        obtain ⟨p1, p2⟩ := str_substring al g1 st en
        by_cases hr : al = none ∨ ¬ (st ≤ en ∧ en ≤ c.length)
        · refine hfail (fun _ => by simp) (fun _ => by simp) (fun _ _ => by simp) ?_ ?_
          · simp only [step, hvv, p2 hr, Res.ok_bind, upd_same]
          · rcases hr with hr | hr
            · exact Or.inl (fun hc => hc hr)
            · refine Or.inr ?_
              rintro x ⟨c', hx, k1, k2, _⟩
              rw [hV] at hx; cases hx
              exact absurd ⟨k1, k2⟩ hr
        · have hal : al ≠ none := fun hn => hr (Or.inl hn)
          have hrg : st ≤ en ∧ en ≤ c.length := by
            by_cases hg : st ≤ en ∧ en ≤ c.length
            · exact hg
            · exact absurd (Or.inr hg) hr
          obtain ⟨s', e, hs⟩ := p1 hal hrg.1 hrg.2
          have hlt : ((c.take en).drop st).length ≤ STR_MAX := by
            simp only [List.length_drop, List.length_take]; omega
          refine hdone (s := some s') (x := some _) ?_ ⟨c, hV, hrg.1, hrg.2, rfl⟩
            (.obj hs (fun x hx => g2 x (List.mem_of_mem_take (List.mem_of_mem_drop hx))) hlt) ?_
          · simp only [step, hvv, e, Res.ok_bind, Spec.target]
          · rintro _ ⟨rfl⟩; exact hlt
  | replace v a b =>
    obtain ⟨-, -, r, w, hr, hw, hne, lr, lw⟩ := ha
    obtain ⟨br, hbr, hcr⟩ := block_of h hr
    obtain ⟨bw, hbw, hcw⟩ := block_of h hw
    have hv := h v
    cases hvv : vars v with
    | none =>
      rw [hvv] at hv
      generalize hV : V v = z at hv
      cases hv
      refine hdone (s := none) (x := none) ?_ ?_ .null (by intro t ht; cases ht)
      · simp only [step, hbr, hbw, hvv, replace, Res.ok_bind, Spec.target]
      · simp only [Spec.Goal, hV]
    | some s =>
      rw [hvv] at hv
      generalize hV : V v = z at hv
      cases hv with
      | @obj _ c g1 g2 g3 =>
        obtain ⟨t, hst, res, e, hres, hok⟩ := str_replace al g1 hcr hcw hne
        have e := e fuel (by have := g1.small; omega)
        rw [ctext_eq_self g2] at hst hres hok
        simp only [List.drop_length, List.append_nil, Nat.sub_self, Nat.add_zero] at hres hok
        rcases hres with ⟨s', rfl, hs', hm⟩ | rfl
        · have hlt : t.length ≤ STR_MAX := by have := hm g3; rwa [hs'.len] at this
          refine hdone (s := some s') (x := some t) ?_ ?_
            (.obj hs' (subst_nonzero hst g2 hcw.nonzero) hlt) ?_
          · simp only [step, hbr, hbw, hvv, e, Res.ok_bind, Spec.target]
          · simp only [Spec.Goal, hV]
            exact ⟨r, w, t, hr, hw, hst, rfl⟩
          · rintro _ ⟨rfl⟩; exact hlt
        · refine hfail (fun _ => by simp) (fun _ => by simp) (fun _ _ => by simp) ?_ ?_
          · simp only [step, hbr, hbw, hvv, e, Res.ok_bind, upd_same]
          · by_cases hn : al = none
            · exact Or.inl (fun hc => hc hn)
            · refine Or.inr ?_
              intro x hx
              simp only [Spec.Goal, hV] at hx
              obtain ⟨r', w', t', k1, k2, k3, rfl⟩ := hx
              rw [txt_unique k1 hr, txt_unique k2 hw] at k3
              rw [subst_unique k3 hst]
              refine ⟨t, rfl, Nat.lt_of_not_le (fun hle => ?_)⟩
              have := hok hn lr lw g3 hle
              cases this
  | dup v w =>
    have hn : V v = none := ha
    have hw := h w
    cases hvw : vars w with
    | none =>
      rw [hvw] at hw
      generalize hV : V w = z at hw
      cases hw
      have hvn : vars v = none := by
        have hv := h v
        rw [hn] at hv
        generalize vars v = y at hv
        cases hv; rfl
      refine hfail (fun _ => by simp) (fun _ => by simp) (fun _ _ => by simp) ?_ (Or.inr ?_)
      · simp only [step, hvw, dup, Res.ok_bind, upd_same hvn]; rfl
      · rintro x ⟨t, hx, _⟩
        rw [hV] at hx; cases hx
    | some s =>
      rw [hvw] at hw
      generalize hV : V w = z at hw
      cases hw with
      | @obj _ c g1 g2 g3 =>
        obtain ⟨p1, p2⟩ := str_dup al g1
        by_cases hal : al = none
        · have hvn : vars v = none := by
            have hv := h v
            rw [hn] at hv
            generalize vars v = y at hv
            cases hv; rfl
          refine hfail (fun _ => by simp) (fun _ => by simp) (fun _ _ => by simp) ?_
            (Or.inl (fun hc => hc hal))
          simp only [step, hvw, p2 hal, Res.ok_bind, upd_same hvn]; rfl
        · obtain ⟨s', e, hs⟩ := p1 hal
          refine hdone (s := some s') (x := some c) ?_ ⟨c, hV, rfl⟩ (.obj hs g2 g3) ?_
          · simp only [step, hvw, e, Res.ok_bind, Spec.target]; rfl
          · rintro _ ⟨rfl⟩; exact g3
  | destroy v => exact ⟨_, _, _, rfl, .destroy, has_upd h .null⟩
  | len v =>
    refine ⟨vars, _, V, rfl, ?_, h⟩
    have hv := h v
    have e : len (vars v) = (match V v with | none => -1 | some t => (t.length : Int)) := by
      generalize vars v = y, V v = z at hv
      cases hv with
      | null => rfl
      | obj g1 _ _ => exact str_len g1
    rw [e]
    exact .len
  | cmp v w =>
    obtain ⟨n1, n2⟩ := ha
    have hv := h v
    have hw := h w
    generalize hV : V v = z, hW : V w = z' at hv hw n1 n2
    generalize hy : vars v = y, hy' : vars w = y' at hv hw
    cases hv with
    | null => exact absurd rfl n1
    | @obj s1 c1 g1 _ _ =>
      cases hw with
      | null => exact absurd rfl n2
      | @obj s2 c2 k1 _ _ =>
        obtain ⟨r, e, hr⟩ := str_cmp g1 k1
        refine ⟨vars, .bool r, V, ?_, ?_, h⟩
        · simp only [step, hy, hy', e, Res.ok_bind]
        · have : r = decide (c1 = c2) := by
            cases r <;> simp_all
          rw [this]
          exact .cmp hV hW

theorem run_spec {fuel : Nat} (hf : W32 ≤ fuel) : ∀ {es : List Ev} {vars : Nat → Option S}
    {V : Nat → Option (List UInt8)}, (∀ v, Has (vars v) (V v)) → Spec.Keeps V es →
    ∃ vars' os V', run fuel vars es = .ok (vars', os) ∧ Spec.Run V es os V' ∧
      ∀ v, Has (vars' v) (V' v) := by
  intro es
  induction es with
  | nil => intro vars V h _; exact ⟨vars, [], V, rfl, .nil, h⟩
  | cons e es ih =>
    intro vars V h hk
    obtain ⟨vars1, o, V1, e1, s1, h1⟩ := step_spec hf h hk.1
    obtain ⟨vars2, os, V2, e2, s2, h2⟩ := ih h1 (hk.2 o V1 s1)
    refine ⟨vars2, o :: os, V2, ?_, .cons s1 s2, h2⟩
    simp only [run, e1, e2, Res.ok_bind]

theorem Spec.Step.returns {V V' : Nat → Option (List UInt8)} {mem : Prop} {op : Op} {o : Out}
    (h : Spec.Step V mem op o V') : o ≠ .hangs := by
  cases h <;> simp

/-- **C131.** A program that starts with NULL variables and respects `Spec.Allowed` runs, every
call returns, and what the calls return and what the variables hold at the end are what `Spec`
says about texts: every variable is NULL or holds exactly its text, followed by a NUL. -/
theorem str_history {fuel : Nat} (hf : W32 ≤ fuel) {es : List Ev}
    (hk : Spec.Keeps (fun _ => none) es) :
    ∃ vars os V, run fuel (fun _ => none) es = .ok (vars, os) ∧
      Spec.Run (fun _ => none) es os V ∧
      (∀ v, V v = none → vars v = none) ∧
      (∀ v t, V v = some t → ∃ s, vars v = some s ∧ Holds s t) ∧ Out.hangs ∉ os := by
  obtain ⟨vars, os, V, h1, h2, h3⟩ := run_spec hf (vars := fun _ => none) (fun _ => .null) hk
  refine ⟨vars, os, V, h1, h2, ?_, ?_, ?_⟩
  · intro v hv
    have := h3 v
    rw [hv] at this
    generalize vars v = y at this
    cases this; rfl
  · intro v t hv
    have := h3 v
    rw [hv] at this
    generalize vars v = y at this
    cases this with
    | obj g1 _ _ => exact ⟨_, rfl, g1⟩
  · have key : ∀ {V V' : Nat → Option (List UInt8)} {es : List Ev} {os : List Out},
        Spec.Run V es os V' → Out.hangs ∉ os := by
      intro V V' es os hr
      induction hr with
      | nil => simp
      | cons hs _ ih =>
        intro hc
        rcases List.mem_cons.1 hc with hc | hc
        · exact hs.returns hc.symm
        · exact ih hc
    exact key h2

/-- What a program computes is determined by which calls get memory, if those that need it do:
two runs of `Spec` agree. -/
theorem Spec.Run.det {V V1 V2 : Nat → Option (List UInt8)} {es : List Ev} {o1 o2 : List Out}
    (h1 : Spec.Run V es o1 V1) (h2 : Spec.Run V es o2 V2) (hm : ∀ e ∈ es, e.al ≠ none) :
    o1 = o2 ∧ V1 = V2 := by
  induction h1 generalizing o2 V2 with
  | nil => cases h2; exact ⟨rfl, rfl⟩
  | cons s1 _ ih =>
    cases h2 with
    | cons s2 r2 =>
      obtain ⟨rfl, rfl⟩ := s1.det s2 (hm _ (by simp))
      obtain ⟨rfl, rfl⟩ := ih r2 (fun e he => hm e (by simp [he]))
      exact ⟨rfl, rfl⟩

/-! ## An example -/

theorem Spec.Keeps.cons {V V' : Nat → Option (List UInt8)} {e : Ev} {es : List Ev} {o : Out}
    (ha : Spec.Allowed V e.op) (hm : e.al ≠ none) (hs : Spec.Step V (e.al ≠ none) e.op o V')
    (hk : Spec.Keeps V' es) : Spec.Keeps V (e :: es) :=
  ⟨ha, fun o1 V1 h1 => by obtain ⟨-, rfl⟩ := hs.det h1 hm; exact hk⟩

/-- `set(&s0, "ab"); append(&s0, "c"); s1 = dup(s0); append(&s0, s1); substring(&s1, 1, 9);
destroy(&s1); len(s1)`, with memory. -/
def exampleProgram : List Ev :=
  let al : Alloc UInt8 := some fun _ => 7
  [⟨.set 0 (.text [97, 98, 0]), al, fun _ => 0⟩, ⟨.append 0 (.text [99, 0]), al, fun _ => 0⟩,
   ⟨.dup 1 0, al, fun _ => 0⟩, ⟨.append 0 (.var 1), al, fun _ => 0⟩,
   ⟨.substring 1 1 9, al, fun _ => 0⟩, ⟨.destroy 1, al, fun _ => 0⟩, ⟨.len 1, al, fun _ => 0⟩]

/-- The program meets the hypotheses of `str_history`, and its results are these. -/
theorem exampleProgram_keeps : Spec.Keeps (fun _ => none) exampleProgram := by
  have t1 : CStr [97, 98, 0] 0 [97, 98] := cstr_mid (pre := []) (x := [97, 98]) (z := []) (by decide)
  have t2 : CStr [99, 0] 0 [99] := cstr_mid (pre := []) (x := [99]) (z := []) (by decide)
  refine .cons ⟨_, t1⟩ (by simp) (.done ⟨_, t1, rfl⟩ (by rintro _ ⟨rfl⟩; decide)) ?_
  refine .cons ⟨by simp, _, t2, by decide⟩ (by simp)
    (.done ⟨_, t2, rfl⟩ (by rintro _ ⟨rfl⟩; decide)) ?_
  refine .cons rfl (by simp) (.done ⟨[97, 98, 99], rfl, rfl⟩ (by rintro _ ⟨rfl⟩; decide)) ?_
  refine .cons ⟨by simp, [97, 98, 99], rfl, by decide⟩ (by simp)
    (.done ⟨_, rfl, rfl⟩ (by rintro _ ⟨rfl⟩; decide)) ?_
  refine .cons trivial (by simp) (.fail (Or.inr ?_) (by simp) (by simp) (by simp)) ?_
  · rintro x ⟨c, hc, _, h2, _⟩
    cases hc
    exact absurd h2 (by decide)
  refine .cons trivial (by simp) .destroy ?_
  exact .cons trivial (by simp) .len trivial

example : (match run 10 (fun _ => none) exampleProgram with
    | .ok (vars, os) => (vars 0, vars 1, os)
    | .ub => (none, none, [])) =
    (some ⟨6, [97, 98, 99, 97, 98, 99, 0]⟩, none, [.bool true, .bool true, .bool true, .bool true,
      .bool false, .unit, .int (-1)]) := by decide +kernel

end Verif.Str
