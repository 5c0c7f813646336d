import Verif.Memory.Str
import Verif.Str.Props

/-! # C106: arguments that point into a string

`sc_str_set` and `sc_str_set_fmt` may be given pointers into the string they change.
`sc_str_append` may not. -/

namespace Verif.Memory.Str
open Verif.Str

/-- The text at the pointer, in the memory `st`, is `t`. -/
def TextAt (p : Src) (st : Mem) (t : List UInt8) : Prop :=
  ∃ b, p.read st = .ok b ∧ CStr b 0 t

/-- A variable holds the content `c`. -/
def HoldsAt (o : Option Nat) (st : Mem) (c : List UInt8) : Prop :=
  ∃ i s, o = some i ∧ load nul (some i) st = .ok s ∧ Holds s c

/-- The variable may be NULL; otherwise it points to a string. -/
def Variable (o : Option Nat) (st : Mem) : Prop := ∃ s, load nul o st = .ok s

/-- **C106.** `sc_str_set` copies the text at the pointer it is given, wherever it points: into
any string, the one that is set included, or elsewhere. If it fails nothing changes. The
variable has no memory but that of the new content afterwards. -/
theorem str_set_from_anywhere (al : Alloc UInt8) {o : Option Nat} {p : Src} {st : Mem}
    {t : List UInt8} (hw : st.WF) (ho : Variable o st) (hp : TextAt p st t) :
    (al ≠ none → t.length ≤ STR_MAX → ∃ o' st', set al o (some p) st = .ok ((o', true), st') ∧
      HoldsAt o' st' t ∧ Moves st st' o o') ∧
    (al = none ∨ t.length > STR_MAX → set al o (some p) st = .ok ((o, false), st)) := by
  obtain ⟨s, hs⟩ := ho
  obtain ⟨b, hb, ht⟩ := hp
  have hr : Rep o st (o.map fun _ => s) := by
    cases o with
    | none => trivial
    | some i => exact hs
  obtain ⟨h1, h2⟩ := str_set al (o.map fun _ => s) ht
  constructor
  · intro ha hl
    obtain ⟨s', e, hh⟩ := h1 ha hl
    obtain ⟨o', st', e', hm, hr'⟩ := set_ok (p := some p) (bytes := some b) hw hr hb e
    refine ⟨o', st', e', ?_, hm⟩
    cases o' with
    | none => exact hr'.elim
    | some i => exact ⟨i, s', rfl, hr', hh⟩
  · intro hn
    have hc : Verif.Str.create al (some b) = .ok none := (str_create al ht).2 hn
    have : create al (some p) st = .ok (none, st) := by
      simp only [Verif.Str.create, strlen_eq ht, Res.ok_bind] at hc
      simp only [create, hb, strlen_eq ht, Res.ok_bind]
      by_cases hl : t.length > STR_MAX
      · rw [if_pos hl]
      · rw [if_neg hl] at hc ⊢
        have ha : al = none := hn.resolve_right hl
        subst ha
        rfl
    simp only [set, this, Res.ok_bind]

/-- **C106.** `sc_str_append` appends the text at the pointer it is given when that does not
point into the string that is appended to. If it fails nothing changes. -/
theorem str_append_from_elsewhere_partial (al : Alloc UInt8) {i : Nat} {p : Src} {st : Mem}
    {c t : List UInt8} (hw : st.WF) (hc : HoldsAt (some i) st c) (hl : c.length ≤ STR_MAX)
    (hp : TextAt p st t) (hm : t.length < W64) (hne : ∀ off, p ≠ .str i off) :
    (al ≠ none → c.length + t.length ≤ STR_MAX →
      ∃ o' st', append al (some i) (some p) st = .ok ((o', true), st') ∧
        HoldsAt o' st' (c ++ t) ∧ Moves st st' (some i) o') ∧
    (al = none ∨ c.length + t.length > STR_MAX →
      append al (some i) (some p) st = .ok ((some i, false), st)) := by
  obtain ⟨b, hb, ht⟩ := hp
  obtain ⟨j, s, hj, hs, hh⟩ := hc
  cases hj
  obtain ⟨h1, h2⟩ := str_append_partial al hh hl ht hm
  constructor
  · intro ha hle
    obtain ⟨s', h, hh'⟩ := h1 ha hle
    obtain ⟨len, hlen, h⟩ := Res.bind_eq_ok.1 h
    unfold append
    simp only [hs, hb, hlen, Res.ok_bind]
    by_cases h0 : len > sub64 STR_MAX s.len
    · rw [if_pos h0] at h; cases h
    · rw [if_neg h0] at h ⊢
      cases al with
      | none => exact absurd rfl ha
      | some fill =>
        obtain ⟨b1, g1, h⟩ := Res.bind_eq_ok.1 h
        obtain ⟨b2, g2, h⟩ := Res.bind_eq_ok.1 h
        cases h
        obtain ⟨d, st1, e1, m1, l1⟩ := realloc_some
          (fun s : S => { s with buf := resized s.buf (s.len + len + 1) fill }) hw hs
        have hl1 : load nul (some d) st1 = .ok
          { s with buf := resized s.buf (s.len + len + 1) fill } := l1
        have e1' : realloc nul (some fun m : S =>
            { m with buf := resized m.buf (s.len + len + 1) fill }) (some i) st =
            .ok (some d, st1) := by
          rw [← e1]
          simp only [realloc, hs, Res.ok_bind]
        have hread : p.read st1 = .ok b := by
          cases p with
          | ext _ => exact hb
          | str k off =>
            have hk : k ≠ i := fun e => hne off (by rw [e])
            obtain ⟨x, hx, hb'⟩ := Res.bind_eq_ok.1 hb
            have := (m1.load_other (null := nul) (q := some k) (load_valid hx)
              (by intro n hn e; cases hn; cases e; exact hk rfl)).1
            simp only [Src.read, this, hx, Res.ok_bind]
            exact hb'
        obtain ⟨st2, e2, m2, l2⟩ := storeS_ok (c := ⟨(s.len + len) % W32, b2⟩) m1.wf hl1
          ((wr_length g2).trans (memcpy_length g1))
        refine ⟨some d, st2, ?_, ⟨d, _, rfl, l2, hh'⟩, m1.trans m2⟩
        simp only [Option.map_some, e1', Res.ok_bind, hl1, hread, g1, g2, e2]
  · intro hn
    have h := h2 hn
    obtain ⟨len, hlen, h⟩ := Res.bind_eq_ok.1 h
    unfold append
    simp only [hs, hb, hlen, Res.ok_bind]
    by_cases h0 : len > sub64 STR_MAX s.len
    · rw [if_pos h0]
    · rw [if_neg h0] at h ⊢
      cases al with
      | none => simp only [Option.map_none, realloc_none hs, Res.ok_bind]
      | some fill =>
        obtain ⟨b1, g1, h⟩ := Res.bind_eq_ok.1 h
        obtain ⟨b2, g2, h⟩ := Res.bind_eq_ok.1 h
        cases h

/-- **C106 is violated** for `sc_str_append`: appending a string, or a part of it, to itself
reads memory that has been given back, whenever the allocator has memory. (Where `realloc`
extends the block in place, the text is there, but its terminator is overwritten.) -/
theorem str_append_self_violated (fill : Nat → UInt8) {i off : Nat} {st : Mem}
    {c t : List UInt8} (hw : st.WF) (hc : HoldsAt (some i) st c) (hp : TextAt (.str i off) st t)
    (hl : c.length + t.length ≤ STR_MAX) :
    append (some fill) (some i) (some (.str i off)) st = .ub := by
  obtain ⟨b, hb, ht⟩ := hp
  obtain ⟨j, s, hj, hs, hh⟩ := hc
  cases hj
  unfold append
  simp only [hs, hb, strlen_eq ht, Res.ok_bind]
  have h0 : ¬ t.length > sub64 STR_MAX s.len := by
    have := hh.len
    simp only [sub64]
    omega
  rw [if_neg h0]
  obtain ⟨d, st1, e1, m1, l1⟩ := realloc_some
    (fun m : S => { m with buf := resized m.buf (s.len + t.length + 1) fill }) hw hs
  simp only [Option.map_some, e1, Res.ok_bind, l1]
  have hi : st1.blk i = none := by
    apply m1.old i rfl
    intro e
    cases e
    have h1 : realloc nul (some fun m : S =>
      { m with buf := resized m.buf (s.len + t.length + 1) fill }) (some i) st ≠
        .ok (some i, st1) := by
      simp only [realloc, hs, Res.ok_bind]
      obtain ⟨st2, ef, mf⟩ := free_ok (p := some i) hw hs
      rw [ef, Res.ok_bind]
      simp only [alloc]
      intro e
      injection e with e
      injection e with e e'
      injection e with e
      have hf : st2 = st.put i none := by
        simp only [free] at ef
        split at ef
        · cases ef
        · cases ef; rfl
      subst hf
      have hlive := load_valid hs i rfl
      have : st.next = i := e
      rw [hw i (by omega)] at hlive
      cases hlive
    exact h1 e1
  have : Src.read (.str i off) st1 = .ub := by
    simp only [Src.read, load, hi]
    rfl
  rw [this]
  rfl

end Verif.Memory.Str
