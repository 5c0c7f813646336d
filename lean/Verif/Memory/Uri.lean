import Verif.Uri.Model
import Verif.CLib
import Verif.Memory.Store

/-! # The memory of URIs: `uri/sc_uri.c` with pointers

A URI is one block: the structure and, after it, the bytes its members point to. -/

namespace Verif.Memory.Uri
open Verif.Uri

/-- What a NULL pointer would point to: nothing. -/
abbrev nul : Uri := ⟨0, 0, 0, 0, 0, 0, 0, 0, []⟩

/-- `full_len + parts_len`, the size of `buf`, uri/sc_uri.c:123-133. -/
def size (p : Parts) : Nat :=
  let fullLen := p.scheme.2 + p.authority + p.userinfo.2 + p.host.2 + p.port.2 + p.path.2 +
    p.query.2 + p.fragment.2 + 1
  fullLen - p.authority + 7 - nz p.scheme.2 - nz p.userinfo.2 - nz p.port.2 -
    nz p.query.2 - nz p.fragment.2 + fullLen

/-- The rest of `sc_uri_create`, uri/sc_uri.c:123-183: the block is obtained at 135, everything
until 183 happens in it (`Verif.Uri.build`), and 185-187 give it back when that fails. -/
def build (al : Alloc UInt8) (mem : List UInt8) (p : Parts) (st : Store Uri) :
    Res (Option Nat × Store Uri) :=
  match al with
  | none => .ok (none, st)
  | some fill => do
    let (i, st) := alloc { nul with buf := resized [] (size p) fill } st
    let r ← Verif.Uri.build (some fill) mem p
    match r with
    | none => do
      let st ← free (some i) st
      .ok (none, st)
    | some u => do
      let old ← load nul (some i) st
      if u.buf.length = old.buf.length then .ok (some i, st.put i (some u)) else .ub

/-- `sc_uri_create`, uri/sc_uri.c:42-183. -/
def create (al : Alloc UInt8) (str : Option (List UInt8)) (st : Store Uri) :
    Res (Option Nat × Store Uri) :=
  match str with
  | none => .ok (none, st)
  | some mem => do
    let r ← parse mem
    match r with
    | none => .ok (none, st)
    | some p => build al mem p st

/-- `sc_uri_destroy`, uri/sc_uri.c:185-188. The pointer is the caller's and keeps its value; the
model forgets it. -/
def destroy (o : Option Nat) (st : Store Uri) : Res (Option Nat × Store Uri) := do
  let st ← free o st
  .ok (none, st)

/-- The caller reads the string a member points to. -/
def read (o : Option Nat) (m : Uri → Nat) (st : Store Uri) :
    Res ((Option Nat × List UInt8) × Store Uri) :=
  match o with
  | none => .ub
  | some i => do
    let u ← load nul (some i) st
    let s ← cstr u.buf (m u)
    .ok ((some i, s), st)

/-- URIs. -/
def kind : Kind where
  Obj := Option Nat
  Blk := Uri
  View := Option Uri
  Arg := Alloc UInt8 × Option (List UInt8)
  Op := Uri → Nat
  Out := List UInt8
  null := nul
  ptr o := o
  view o u := o.map fun _ => u
  inv _ _ := True
  initP a st := do
    let (o, st) ← create a.1 a.2 st
    .ok (some o, st)
  init a := do
    let v ← Verif.Uri.create a.1 a.2
    .ok (some v)
  stepP := read
  step v m := match v with
    | none => .ub
    | some u => do
      let s ← cstr u.buf (m u)
      .ok (some u, s)
  termP := destroy

theorem vsnprintf_length {m m' : List UInt8} {pos n : Nat} {t : Option (List UInt8)}
    {rc : Option Nat} (h : vsnprintf m pos n t = .ok (m', rc)) : m'.length = m.length := by
  unfold vsnprintf at h
  split at h
  · cases h; rfl
  · split at h
    · cases h; rfl
    · dsimp only at h
      split at h
      · next hc => cases h; exact length_splice hc
      · cases h

theorem build_length {fill : Nat → UInt8} {mem : List UInt8} {p : Parts} {u : Uri}
    (h : Verif.Uri.build (some fill) mem p = .ok (some u)) :
    u.buf.length = (resized [] (size p) fill).length := by
  unfold Verif.Uri.build at h
  dsimp only at h
  obtain ⟨x1, _, h⟩ := Res.bind_eq_ok.1 h
  obtain ⟨x2, _, h⟩ := Res.bind_eq_ok.1 h
  obtain ⟨x3, _, h⟩ := Res.bind_eq_ok.1 h
  obtain ⟨x4, _, h⟩ := Res.bind_eq_ok.1 h
  obtain ⟨x5, _, h⟩ := Res.bind_eq_ok.1 h
  obtain ⟨x6, _, h⟩ := Res.bind_eq_ok.1 h
  obtain ⟨x7, _, h⟩ := Res.bind_eq_ok.1 h
  obtain ⟨⟨b1, r1⟩, hb1, h⟩ := Res.bind_eq_ok.1 h
  dsimp only at h
  split at h
  · cases h
  · obtain ⟨n, _, h⟩ := Res.bind_eq_ok.1 h
    obtain ⟨y1, _, h⟩ := Res.bind_eq_ok.1 h
    obtain ⟨y2, _, h⟩ := Res.bind_eq_ok.1 h
    obtain ⟨y3, _, h⟩ := Res.bind_eq_ok.1 h
    obtain ⟨y4, _, h⟩ := Res.bind_eq_ok.1 h
    obtain ⟨y5, _, h⟩ := Res.bind_eq_ok.1 h
    obtain ⟨⟨b2, r2⟩, hb2, h⟩ := Res.bind_eq_ok.1 h
    dsimp only at h
    split at h
    · cases h
    · cases h
      exact (vsnprintf_length hb2).trans (vsnprintf_length hb1)

/-- The pointer `o` is the URI `v`. -/
def Rep (o : Option Nat) (st : Store Uri) (v : Option Uri) : Prop :=
  Both (fun i u => load nul (some i) st = .ok u) o v

theorem put_ok {i : Nat} {u c : Uri} {st : Store Uri} (hw : st.WF)
    (h : load nul (some i) st = .ok u) : Moves st (st.put i (some c)) (some i) (some i) ∧
      load nul (some i) (st.put i (some c)) = .ok c := by
  have hv := load_valid h i rfl
  refine ⟨⟨?_, ?_, ?_, ?_, ?_, fun _ h h' => absurd h h', Nat.le_refl _⟩, by simp [load, Store.put]⟩
  · intro j hj
    have hj' := hw j hj
    simp only [Store.put]
    split
    · next e => subst e; simp [hj'] at hv
    · exact hj'
  · intro j hj
    cases hj
    simp [Store.put]
  · intro j hj _
    simp only [Store.put]
    rw [if_neg (fun e => hj (by rw [e]))]
  · exact fun _ h h' => absurd h h'
  · exact fun _ h h' => absurd h h'

theorem create_ok {al : Alloc UInt8} {str : Option (List UInt8)} {st : Store Uri} {r : Option Uri}
    (hw : st.WF) (h : Verif.Uri.create al str = .ok r) :
    ∃ o st', create al str st = .ok (o, st') ∧ Moves st st' none o ∧ Rep o st' r := by
  have hrefl : Moves st st none none := .refl hw (fun _ hi => (by cases hi))
  cases str with
  | none =>
    cases h
    exact ⟨none, st, rfl, hrefl, trivial⟩
  | some mem =>
    obtain ⟨x, hx, h⟩ := Res.bind_eq_ok.1 h
    unfold create
    simp only [hx, Res.ok_bind]
    cases x with
    | none =>
      cases h
      exact ⟨none, st, rfl, hrefl, trivial⟩
    | some p =>
      cases al with
      | none =>
        cases h
        exact ⟨none, st, rfl, hrefl, trivial⟩
      | some fill =>
        obtain ⟨hm, hl⟩ := alloc_ok nul ({ nul with buf := resized [] (size p) fill } : Uri) hw
        have h : Verif.Uri.build (some fill) mem p = .ok r := h
        unfold build
        simp only [h, Res.ok_bind]
        cases r with
        | none =>
          obtain ⟨st', hf, hm'⟩ := free_ok hm.wf hl
          exact ⟨none, st', by simp only [hf, Res.ok_bind], hm.trans hm', trivial⟩
        | some u =>
          obtain ⟨hm', hl'⟩ := put_ok (c := u) hm.wf hl
          refine ⟨_, _, ?_, hm.trans hm', hl'⟩
          simp only [hl, Res.ok_bind, if_pos (build_length h)]

theorem rep_iff {o : Option Nat} {st : Store Uri} {v : Option Uri} :
    kind.Rep o st v ↔ Rep o st v := by
  constructor
  · rintro ⟨s, hl, hv, -⟩
    cases o with
    | none => cases hv; trivial
    | some i => cases hv; exact hl
  · intro h
    cases o with
    | none =>
      cases v with
      | none => exact ⟨nul, rfl, rfl, trivial⟩
      | some _ => exact h.elim
    | some i =>
      cases v with
      | none => exact h.elim
      | some x => exact ⟨x, h, rfl, trivial⟩

/-- A URI is one block, given back when it is destroyed or cannot be built. -/
theorem kind_sound : kind.Sound where
  init a st r hw h := by
    obtain ⟨v, hv, h⟩ := Res.bind_eq_ok.1 h
    cases h
    obtain ⟨o, st', e, hm, hr⟩ := create_ok hw hv
    refine ⟨some o, st', ?_, hm, rep_iff.2 hr⟩
    show (do let (o, st) ← create a.1 a.2 st; Res.ok (some o, st)) = _
    simp only [e, Res.ok_bind]
    rfl
  step o op st v v' out hw hr h := by
    have hr' := rep_iff.1 hr
    cases o with
    | none =>
      cases v with
      | none => cases h
      | some _ => exact hr'.elim
    | some i =>
      cases v with
      | none => exact hr'.elim
      | some u =>
        have hl : load nul (some i) st = .ok u := hr'
        obtain ⟨s, hs, hh⟩ := Res.bind_eq_ok.1 h
        cases hh
        refine ⟨some i, st, ?_, .refl hw (load_valid hl), hr⟩
        show read (some i) op st = _
        simp only [read, hl, Res.ok_bind, hs]
        rfl
  term o st v hw hr := by
    obtain ⟨u, hu, -⟩ := hr
    obtain ⟨st', hf, hm⟩ := free_ok hw hu
    refine ⟨none, st', ?_, rfl, hm⟩
    show destroy o st = _
    unfold destroy
    erw [hf]
    rfl

end Verif.Memory.Uri
