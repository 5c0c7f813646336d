import Verif.Memory.Props

/-! # C105: programs that use containers of several kinds

All containers share one heap. A block remembers the kind of the container it was allocated for:
an access by a container of another kind is undefined. -/

namespace Verif.Memory

variable {ι : Type} [DecidableEq ι] {k : ι → Kind}

/-- A block of the common heap. `none` is what a NULL pointer leads to. -/
abbrev SumBlk (k : ι → Kind) : Type := Option ((i : ι) × (k i).Blk)

/-- The block, if it belongs to the kind `i`. -/
def mine (i : ι) : Option (SumBlk k) → Option (k i).Blk
  | some (some ⟨j, b⟩) => if h : j = i then some (h ▸ b) else none
  | _ => none

/-- The blocks of the kind `i` -/
def proj (i : ι) (st : Store (SumBlk k)) : Store (k i).Blk := ⟨st.next, fun a => mine i (st.blk a)⟩

/-- The heap after code of the kind `i` changed its blocks -/
def merge (i : ι) (st : Store (SumBlk k)) (st' : Store (k i).Blk) : Store (SumBlk k) :=
  ⟨st'.next, fun a => match st'.blk a with
    | some b => some (some ⟨i, b⟩)
    | none => if (mine i (st.blk a)).isSome then none else st.blk a⟩

/-- Code of the kind `i` on the common heap -/
def lift (i : ι) (f : Store (k i).Blk → Res (ρ × Store (k i).Blk)) (st : Store (SumBlk k)) : Res (ρ × Store (SumBlk k)) := do
  let (r, st') ← f (proj i st)
  .ok (r, merge i st st')

/-- The kind of all containers of the kinds `k`. Calling a function of one kind on a container of another is
undefined. -/
def Kind.sum (k : ι → Kind) : Kind where
  Obj := (i : ι) × (k i).Obj
  Blk := SumBlk k
  View := (i : ι) × (k i).View
  Arg := (i : ι) × (k i).Arg
  Op := (i : ι) × (k i).Op
  Out := (i : ι) × (k i).Out
  null := none
  ptr o := (k o.1).ptr o.2
  view o b := ⟨o.1, (k o.1).view o.2 ((mine o.1 (some b)).getD (k o.1).null)⟩
  inv o b := (k o.1).inv o.2 ((mine o.1 (some b)).getD (k o.1).null) ∧
    ((k o.1).ptr o.2 ≠ none → (mine o.1 (some b)).isSome)
  initP a st := do
    let (o, st) ← lift a.1 ((k a.1).initP a.2) st
    .ok (o.map fun o => ⟨a.1, o⟩, st)
  init a := do
    let v ← (k a.1).init a.2
    .ok (v.map fun v => ⟨a.1, v⟩)
  stepP o op st :=
    if h : op.1 = o.1 then do
      let ((o', r), st) ← lift o.1 ((k o.1).stepP o.2 (h ▸ op.2)) st
      .ok ((⟨o.1, o'⟩, ⟨o.1, r⟩), st)
    else .ub
  step v op :=
    if h : op.1 = v.1 then do
      let (v', r) ← (k v.1).step v.2 (h ▸ op.2)
      .ok (⟨v.1, v'⟩, ⟨v.1, r⟩)
    else .ub
  termP o st := do
    let (o', st) ← lift o.1 ((k o.1).termP o.2) st
    .ok (⟨o.1, o'⟩, st)

theorem mine_eq {i : ι} {x : Option (SumBlk k)} {b : (k i).Blk} (h : mine i x = some b) : x = some (some ⟨i, b⟩) := by
  unfold mine at h
  split at h
  · next j c =>
    split at h
    · next e => subst e; cases h; rfl
    · cases h
  · cases h

theorem mine_self (i : ι) (b : (k i).Blk) : mine i (some (some ⟨i, b⟩) : Option (SumBlk k)) = some b := by
  simp [mine]

theorem proj_wf {i : ι} {st : Store (SumBlk k)} (h : st.WF) : (proj i st).WF := by
  intro a ha
  show mine i (st.blk a) = none
  rw [h a ha]
  rfl

theorem rep_proj {i : ι} {o : (k i).Obj} {st : Store (SumBlk k)} {v : (i : ι) × (k i).View}
    (h : (Kind.sum k).Rep ⟨i, o⟩ st v) : ∃ v', v = ⟨i, v'⟩ ∧ (k i).Rep o (proj i st) v' := by
  obtain ⟨b, hb, hv, hi, ht⟩ := h
  refine ⟨_, hv.symm, _, ?_, rfl, hi⟩
  have hb : load none ((k i).ptr o) st = .ok b := hb
  dsimp only at ht ⊢
  cases hp : (k i).ptr o with
  | none =>
    rw [hp] at hb
    cases hb
    rfl
  | some a =>
    have ht := ht (by rw [hp]; simp)
    rw [hp] at hb
    simp only [load] at hb
    cases ha : st.blk a with
    | none => rw [ha] at hb; cases hb
    | some x =>
      rw [ha] at hb
      cases hb
      cases hm : mine i (some b) with
      | none => rw [hm] at ht; cases ht
      | some c => simp [load, proj, ha, hm]

theorem rep_merge {i : ι} {o : (k i).Obj} {st : Store (SumBlk k)} {st' : Store (k i).Blk} {v : (k i).View}
    (h : (k i).Rep o st' v) : (Kind.sum k).Rep ⟨i, o⟩ (merge i st st') ⟨i, v⟩ := by
  obtain ⟨c, hc, rfl, hi⟩ := h
  cases hp : (k i).ptr o with
  | none =>
    rw [hp] at hc
    cases hc
    refine ⟨none, ?_, rfl, hi, fun hn => absurd hp hn⟩
    show load none ((k i).ptr o) _ = _
    rw [hp]
    rfl
  | some a =>
    rw [hp] at hc
    simp only [load] at hc
    cases ha : st'.blk a with
    | none => rw [ha] at hc; cases hc
    | some y =>
      rw [ha] at hc
      cases hc
      refine ⟨some ⟨i, c⟩, ?_, ?_, ?_, ?_⟩
      · show load none ((k i).ptr o) _ = _
        rw [hp]
        simp [load, merge, ha]
        rfl
      · simp [Kind.sum, mine_self]
      · simp only [mine_self, Option.getD_some]
        exact hi
      · intro _
        simp only [mine_self]
        rfl

/-- Code of one kind moves its own block only, on the common heap too. -/
theorem moves_merge {i : ι} {st : Store (SumBlk k)} {st' : Store (k i).Blk} {p p' : Option Nat} (hw : st.WF)
    (hv : Valid p (proj i st)) (h : Moves (proj i st) st' p p') : Moves st (merge i st st') p p' := by
  have hkeep : ∀ a, p ≠ some a → p' ≠ some a → (merge i st st').blk a = st.blk a := by
    intro a h1 h2
    have hf : st'.blk a = mine i (st.blk a) := h.frame a h1 h2
    simp only [merge]
    rw [hf]
    cases hm : mine i (st.blk a) with
    | none => rfl
    | some b => exact (mine_eq hm).symm
  have hmono : st.next ≤ st'.next := h.mono
  refine ⟨?_, ?_, hkeep, ?_, ?_, h.unused, hmono⟩
  · intro a ha
    have ha : st'.next ≤ a := ha
    simp only [merge]
    rw [h.wf a ha, hw a (by omega)]
    rfl
  · intro a ha
    have := h.live a ha
    simp only [merge]
    cases hb : st'.blk a with
    | none => rw [hb] at this; cases this
    | some b => rfl
  · intro a h1 h2
    exact hw a (h.unused a h1 h2)
  · intro a h1 h2
    have hn := h.old a h1 h2
    have hs := hv a h1
    simp only [merge]
    rw [hn]
    exact if_pos hs

/-- The heap shared by several kinds of containers is used as if each had its own. -/
theorem Kind.sum_sound (hk : ∀ i, (k i).Sound) : (Kind.sum k).Sound where
  init a st r hw h := by
    obtain ⟨v, hv, h⟩ := Res.bind_eq_ok.1 h
    cases h
    obtain ⟨o, st', h1, h2, h3⟩ := (hk a.1).init a.2 (proj a.1 st) v (proj_wf hw) hv
    have hm := moves_merge hw (fun _ h => by cases h) h2
    refine ⟨o.map fun o => ⟨a.1, o⟩, merge a.1 st st', ?_, ?_, ?_⟩
    · show Res.bind _ _ = _
      simp only [lift, h1, Res.ok_bind]
      rfl
    · cases o with
      | none => exact hm
      | some o => exact hm
    · cases o with
      | none =>
        cases v with
        | none => trivial
        | some v => exact h3
      | some o =>
        cases v with
        | none => exact h3
        | some v => exact rep_merge h3
  step o op st v v' out hw hr h := by
    obtain ⟨i, o⟩ := o
    obtain ⟨j, op⟩ := op
    obtain ⟨v, rfl, hr'⟩ := rep_proj hr
    simp only [Kind.sum] at h
    by_cases he : j = i
    · subst he
      rw [dif_pos rfl] at h
      obtain ⟨⟨w, r⟩, hs, h⟩ := Res.bind_eq_ok.1 h
      cases h
      obtain ⟨o', st', h1, h2, h3⟩ := (hk j).step o op (proj j st) v w r (proj_wf hw) hr' hs
      obtain ⟨b, hb, _⟩ := hr'
      refine ⟨⟨j, o'⟩, merge j st st', ?_, moves_merge hw (load_valid hb) h2, rep_merge h3⟩
      simp only [Kind.sum, dif_pos, lift, h1, Res.ok_bind]
    · rw [dif_neg he] at h
      cases h
  term o st v hw hr := by
    obtain ⟨i, o⟩ := o
    obtain ⟨v, rfl, hr'⟩ := rep_proj hr
    obtain ⟨o', st', h1, h2, h3⟩ := (hk i).term o (proj i st) v (proj_wf hw) hr'
    obtain ⟨b, hb, _⟩ := hr'
    refine ⟨⟨i, o'⟩, merge i st st', ?_, h2, moves_merge hw (load_valid hb) h3⟩
    simp only [Kind.sum, lift, h1, Res.ok_bind]

/-- The rules of several APIs: each is kept for the containers of its kind, and functions are called on
containers of their kind. -/
def Rules.sum (r : ∀ i, Rules (k i)) : Rules (Kind.sum k) where
  arg a := (r a.1).arg a.2
  op v op := ∃ h : op.1 = v.1, (r v.1).op v.2 (h ▸ op.2)

theorem Rules.sum_enough {r : ∀ i, Rules (k i)} {I : ∀ i, (k i).View → Prop} (h : ∀ i, (r i).Enough (I i)) :
    (Rules.sum r).Enough (fun v => I v.1 v.2) where
  init a ha := by
    obtain ⟨v, h1, h2⟩ := (h a.1).init a.2 ha
    refine ⟨v.map fun v => ⟨a.1, v⟩, ?_, ?_⟩
    · show Res.bind _ _ = _
      rw [h1]
      rfl
    · intro x hx
      cases v with
      | none => cases hx
      | some v => cases hx; exact h2 v rfl
  step v op hI hr := by
    obtain ⟨i, v⟩ := v
    obtain ⟨j, op⟩ := op
    obtain ⟨e, hr⟩ := hr
    dsimp only at e
    subst e
    obtain ⟨v', out, h1, h2⟩ := (h j).step v op hI hr
    refine ⟨⟨j, v'⟩, ⟨j, out⟩, ?_, h2⟩
    simp only [Kind.sum, dif_pos, h1, Res.ok_bind]

/-- A container of the library: which it is, and what it holds. -/
inductive Lib : Type 1 where
  | array (sz : Nat) (α : Type)
  | queue (α : Type)
  | heap (δ : Type)
  | timer (σ : Type) (cb : σ → Nat → Nat → Nat → Verif.Timer.Prog σ)
  | map (K C V : Type) (dK : DecidableEq K) (dC : DecidableEq C) (dV : DecidableEq V) (k : Verif.Map.Kind K C) (v0 : V)
  | buf
  | str
  | uri

/-- The kind of the container -/
def Lib.kind : Lib → Kind
  | .array sz α => Array.kind sz α
  | .queue α => Queue.kind α
  | .heap δ => Heap.kind δ
  | .timer _ cb => Timer.kind cb
  | .map _ _ _ _ _ _ k v0 => Map.kind k v0
  | .buf => Buf.kind
  | .str => Str.kind
  | .uri => Uri.kind

/-- Elements of arrays have a size of at least one byte, and eight of them fit into memory; the key 0 of a map is
not equal to other keys. -/
def Lib.Ok : Lib → Prop
  | .array sz _ => 0 < sz ∧ 8 * sz ≤ SIZE_MAX
  | .map _ _ _ _ _ _ k _ => Verif.Map.ZeroOk k
  | _ => True

/-- The rules of its API -/
def Lib.rules : (c : Lib) → Rules c.kind
  | .array sz α => Array.rules sz α
  | .queue α => Queue.rules α
  | .heap δ => Heap.rules δ
  | .timer _ cb => Timer.rules cb
  | .map _ _ _ _ _ _ k v0 => Map.rules k v0
  | .buf => Buf.rules
  | .str => Str.rules
  | .uri => Uri.rules

theorem Lib.sound (c : Lib) : c.kind.Sound := by
  cases c with
  | array sz α => exact Array.kind_sound sz α
  | queue α => exact Queue.kind_sound α
  | heap δ => exact Heap.kind_sound δ
  | timer σ cb => exact Timer.kind_sound cb
  | map K C V dK dC dV k v0 => exact Map.kind_sound k v0
  | buf => exact Buf.kind_sound
  | str => exact Str.kind_sound
  | uri => exact Uri.kind_sound

theorem Lib.enough (c : Lib) (h : c.Ok) : ∃ I, c.rules.Enough I := by
  cases c with
  | array sz α => exact ⟨_, Array.rules_enough h.1 h.2⟩
  | queue α => exact ⟨_, Queue.rules_enough⟩
  | heap δ => exact ⟨_, Heap.rules_enough⟩
  | timer σ cb => exact ⟨_, Timer.rules_enough⟩
  | map K C V dK dC dV k v0 => exact ⟨_, Map.rules_enough h⟩
  | buf => exact ⟨_, Buf.rules_enough⟩
  | str => exact ⟨_, Str.rules_enough⟩
  | uri => exact ⟨_, Uri.rules_enough⟩

/-- **C105.** A program with containers of any number of kinds `c i`, any number of each, in one heap. Missing: heaps
with a failed `sc_heap_add`, as in `heap_memory_partial`. -/
theorem mixed_memory_partial {ι : Type} [DecidableEq ι] {c : ι → Lib} (hc : ∀ i, (c i).Ok)
    {as : List (Act (Kind.sum fun i => (c i).kind))}
    (h : (Rules.sum fun i => (c i).rules).Keeps (fun _ => none) as) : RunsTidily (Kind.sum fun i => (c i).kind) as :=
  Rules.runs_tidily (Kind.sum_sound fun i => (c i).sound)
    (Rules.sum_enough (I := fun i => Classical.choose ((c i).enough (hc i)))
      fun i => Classical.choose_spec ((c i).enough (hc i))) h

/-- An array of numbers and a string. -/
def exLib : Bool → Lib
  | true => .array 4 Nat
  | false => .str

/-- Both are made, the array grows, the string is destroyed. -/
def exMixed : List (Act (Kind.sum fun i => (exLib i).kind)) :=
  [.create 0 ⟨true, ()⟩, .create 1 ⟨false, Str.Arg.create (some fun _ => 0) (some [104, 105, 0])⟩,
    .call 0 ⟨true, Verif.Array.Op.add (7 : Nat) (some fun _ => (0 : Nat))⟩, .destroy 1]

example : (∀ i, (exLib i).Ok) ∧ (Rules.sum fun i => (exLib i).rules).Keeps (fun _ => none) exMixed := by
  constructor
  · intro i
    cases i with
    | true => exact ⟨by decide, by decide⟩
    | false => trivial
  refine ⟨fun _ => trivial, fun vs s h => ?_⟩
  cases h
  refine ⟨fun _ => ?_, fun vs s h => ?_⟩
  · intro b hb
    cases hb
    exact ⟨[104, 105], by decide, by decide, by decide⟩
  cases h
  refine ⟨fun v hv => ?_, fun vs s h => ?_⟩
  · cases hv
    exact ⟨rfl, trivial⟩
  cases h
  exact ⟨trivial, fun vs s h => trivial⟩

/-- The block of the string is gone, the one of the array is there. -/
example : ∃ w ss, (World.start (Kind.sum fun i => (exLib i).kind)).run _ exMixed = .ok (w, ss) ∧
    w.st.blk 0 = none ∧ (w.st.blk 1).isSome ∧ w.st.next = 2 :=
  ⟨_, _, rfl, rfl, rfl, rfl⟩

end Verif.Memory
