import Verif.Map.Model

/-! # What a map is supposed to do: a finite map from keys to values

Keys are compared by `cls` (the key itself, or the content of a string), so the abstract
map is a partial function on `C`. -/

namespace Verif.Map.Spec

/-- A finite map, as a partial function. -/
abbrev FMap (C V : Type) := C → Option V

def empty : FMap C V := fun _ => none

/-- `f` with the entry `c ↦ v`. -/
def upd [DecidableEq C] (f : FMap C V) (c : C) (v : V) : FMap C V :=
  fun c' => if c' = c then some v else f c'

/-- `f` without the key `c`. -/
def rem [DecidableEq C] (f : FMap C V) (c : C) : FMap C V :=
  fun c' => if c' = c then none else f c'

/-- `l` lists the entries of `f`, each key once. -/
def Enumerates (f : FMap C V) (l : List (C × V)) : Prop :=
  (l.map Prod.fst).Nodup ∧ ∀ c v, (c, v) ∈ l ↔ f c = some v

/-- `f` has at least `n` keys. -/
def AtLeast (f : FMap C V) (n : Nat) : Prop :=
  ∃ keys : List C, keys.Nodup ∧ n ≤ keys.length ∧ ∀ c ∈ keys, (f c).isSome = true

/-- One operation on the map `f`. `v0` is the value returned for absent keys. A put may
fail only when the allocator fails or the map already has 2^29 entries. `found` after a
failed put or a clear, and `oom` after anything but a put, are whatever they were. -/
inductive Step [DecidableEq C] (cls : K → C) (v0 : V) :
    FMap C V → Op K V → Out V → FMap C V → Prop where
  | put (f key v al) :
      Step cls v0 f (.put key v al) ⟨some ((f (cls key)).getD v0), (f (cls key)).isSome, false⟩
        (upd f (cls key) v)
  | put_oom (f key v al found) (h : al = false ∨ AtLeast f 536870912) :
      Step cls v0 f (.put key v al) ⟨some v0, found, true⟩ f
  | get (f key oom) :
      Step cls v0 f (.get key) ⟨some ((f (cls key)).getD v0), (f (cls key)).isSome, oom⟩ f
  | del (f key oom) :
      Step cls v0 f (.del key) ⟨some ((f (cls key)).getD v0), (f (cls key)).isSome, oom⟩
        (rem f (cls key))
  | clear (f found oom) : Step cls v0 f .clear ⟨none, found, oom⟩ empty

/-- A history of operations. -/
inductive Run [DecidableEq C] (cls : K → C) (v0 : V) :
    FMap C V → List (Op K V) → List (Out V) → FMap C V → Prop where
  | nil (f) : Run cls v0 f [] [] f
  | cons {f op o f' ops os f''} :
      Step cls v0 f op o f' → Run cls v0 f' ops os f'' → Run cls v0 f (op :: ops) (o :: os) f''

/-- Going through a list with a body that may `break`. -/
def walk (body : σ → K → V → σ × Bool) : σ → List (K × V) → σ
  | s, [] => s
  | s, (key, v) :: l =>
    let (s', brk) := body s key v
    if brk then s' else walk body s' l

end Verif.Map.Spec
