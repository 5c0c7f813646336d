/-!
# Shared vocabulary of the model

`Res` is the outcome of a piece of C code: a value, or undefined behaviour (out-of-bounds
access, failed `assert`, NULL dereference, signed overflow). Undefined behaviour is an
outcome of its own and is never turned into a default value.
-/

namespace Verif

/-- Outcome of a C computation. -/
inductive Res (α : Type u) where
  /-- the computation is defined and yields `a` -/
  | ok (a : α)
  /-- the computation has undefined behaviour -/
  | ub
  deriving Repr, DecidableEq

namespace Res

@[inline] def bind {α : Type u} {β : Type v} : Res α → (α → Res β) → Res β
  | ok a, f => f a
  | ub, _ => ub

instance : Monad Res where
  pure := ok
  bind := bind

@[simp] theorem pure_eq {α : Type u} (a : α) : (pure a : Res α) = ok a := rfl
@[simp] theorem ok_bind {α β : Type u} (a : α) (f : α → Res β) : (ok a >>= f) = f a := rfl
@[simp] theorem ub_bind {α β : Type u} (f : α → Res β) : ((ub : Res α) >>= f) = ub := rfl
@[simp] theorem bind_ok' {α : Type u} {β : Type v} (a : α) (f : α → Res β) :
    (ok a).bind f = f a := rfl
@[simp] theorem bind_ub' {α : Type u} {β : Type v} (f : α → Res β) :
    (ub : Res α).bind f = ub := rfl

theorem bind_eq_ok {α β : Type u} {x : Res α} {f : α → Res β} {b : β} :
    (x >>= f) = ok b ↔ ∃ a, x = ok a ∧ f a = ok b := by
  cases x <;> simp

theorem bind_eq_ub {α β : Type u} {x : Res α} {f : α → Res β} :
    (x >>= f) = ub ↔ x = ub ∨ ∃ a, x = ok a ∧ f a = ub := by
  cases x <;> simp

@[simp] theorem map_ok {α β : Type u} (a : α) (f : α → β) : f <$> (ok a) = ok (f a) := rfl
@[simp] theorem map_ub {α β : Type u} (f : α → β) : f <$> (ub : Res α) = ub := rfl

/-- The computation is defined. -/
def Defined {α : Type u} (r : Res α) : Prop := ∃ a, r = ok a

instance : LawfulMonad Res := LawfulMonad.mk'
  (id_map := by intro α x; cases x <;> rfl)
  (pure_bind := by intros; rfl)
  (bind_assoc := by intro α β γ x f g; cases x <;> rfl)

end Res

/-- Read cell `i` of a memory block; out of bounds is undefined behaviour. -/
def rd (m : List α) (i : Nat) : Res α :=
  match m[i]? with
  | some a => .ok a
  | none => .ub

/-- Write cell `i` of a memory block; out of bounds is undefined behaviour. -/
def wr (m : List α) (i : Nat) (a : α) : Res (List α) :=
  if i < m.length then .ok (m.set i a) else .ub

/-- `assert(c)`. -/
def cassert (c : Bool) : Res Unit := if c then .ok () else .ub

theorem rd_eq_ok {m : List α} {i : Nat} {a : α} : rd m i = .ok a ↔ m[i]? = some a := by
  unfold rd; split <;> simp_all

theorem rd_lt {m : List α} {i : Nat} (h : i < m.length) : rd m i = .ok m[i] := by
  rw [rd_eq_ok]; simp [h]

theorem rd_eq_ub {m : List α} {i : Nat} : rd m i = .ub ↔ m.length ≤ i := by
  unfold rd; split
  · next h => have := (List.getElem?_eq_some_iff.1 h).1; simp; omega
  · next h => simpa using h

theorem wr_lt {m : List α} {i : Nat} {a : α} (h : i < m.length) :
    wr m i a = .ok (m.set i a) := by simp [wr, h]

theorem wr_eq_ok {m : List α} {i : Nat} {a : α} {m' : List α} :
    wr m i a = .ok m' ↔ i < m.length ∧ m' = m.set i a := by
  unfold wr; split
  · simp_all [eq_comm]
  · simp; omega

theorem wr_eq_ub {m : List α} {i : Nat} {a : α} : wr m i a = .ub ↔ m.length ≤ i := by
  unfold wr; split <;> simp_all

@[simp] theorem cassert_true : cassert true = .ok () := rfl
@[simp] theorem cassert_false : cassert false = .ub := rfl

/-- Outcome of an allocation call: `none` = NULL, `some fill` = a block whose cells that
the C standard leaves indeterminate hold `fill i`. Quantifying over it covers every
allocator behaviour. -/
abbrev Alloc (α : Type u) := Option (Nat → α)

/-- A block of `n` cells of which the first ones are copied from `old` (`realloc`, C11
7.22.3.5), the rest indeterminate. -/
def resized (old : List α) (n : Nat) (fill : Nat → α) : List α :=
  List.ofFn (n := n) fun i => (old[i.val]?).getD (fill i.val)

@[simp] theorem length_resized (old : List α) (n : Nat) (fill : Nat → α) :
    (resized old n fill).length = n := by simp [resized]

theorem resized_getElem? {old : List α} {n i : Nat} {fill : Nat → α} (h : i < n) :
    (resized old n fill)[i]? = some ((old[i]?).getD (fill i)) := by
  simp [resized, h]

theorem resized_take {old : List α} {n k : Nat} {fill : Nat → α} (h : k ≤ n)
    (ho : k ≤ old.length) : (resized old n fill).take k = old.take k := by
  apply List.ext_getElem?
  intro i
  by_cases hi : i < k
  · rw [List.getElem?_take_of_lt hi, List.getElem?_take_of_lt hi, resized_getElem? (by omega)]
    simp [List.getElem?_eq_getElem (show i < old.length by omega)]
  · simp [List.getElem?_take, hi]

/-- `SIZE_MAX` / `UINT64_MAX`. -/
notation "SIZE_MAX" => (18446744073709551615 : Nat)
/-- 2^64 -/
notation "W64" => (18446744073709551616 : Nat)
/-- 2^32 -/
notation "W32" => (4294967296 : Nat)

/-- Unsigned 64-bit subtraction. -/
def sub64 (a b : Nat) : Nat := (a + W64 - b) % W64
/-- Unsigned 64-bit addition. -/
def add64 (a b : Nat) : Nat := (a + b) % W64
/-- Unsigned 64-bit multiplication. -/
def mul64 (a b : Nat) : Nat := (a * b) % W64

end Verif
