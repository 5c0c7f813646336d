import Verif.Array.Props

/-! # The arguments of the array macros

The macros paste the text of their arguments. A call is modelled with the expression that is its argument, in the scope the macro puts it into. -/

namespace Verif.Array

/-- An expression a program may pass to a macro for arrays of `uint64_t`; the accessors are those of the same array. -/
inductive Expr where
  | num (n : Nat)
  | var (x : String)
  | size
  | last
  | at (e : Expr)
  | plus (e f : Expr)
  | minus (e f : Expr)

/-- What the variables of the program hold; `none` if nothing was stored. -/
abbrev Env := String → Option Nat

/-- The value of an expression; reading a variable that holds nothing is undefined. The accessors: `sc_array_size`, `sc_array_last`, `sc_array_at`,
array/sc_array.h:137, 143, 201. -/
def eval (env : Env) (a : Arr Nat) : Expr → Res Nat
  | .num n => .ok n
  | .var x => match env x with
    | none => .ub
    | some v => .ok v
  | .size => .ok a.size
  | .last => last a
  | .at e => do let i ← eval env a e; «at» a i
  | .plus e f => do let x ← eval env a e; let y ← eval env a f; return add64 x y
  | .minus e f => do let x ← eval env a e; let y ← eval env a f; return sub64 x y

/-- The expression reads the member `size`. -/
def Expr.readsSize : Expr → Bool
  | .num _ => false
  | .var _ => false
  | .size => true
  | .last => true
  | .at e => e.readsSize
  | .plus e f => e.readsSize || f.readsSize
  | .minus e f => e.readsSize || f.readsSize

/-- The variables in an expression -/
def Expr.vars : Expr → List String
  | .num _ => []
  | .var x => [x]
  | .size => []
  | .last => []
  | .at e => e.vars
  | .plus e f => e.vars ++ f.vars
  | .minus e f => e.vars ++ f.vars

/-- A variable declared in an inner block -/
def Env.decl (env : Env) (x : String) (v : Option Nat) : Env := fun y => if y = x then v else env y

/-- `sc_array_add(a, e)`, array/sc_array.h:89-112: `e` is in the scope of `_max`, `_cap` and `_p`, is evaluated after the growth, and is unsequenced with
`size++`, so that reading `size` in it is undefined (C11 6.5p2). `_p` is a pointer, its value is not modelled. -/
def addMacro (sz : Nat) (al : Alloc Nat) (a : Arr Nat) (env : Env) (e : Expr) : Res (Arr Nat) :=
  let max := SIZE_MAX / sz
  let env := ((env.decl "_max" (some max)).decl "_cap" none).decl "_p" none
  if a.cap = a.size then
    if a.cap > max / 2 then
      .ok { a with oom := true }
    else
      let cap := if a.cap = 0 then 8 else mul64 a.cap 2
      match al with
      | none => .ok { a with oom := true }
      | some fill =>
        let a := { a with oom := false, cap := cap, elems := resized a.elems (room (mul64 cap sz) sz) fill }
        if e.readsSize then .ub
        else do
          let k ← eval (env.decl "_cap" (some cap)) a e
          let elems ← wr a.elems a.size k
          return { a with size := a.size + 1, elems := elems }
  else
    let a := { a with oom := false }
    if e.readsSize then .ub
    else do
      let k ← eval env a e
      let elems ← wr a.elems a.size k
      return { a with size := a.size + 1, elems := elems }

/-- `sc_array_del(a, e)`, array/sc_array.h:149-160: `size_t idx = (e)` declares `idx`, which holds nothing yet, before `e`. -/
def delMacro (a : Arr Nat) (env : Env) (e : Expr) : Res (Arr Nat) := do
  let i ← eval (env.decl "idx" none) a e
  del a i

/-- `sc_array_del_unordered(a, e)`, array/sc_array.h:172-177, likewise. -/
def delUnorderedMacro (a : Arr Nat) (env : Env) (e : Expr) : Res (Arr Nat) := do
  let i ← eval (env.decl "idx" none) a e
  delUnordered a i

theorem eval_decl (env : Env) (a : Arr Nat) (x : String) (v : Option Nat) : ∀ {e : Expr}, x ∉ e.vars → eval (env.decl x v) a e = eval env a e := by
  intro e
  induction e with
  | num n => intro _; rfl
  | var y =>
    intro h
    have : y ≠ x := by simpa [Expr.vars, eq_comm] using h
    simp [eval, Env.decl, this]
  | size => intro _; rfl
  | last => intro _; rfl
  | «at» e ih => intro h; simp only [eval, ih h]
  | plus e f ih jh =>
    intro h
    simp only [Expr.vars, List.mem_append, not_or] at h
    simp only [eval, ih h.1, jh h.2]
  | minus e f ih jh =>
    intro h
    simp only [Expr.vars, List.mem_append, not_or] at h
    simp only [eval, ih h.1, jh h.2]

theorem eval_grown (env : Env) {a a' : Arr Nat} (h : ∀ (i v : Nat), a.elems[i]? = some v → a'.elems[i]? = some v) : ∀ {e : Expr} {v : Nat}, e.readsSize = false →
    eval env a e = .ok v → eval env a' e = .ok v := by
  intro e
  induction e with
  | num n => intro v _ hv; exact hv
  | var y => intro v _ hv; exact hv
  | size => intro v hr; cases hr
  | last => intro v hr; cases hr
  | «at» e ih =>
    intro v hr hv
    obtain ⟨i, h1, h2⟩ := Res.bind_eq_ok.1 hv
    simp only [eval, ih hr h1, Res.ok_bind]
    exact rd_eq_ok.2 (h _ _ (rd_eq_ok.1 h2))
  | plus e f ih jh =>
    intro v hr hv
    simp only [Expr.readsSize, Bool.or_eq_false_iff] at hr
    obtain ⟨x, h1, h2⟩ := Res.bind_eq_ok.1 hv
    obtain ⟨y, h3, h4⟩ := Res.bind_eq_ok.1 h2
    simp only [eval, ih hr.1 h1, jh hr.2 h3, Res.ok_bind]
    exact h4
  | minus e f ih jh =>
    intro v hr hv
    simp only [Expr.readsSize, Bool.or_eq_false_iff] at hr
    obtain ⟨x, h1, h2⟩ := Res.bind_eq_ok.1 hv
    obtain ⟨y, h3, h4⟩ := Res.bind_eq_ok.1 h2
    simp only [eval, ih hr.1 h1, jh hr.2 h3, Res.ok_bind]
    exact h4

/-- **C127 (part).** Adding an expression to an array adds the value the expression had before the call, if it does not read the size of the array and uses no
variable named like those of the macro. -/
theorem array_add_arg_partial {sz : Nat} (hsz : 0 < sz) (h8 : 8 * sz ≤ SIZE_MAX) {a : Arr Nat} (w : WF sz a) (al : Alloc Nat) {env : Env} {e : Expr} {v : Nat}
    (hv : eval env a e = .ok v) (hr : e.readsSize = false) (hx : ∀ x ∈ e.vars, x ≠ "_max" ∧ x ≠ "_cap" ∧ x ≠ "_p") :
    addMacro sz al a env e = add sz al a v := by
  have n1 : "_max" ∉ e.vars := fun h => (hx _ h).1 rfl
  have n2 : "_cap" ∉ e.vars := fun h => (hx _ h).2.1 rfl
  have n3 : "_p" ∉ e.vars := fun h => (hx _ h).2.2 rfl
  unfold addMacro add
  by_cases hfull : a.cap = a.size
  · by_cases hmax : a.cap > SIZE_MAX / sz / 2
    · simp only [if_pos hfull, if_pos hmax]
    · cases al with
      | none => simp only [if_pos hfull, if_neg hmax]
      | some fill =>
        simp only [if_pos hfull, if_neg hmax, hr, Bool.false_eq_true, if_false]
        obtain ⟨hcap, hbytes⟩ := grow_bytes hsz h8 hmax
        have hev : ∀ a' : Arr Nat, (∀ (i v : Nat), a.elems[i]? = some v → a'.elems[i]? = some v) → ∀ c : Option Nat,
            eval (((((env.decl "_max" (some (SIZE_MAX / sz))).decl "_cap" none).decl "_p" none)).decl "_cap" c) a' e = .ok v := by
          intro a' h' c
          rw [eval_decl _ _ _ _ n2, eval_decl _ _ _ _ n3, eval_decl _ _ _ _ n2, eval_decl _ _ _ _ n1]
          exact eval_grown env h' hr hv
        rw [hev]
        · rfl
        · intro i x hi
          simp only
          have hlt := (List.getElem?_eq_some_iff.1 hi).1
          rw [hcap, room_eq hsz hbytes]
          rw [resized_getElem? (by rw [w.len] at hlt; split <;> omega), hi]
          rfl
  · simp only [if_neg hfull, hr, Bool.false_eq_true, if_false]
    rw [eval_decl _ _ _ _ n3, eval_decl _ _ _ _ n2, eval_decl _ _ _ _ n1, eval_grown env (a := a) (a' := { a with oom := false }) (fun _ _ h => h) hr hv]
    rfl

/-- **C127 (part).** Deleting the element an expression gives deletes the one it gave before the call, if it has no variable `idx`. -/
theorem array_del_arg_partial {a : Arr Nat} {env : Env} {e : Expr} {v : Nat} (hv : eval env a e = .ok v) (hx : "idx" ∉ e.vars) :
    delMacro a env e = del a v ∧ delUnorderedMacro a env e = delUnordered a v := by
  unfold delMacro delUnorderedMacro
  rw [eval_decl _ _ _ _ hx, hv]
  exact ⟨rfl, rfl⟩

/-- **C127 is violated**: deleting with a variable `idx` is undefined, for every array and whatever the variable holds. -/
theorem array_del_arg_violated (a : Arr Nat) (env : Env) : delMacro a env (.var "idx") = .ub ∧ delUnorderedMacro a env (.var "idx") = .ub := by
  simp [delMacro, delUnorderedMacro, eval, Env.decl, Res.ub_bind]

/-- **C127 is violated**: adding the last element or the size of an array to it is undefined, unless memory is missing. -/
theorem array_add_arg_violated {sz : Nat} (fill : Nat → Nat) {a : Arr Nat} (hs : a.size * 2 ≤ SIZE_MAX / sz) (env : Env) :
    addMacro sz (some fill) a env .last = .ub ∧ addMacro sz (some fill) a env .size = .ub := by
  have h : ∀ e : Expr, e.readsSize = true → addMacro sz (some fill) a env e = .ub := by
    intro e he
    unfold addMacro
    simp only [he, if_true]
    by_cases hfull : a.cap = a.size
    · rw [if_pos hfull, if_neg (by omega)]
    · rw [if_neg hfull]
  exact ⟨h _ rfl, h _ rfl⟩

/-! ## Examples -/

/-- `sc_array_add(&a, sc_array_at(&a, 0) + i)` when the array is full: the memory moves and the element is still read. -/
example : (addMacro 8 (some fun _ => 0) ⟨false, 8, 8, [7, 1, 2, 3, 4, 5, 6, 7]⟩ (fun x => if x = "i" then some 3 else none) (.plus (.at (.num 0)) (.var "i"))) =
    .ok ⟨false, 16, 9, [7, 1, 2, 3, 4, 5, 6, 7, 10, 0, 0, 0, 0, 0, 0, 0]⟩ := by with_unfolding_all rfl

/-- `sc_array_del(&a, sc_array_size(&a) - 2)` -/
example : (delMacro ⟨false, 8, 3, [7, 8, 9, 0, 0, 0, 0, 0]⟩ (fun _ => none) (.minus .size (.num 2))) = .ok ⟨false, 8, 2, [7, 9, 9, 0, 0, 0, 0, 0]⟩ := by
  with_unfolding_all rfl

/-- The hypotheses of `array_add_arg_violated` are met. -/
example : addMacro 8 (some fun _ => 0) ⟨false, 8, 1, [7, 0, 0, 0, 0, 0, 0, 0]⟩ (fun _ => none) .last = .ub ∧
    last (α := Nat) ⟨false, 8, 1, [7, 0, 0, 0, 0, 0, 0, 0]⟩ = .ok 7 :=
  ⟨(array_add_arg_violated (sz := 8) _ (by decide) _).1, by with_unfolding_all rfl⟩

end Verif.Array
