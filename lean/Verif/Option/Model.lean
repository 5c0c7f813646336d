import Verif.CLib

/-!
# Model of option/sc_option.c

Each element of `argv` and each name is a block of memory that holds a C string. A pointer into
an argument is an index into its block.
-/

namespace Verif.Opt

/-- `struct sc_option_item`, option/sc_option.h:40-43; `none` is a NULL name. -/
structure Item where
  letter : UInt8
  name : Option (List UInt8)
  deriving DecidableEq, Repr

/-- The loop over the options for `-x`, option/sc_option.c:52-60: the letter and the index of
the value. `strchr("= \0", c)` finds `=`, the space and the terminator. -/
def shortLoop (mem : List UInt8) (pos : Nat) : List Item → Res (Option (UInt8 × Nat))
  | [] => .ok none
  | o :: os => do
    let c ← rd mem pos
    if c = o.letter then do
      let d ← rd mem (pos + 1)
      if d = 61 ∨ d = 32 ∨ d = 0 then
        .ok (some (c, pos + 1 + (if d ≠ 61 then 0 else 1)))
      else shortLoop mem pos os
    else shortLoop mem pos os

/-- The loop to the end of a long name, option/sc_option.c:62-64. -/
def scan (mem : List UInt8) : (fuel pos : Nat) → Res Nat
  | 0, _ => .ub
  | fuel + 1, pos => do
    let c ← rd mem pos
    if c ≠ 0 ∧ c ≠ 61 then scan mem fuel (pos + 1) else .ok pos

/-- The loop over the options for `--name`, option/sc_option.c:66-81. -/
def longLoop (mem : List UInt8) (pos : Nat) : List Item → Res (Option (UInt8 × Nat))
  | [] => .ok none
  | o :: os => do
    let len := pos - 2
    match o.name with
    | none => longLoop mem pos os
    | some name => do
      let n ← strlen name 0
      if len = n then do
        let same ← memcmpEq name (mem.drop 2) len
        if same then do
          let c ← rd mem pos
          .ok (some (o.letter, pos + (if c ≠ 61 then 0 else 1)))
        else longLoop mem pos os
      else longLoop mem pos os

/-- `sc_option_at`, option/sc_option.c:36-85: the result and the index of the value in the
argument, `none` for NULL. `options` has `count` elements. -/
def optionAt (options : List Item) (argv : List (List UInt8)) (index : Nat) :
    Res (UInt8 × Option Nat) := do
  let mem ← rd argv index
  let c ← rd mem 0
  if c ≠ 45 then .ok (63, none)
  else do
    let c ← rd mem 1
    let r ← (if c ≠ 45 then shortLoop mem 1 options
      else do
        let pos ← scan mem (mem.length + 1) 1
        longLoop mem pos options)
    match r with
    | none => .ok (63, none)
    | some (id, v) => .ok (id, some v)

end Verif.Opt
