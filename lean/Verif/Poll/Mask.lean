import Verif.Poll.Spec

/-! # Masks as the code has them -/

namespace Verif.Poll

open Spec (Ev Mask norm nothing)

/-- `enum sc_sock_ev`, socket/sc_sock.h:65-71. Only the three bits that have names are modelled. -/
abbrev Bits := BitVec 3

def NONE : Bits := 0#3
def READ : Bits := 1#3
def WRITE : Bits := 2#3
def EDGE : Bits := 4#3

/-- The set that bits stand for -/
def Bits.mask (b : Bits) : Mask
  | .read => b &&& READ != 0
  | .write => b &&& WRITE != 0
  | .edge => b &&& EDGE != 0

/-- `if (new_mask == SC_SOCK_EDGE) new_mask = SC_SOCK_NONE;`, socket/sc_sock.c:1174-1176, 1233-1235,
1379-1381, 1428-1430 and 1811-1813. -/
def dropEdge (b : Bits) : Bits := if b = EDGE then NONE else b

theorem mask_add (a b : Bits) : (dropEdge (a ||| b)).mask = norm (a.mask.union b.mask) := by
  funext e
  cases e <;> revert a b <;> decide

theorem mask_del (a b : Bits) : (dropEdge (a &&& ~~~b)).mask = norm (a.mask.diff b.mask) := by
  funext e
  cases e <;> revert a b <;> decide

theorem mask_inj {a b : Bits} (h : a.mask = b.mask) : a = b := by
  have h1 := congrFun h .read
  have h2 := congrFun h .write
  have h3 := congrFun h .edge
  clear h
  revert h1 h2 h3
  revert a b
  decide

theorem mask_none : NONE.mask = nothing := by funext e; cases e <;> decide

/-- A normalised mask -/
def Bits.Normal (b : Bits) : Prop := b ≠ EDGE

theorem dropEdge_normal (b : Bits) : (dropEdge b).Normal := by
  revert b; unfold Bits.Normal; decide

end Verif.Poll
