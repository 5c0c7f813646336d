import Mathlib.Algebra.Polynomial.Div
import Mathlib.Data.ZMod.Basic

/-!
# CRC-32C

The definition of the CRC with polynomials over the field with two elements. Bits are taken in
the order in which the CRC looks at them: the least significant bit of each byte first; the
first bit is the coefficient of the highest power.
-/

namespace Verif.Crc

open Polynomial

/-- A coefficient. -/
noncomputable def coef (b : Bool) : (ZMod 2)[X] := if b then 1 else 0

/-- The polynomial with the given coefficients, the highest power first. -/
noncomputable def poly : List Bool → (ZMod 2)[X]
  | [] => 0
  | b :: l => coef b * X ^ l.length + poly l

/-- The bits of a word, the least significant first. -/
def bitsOf {w : Nat} (v : BitVec w) : List Bool := (List.range w).map v.getLsbD

/-- The bits of a message. -/
def bits (data : List UInt8) : List Bool := data.flatMap fun b => bitsOf b.toBitVec

/-- The generator of CRC-32C (Castagnoli), 0x1EDC6F41. -/
noncomputable def G : (ZMod 2)[X] :=
  X ^ 32 + X ^ 28 + X ^ 27 + X ^ 26 + X ^ 25 + X ^ 23 + X ^ 22 + X ^ 20 + X ^ 19 + X ^ 18 + X ^ 14 +
    X ^ 13 + X ^ 11 + X ^ 10 + X ^ 9 + X ^ 8 + X ^ 6 + 1

/-- `r` is the CRC-32C of `data`, continued from the CRC `c` (0 at the start): the remainder of
the message times `X ^ 32`, the initial value added at the front of the message; initial value
and result are complemented. -/
def IsCrc (c : BitVec 32) (data : List UInt8) (r : BitVec 32) : Prop :=
  poly (bitsOf (~~~ r)) =
    (poly (bits data) * X ^ 32 + poly (bitsOf (~~~ c)) * X ^ (8 * data.length)) %ₘ G

/-- The number of positions in which two lists of bits differ. -/
def hamming : List Bool → List Bool → Nat
  | a :: l, b :: m => (if a = b then 0 else 1) + hamming l m
  | _, _ => 0

/-- What is sent: the bits of the message, then those of the CRC, the least significant bit
of each byte first. -/
def sent (d : List UInt8) (r : BitVec 32) : List Bool := bits d ++ bitsOf r

end Verif.Crc
