/-
Specification for gf128: polynomials over GF(2).
-/
import Verif.Model.GF128
import Mathlib.Algebra.Polynomial.Basic
import Mathlib.Data.ZMod.Basic

namespace DVO.GF128
open Polynomial

/-- Bit `i` of the 128-bit value of an element, least significant first. -/
def bit (a : GF128) (i : Nat) : Bool := if i < 64 then a.v0.getLsbD i else a.v1.getLsbD (i - 64)

/-- The polynomial over GF(2) that an element stands for. -/
noncomputable def poly (a : GF128) : (ZMod 2)[X] := ∑ i ∈ Finset.range 128, if a.bit i then X ^ i else 0

/-- The field polynomial. -/
noncomputable def fieldPoly : (ZMod 2)[X] := X ^ 128 + X ^ 7 + X ^ 2 + X + 1

end DVO.GF128
