/-
Arithmetic on elements of built-in integer types with the integer promotions of C++ ([conv.prom],
[expr.arith.conv]) for a 32-bit `int`. The rest of the model computes modulo `2^w`.
-/
import Verif.Model.ScalarTypes
import Verif.Model.MPFSS
import Verif.Model.Gilboa
import Verif.Model.VOLE

namespace DVO.Promotion

/-- The value `v` of an arithmetic operation on two operands of an unsigned type of `w` bits, assigned
    to an element of that type (e.g. gilboa_internal.h:54, mpfss_known_indices.h:154). Types narrower
    than `int` are promoted to `int`, where results outside the range are undefined; the others compute
    modulo `2^w`. -/
def unsigned (w : Nat) (v : Int) : Out (BitVec w) :=
  if w < 32 ∧ (v < -2 ^ 31 ∨ 2 ^ 31 ≤ v) then .ub "signed integer overflow" else .ok (BitVec.ofInt w v)

/-- The same for a signed type of at most 64 bits. Results outside the range of the promoted type are
    undefined (e.g. gilboa_internal.h:54 with `T = int32_t`). -/
def signed (w : Nat) (v : Int) : Out (BitVec w) :=
  if v < -2 ^ (max w 32 - 1) ∨ 2 ^ (max w 32 - 1) ≤ v then .ub "signed integer overflow" else .ok (BitVec.ofInt w v)

/-- `a * b` for unsigned types (gilboa_internal.h:54, mpfss_known_indices.h:154,
    distributed_vector_ole.h:462-464, 493). -/
def mul {w : Nat} (a b : BitVec w) : Out (BitVec w) := unsigned w ((a.toNat : Int) * (b.toNat : Int))

/-- `a + b` for unsigned types (gilboa_internal.h:108, mpfss_known_indices.h:221). -/
def add {w : Nat} (a b : BitVec w) : Out (BitVec w) := unsigned w ((a.toNat : Int) + (b.toNat : Int))

/-- `a - b` for unsigned types (scalar_vector_gilboa_product.h:167, mpfss_known_indices.h:154). -/
def sub {w : Nat} (a b : BitVec w) : Out (BitVec w) := unsigned w ((a.toNat : Int) - (b.toNat : Int))

/-- `a * b` for signed types (gilboa_internal.h:54). -/
def smul {w : Nat} (a b : BitVec w) : Out (BitVec w) := signed w (a.toInt * b.toInt)

/-- `a + b` for signed types (gilboa_internal.h:108). -/
def sadd {w : Nat} (a b : BitVec w) : Out (BitVec w) := signed w (a.toInt + b.toInt)

/-- `y_masked * x - w` (mpfss_known_indices.h:153-154) for an unsigned type. Eigen's product with a scalar returns
    an element of type `T`. -/
def valueShares {w : Nat} (x : BitVec w) (yMasked ws : List (BitVec w)) : Out (List (BitVec w)) :=
  if yMasked.length ≠ ws.length then .ub "Eigen size mismatch" else
  VOLE.mapOut (fun p => do
    let m ← mul p.1 x
    sub m p.2) (yMasked.zip ws)

/-- `SpanToEMPBlock` (gilboa_internal.h:48-63) for an unsigned type. -/
def spanToBlock {w : Nat} (v : List (BitVec w)) (multiplier : BitVec w) : Out Block := do
  let packed ← loop (fun k packed => do
    let i := v.length - 1 - k
    let x ← rd v i
    let temp ← mul x multiplier
    let packed : Block := packed ||| temp.setWidth 128
    if i > 0 then
      if w / 8 * 8 ≥ 128 then .ub "shift" else .ok (packed <<< (w / 8 * 8))
    else .ok packed) 0 v.length (0 : Block)
  .ok (Gilboa.makeBlock packed)

/-- The product of a row vector with a column of the code generator (distributed_vector_ole.h:462, 464,
    493) for an unsigned type. -/
def colDot {w : Nat} (u : List (BitVec w)) : List (Nat × BitVec w) → Out (BitVec w)
  | [] => .ok 0
  | (r, x) :: l => do
    let a ← rd u r
    let m ← mul a x
    let rest ← colDot u l
    add m rest

end DVO.Promotion
