/-
Model of the ScalarHelper interface (internal/scalar_helpers.h).
-/
import Verif.Model.GGM
import Mathlib.Algebra.Ring.Defs
import Mathlib.Data.Rat.Defs
import Mathlib.Algebra.BigOperators.Group.Finset.Basic

namespace DVO

/-- A statistical security level `s` given as `2^s` (`none` = NaN). The code computes with `s` in
    `double`; the model uses the exact factor, e.g. `log2(total) + s` becomes `total * 2^s`.
    (`double statistical_security_`, scalar_vector_gilboa_product.h:118; all_but_one_random_ot.h:152.) -/
abbrev Sec := Option ℚ

/-- `ScalarHelper<T>` (internal/scalar_helpers.h:37-57): the operations the protocols use, on a
    commutative ring `T`. `canHash f h` is `CanBeHashedInto(log2 f, h)`. -/
class Scalar (T : Type) extends CommRing T where
  sizeOf : Nat
  toU128 : T → Block
  ofU128 : Block → T
  getBit : T → Nat → Bool
  setBit : Nat → T
  canHash : Sec → Nat → Bool

/-- What the protocols rely on. Proved for every concrete type in `Props/Scalar.lean`.
    The contract in the comments of internal/scalar_helpers.h:37-57. -/
class LawfulScalar (T : Type) [Scalar T] : Prop where
  size_pos : 1 ≤ Scalar.sizeOf T
  size_le : Scalar.sizeOf T ≤ 16
  toU128_lt : ∀ x : T, (Scalar.toU128 x).toNat < 2 ^ (8 * Scalar.sizeOf T)
  of_to : ∀ x : T, Scalar.ofU128 (Scalar.toU128 x) = x
  of_zero : (Scalar.ofU128 0 : T) = 0
  bits : ∀ x : T, (∑ k ∈ Finset.range (8 * Scalar.sizeOf T),
    if Scalar.getBit x k then (Scalar.setBit k : T) else 0) = x

/-- Messages on the wire: blocks (GGM keys, hash seeds), vectors of elements, bytes (seeds), and
    sync tokens. Serialisation is not modelled; a message of the wrong kind is `ub`. `closed` stands
    for the exception that reading from a closed connection throws; no program sends it.
    (all_but_one_random_ot.h:223, mpfss_known_indices.cpp:53, spfss_known_index.h:127,
    mpfss_known_indices.h:227, distributed_vector_ole.h:257, 374.) -/
inductive Msg (T : Type)
  | blocks (b : List Block)
  | elems (v : List T)
  | bytes (b : List (BitVec 8))
  | token
  | closed
deriving DecidableEq, Repr

/-- Receive a vector of elements (boost deserialisation into `std::vector<T>`).
    (spfss_known_index.h:160, mpfss_known_indices.h:152, distributed_vector_ole.h:317.) -/
def PM.unElems {T : Type} : Msg T → Out (List T)
  | .elems v => .ok v
  | .closed => .throws "connection closed"
  | _ => .ub "message of wrong type"

/-- Receive a vector of blocks. (all_but_one_random_ot.cpp:99, mpfss_known_indices.cpp:56.) -/
def PM.unBlocks {T : Type} : Msg T → Out (List Block)
  | .blocks v => .ok v
  | .closed => .throws "connection closed"
  | _ => .ub "message of wrong type"

/-- Receive a vector of bytes. (distributed_vector_ole.h:377.) -/
def PM.unBytes {T : Type} : Msg T → Out (List (BitVec 8))
  | .bytes v => .ok v
  | .closed => .throws "connection closed"
  | _ => .ub "message of wrong type"

/-- The physical channel used by the protocol objects: the `comm_channel` itself and the
    `CommChannelEMPAdapter`s of `AllButOneRandomOT` and `ScalarVectorGilboaProduct`. The numbers are
    arbitrary and may coincide: with a measured channel the adapters run over the `comm_channel`
    itself, otherwise over connections of their own (all_but_one_random_ot.cpp:52-54). -/
structure Chans where
  main : Nat
  rot : Nat
  gilboa : Nat
deriving DecidableEq, Repr

end DVO
