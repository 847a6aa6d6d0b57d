/-
Concrete element types: unsigned and signed integers, NTL::ZZ_p and NTL::zz_p.
(gf128 is in Model/GF128.lean.)
-/
import Verif.Model.Scalar
import Mathlib.Data.BitVec
import Mathlib.Data.ZMod.Basic

namespace DVO

/-- `ScalarHelper<T>::CanBeHashedInto` for integers and gf128 (internal/scalar_helpers.h:68-71 and
    91-94): the security parameter is ignored. -/
def canHashInt (sizeOf : Nat) (_sec : Sec) (hashBits : Nat) : Bool := decide (sizeOf * 8 ≤ hashBits)

/-- Unsigned integers of `w` bits, `w` a multiple of 8 (`uint8_t` ... `absl::uint128`):
    internal/scalar_helpers.h:61-77. Arithmetic is modulo `2^w`. -/
@[reducible] def scalarUInt (w : Nat) : Scalar (BitVec w) where
  toCommRing := inferInstance
  sizeOf := w / 8
  toU128 x := x.setWidth 128
  ofU128 b := b.setWidth w
  getBit x k := decide ((x >>> k) &&& 1 ≠ 0)
  setBit k := (1 : BitVec w) <<< k
  canHash := canHashInt (w / 8)

/-- `uint8_t`. internal/scalar_helpers.h:61-77. -/
instance : Scalar (BitVec 8) := scalarUInt 8
/-- `uint16_t`. internal/scalar_helpers.h:61-77. -/
instance : Scalar (BitVec 16) := scalarUInt 16
/-- `uint32_t`. internal/scalar_helpers.h:61-77. -/
instance : Scalar (BitVec 32) := scalarUInt 32
/-- `uint64_t`. internal/scalar_helpers.h:61-77. -/
instance : Scalar (BitVec 64) := scalarUInt 64
/-- `absl::uint128`. internal/scalar_helpers.h:61-77. -/
instance : Scalar (BitVec 128) := scalarUInt 128

/-- Signed integers of `w` bits, with arithmetic taken modulo `2^w` (overflow is the subject of
    C52). (Accepted by internal/scalar_helpers.h:61-77.) -/
def SInt (w : Nat) : Type := BitVec w
/-- The operators `+`, `-`, `*` of a signed type (used with internal/scalar_helpers.h:61-77). -/
instance (w : Nat) : CommRing (SInt w) := inferInstanceAs (CommRing (BitVec w))
/-- `==` of a signed type (used with internal/scalar_helpers.h:61-77). -/
instance (w : Nat) : DecidableEq (SInt w) := inferInstanceAs (DecidableEq (BitVec w))

/-- `ScalarHelper` for signed integers (internal/scalar_helpers.h:61-77): the same template as for
    unsigned ones. `absl::uint128(x)` sign-extends; `x >> k` is an arithmetic shift. -/
@[reducible] def scalarSInt (w : Nat) : Scalar (SInt w) where
  toCommRing := inferInstance
  sizeOf := w / 8
  toU128 x := BitVec.signExtend 128 (x : BitVec w)
  ofU128 b := BitVec.setWidth w b
  getBit x k := decide ((BitVec.sshiftRight (x : BitVec w) k) &&& 1 ≠ 0)
  setBit k := (1 : BitVec w) <<< k
  canHash := canHashInt (w / 8)

/-- `int32_t`. internal/scalar_helpers.h:61-77. -/
instance : Scalar (SInt 32) := scalarSInt 32

/-- Number of bits of `m` (`NTL::NumBits`).
    (Called in internal/ntl_helpers.h:57 and internal/ntl_helpers.cpp:32.) -/
def numBits (m : Nat) : Nat := Nat.size m

/-- `ScalarHelper::SizeOf` of NTL types (internal/scalar_helpers.h:183) with the bit count of
    `NTLNumBits` (internal/ntl_helpers.cpp:26-36, where `NumBits(modulus - 1)` is cached, see C48). -/
def ntlSizeOf (p : Nat) : Nat := (numBits (p - 1) + 7) / 8

/-- `ScalarHelperImpl<..>::CanBeHashedInto` (internal/scalar_helpers.h:124-138 for `ZZ_p` and
    154-163 for `zz_p`). `m` is the modulus truncated to 128 bits. The test
    `hash_bits - log2(rem) > s` is evaluated exactly, as `rem * 2^s < 2^hash_bits`. -/
def canHashMod (m : Nat) (sec : Sec) (hashBits : Nat) : Bool :=
  if m = 0 then true else
  let maxValue := if hashBits < 128 then (2 ^ 128 - 1) / 2 ^ hashBits else 2 ^ 128 - 1
  let rem := (maxValue % m + 1) % m
  match sec with
  | none => false
  | some f => decide ((rem : ℚ) * f < 2 ^ hashBits)

/-- `NTL::ZZ_p` with modulus `p`. (The type of internal/scalar_helpers.h:106-145.) -/
def ZZp (p : Nat) : Type := ZMod p
/-- NTL's operators on `ZZ_p` (used with internal/scalar_helpers.h:106-145). -/
instance (p : Nat) : CommRing (ZZp p) := inferInstanceAs (CommRing (ZMod p))
/-- NTL's `==` on `ZZ_p` (used with internal/scalar_helpers.h:106-145). -/
instance (p : Nat) : DecidableEq (ZZp p) := inferInstanceAs (DecidableEq (ZMod p))

/-- `ScalarHelper<NTL::ZZ_p>` (internal/scalar_helpers.h:106-145 and 174-194). `max_value % modulus
    + 1` is computed in 128 bits and cannot wrap because `modulus < 2^128` there. -/
instance (p : Nat) : Scalar (ZZp p) where
  toCommRing := inferInstance
  sizeOf := ntlSizeOf p
  toU128 x :=
    let rep := ZMod.val (x : ZMod p)
    let low : BitVec 64 := BitVec.ofNat 64 rep
    let high : BitVec 64 := BitVec.ofNat 64 (rep >>> 64)
    high ++ low
  ofU128 b :=
    let high := (b.extractLsb' 64 64).toNat
    let low := (b.extractLsb' 0 64).toNat
    ((((high <<< 64) ||| low : Nat) : ZMod p) : ZMod p)
  getBit x k := (ZMod.val (x : ZMod p)).testBit k
  setBit k := ((1 <<< k : Nat) : ZMod p)
  canHash := canHashMod (p % 2 ^ 128)

/-- `NTL::zz_p` with modulus `p` (NTL requires `p < 2^60`). (The type of internal/scalar_helpers.h:147-171.) -/
def Zzp (p : Nat) : Type := ZMod p
/-- NTL's operators on `zz_p` (used with internal/scalar_helpers.h:147-171). -/
instance (p : Nat) : CommRing (Zzp p) := inferInstanceAs (CommRing (ZMod p))
/-- NTL's `==` on `zz_p` (used with internal/scalar_helpers.h:147-171). -/
instance (p : Nat) : DecidableEq (Zzp p) := inferInstanceAs (DecidableEq (ZMod p))

/-- `ScalarHelper<NTL::zz_p>` (internal/scalar_helpers.h:147-171 and 174-194). `SetBit(k)` shifts a
    `long`: for `k = 63` this is the most negative value, i.e. `-2^63`. (`k` is always less than
    `8 * SizeOf <= 64`, see `C27_zzp_shift`.) -/
instance (p : Nat) : Scalar (Zzp p) where
  toCommRing := inferInstance
  sizeOf := ntlSizeOf p
  toU128 x := BitVec.ofNat 128 (ZMod.val (x : ZMod p))
  ofU128 b := (((b.toNat % p) % 2 ^ 64 : Nat) : ZMod p)
  getBit x k := (ZMod.val (x : ZMod p)).testBit k
  setBit k := (((1#64 <<< k).toInt : Int) : ZMod p)
  canHash := canHashMod p

end DVO
