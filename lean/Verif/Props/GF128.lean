/-
Properties C44-C47 (gf128) and the gf128 cases of C23, C27 and C57.
-/
import Verif.Proofs.GF128d
import Verif.Props.Gilboa

namespace DVO.GF128
open Polynomial

/-! ### C44 -/

/-- C44: the operators satisfy the laws of a commutative ring. -/
theorem C44_ring (a b c : GF128) :
    add a b = add b a ∧ add (add a b) c = add a (add b c) ∧ add zero a = a ∧ add a (neg a) = zero ∧
    sub a b = add a (neg b) ∧
    mul a b = mul b a ∧ mul (mul a b) c = mul a (mul b c) ∧ mul one a = a ∧
    mul a (add b c) = add (mul a b) (mul a c) ∧ zero ≠ one ∧ square a = mul a a :=
  ⟨add_comm a b, add_assoc a b c, zero_add a, add_neg_cancel a, sub_eq_add_neg a b, mul_comm a b, mul_assoc a b c,
    one_mul a, mul_add a b c, zero_ne_one', rfl⟩

/-- C44 for the build without `USE_ASM`. -/
theorem C44_ring_portable (a b c : GF128) :
    mulPortable a b = mulPortable b a ∧ mulPortable (mulPortable a b) c = mulPortable a (mulPortable b c) ∧
    mulPortable one a = a ∧ mulPortable a (add b c) = add (mulPortable a b) (mulPortable a c) := by
  have e : ∀ x y, mulPortable x y = mul x y := fun x y => cls_injective (by rw [cls_mulPortable, cls_mul])
  simp only [e]
  exact ⟨mul_comm a b, mul_assoc a b c, one_mul a, mul_add a b c⟩

/-- C44: conversion to and from 128-bit integers is a bijection, addition is xor; the words are the
    halves of the integer; `==` and `is_zero` are equality. -/
theorem C44_conversions :
    (∀ a : GF128, ofU128 (toU128 a) = a) ∧ (∀ x, toU128 (ofU128 x) = x) ∧
    (∀ a b, toU128 (add a b) = toU128 a ^^^ toU128 b) ∧
    (∀ a, asWords a = [(toU128 a).setWidth 64, (toU128 a >>> 64).setWidth 64]) ∧
    (∀ h l, toU128 (ofHighLow h l) = h ++ l) ∧ (∀ l, toU128 (ofLow l) = l.setWidth 128) ∧
    toU128 zero = 0 ∧ toU128 one = 1 ∧
    (∀ a b : GF128, eq a b = true ↔ a = b) ∧ (∀ a : GF128, isZero a = true ↔ a = zero) := by
  refine ⟨of_to, to_of, ?_, ?_, fun _ _ => rfl, ?_, by decide, by decide, ?_, ?_⟩
  · intro a b
    apply BitVec.eq_of_getLsbD_eq
    intro i hi
    simp only [toU128, add, BitVec.getLsbD_xor, BitVec.getLsbD_append]
    split <;> simp
  · rintro ⟨a0, a1⟩
    simp only [asWords, toU128, List.cons.injEq, and_true]
    constructor
    · apply BitVec.eq_of_getLsbD_eq
      intro i hi
      simp only [BitVec.getLsbD_setWidth, BitVec.getLsbD_append, hi, decide_true, Bool.true_and, if_true]
    · apply BitVec.eq_of_getLsbD_eq
      intro i hi
      simp only [BitVec.getLsbD_setWidth, BitVec.getLsbD_ushiftRight, BitVec.getLsbD_append, hi, decide_true, Bool.true_and,
        show ¬ 64 + i < 64 by omega, decide_false, if_false, Nat.add_sub_cancel_left, Bool.false_eq_true]
  · intro l
    apply BitVec.eq_of_getLsbD_eq
    intro i hi
    simp only [toU128, ofLow, BitVec.getLsbD_setWidth, BitVec.getLsbD_append, hi, decide_true, Bool.true_and]
    by_cases h : i < 64
    · simp [h]
    · rw [BitVec.getLsbD_of_ge l i (by omega)]; simp [h]
  · rintro ⟨a0, a1⟩ ⟨b0, b1⟩
    simp [eq]
  · rintro ⟨a0, a1⟩
    simp [isZero, zero, ofLow]

/-! ### C45 -/

/-- C45: both multiplications return the product of the polynomials modulo the field polynomial
    (`fieldPoly = X^128 + X^7 + X^2 + X + 1`, see Spec/GF128.lean). -/
theorem C45_product (a b : GF128) :
    poly (mulAsm a b) = (poly a * poly b) %ₘ fieldPoly ∧
    poly (mulPortable a b) = (poly a * poly b) %ₘ fieldPoly := by
  exact ⟨poly_of_cls (cls_mulAsm a b), poly_of_cls (cls_mulPortable a b)⟩

/-- A product that needs reduction in both halves: `X^127 * X^127`. -/
example : mulAsm ⟨0, 1 <<< 63⟩ ⟨0, 1 <<< 63⟩ = ⟨0x1067, 0xC000000000000000⟩ := by decide +kernel

/-- C45: the two implementations agree. -/
theorem C45_implementations_agree (a b : GF128) : mulAsm a b = mulPortable a b :=
  cls_injective (by rw [cls_mulAsm, cls_mulPortable])

/-- C45: the polynomials stand for the elements one to one, and their coefficients are the bits of
    the 128-bit value. -/
theorem C45_poly_faithful (a b : GF128) : (poly a = poly b ↔ a = b) ∧
    ∀ i, (poly a).coeff i = if (toU128 a).getLsbD i then 1 else 0 := by
  refine ⟨poly_injective.eq_iff, ?_⟩
  intro i
  rw [coeff_poly]
  have : (i < 128 ∧ a.bit i = true) ↔ (toU128 a).getLsbD i = true := by
    unfold toU128 bit
    by_cases h : i < 64
    · rw [BitVec.getLsbD_append]
      simp only [h, if_true]
      exact ⟨fun h => h.2, fun h2 => ⟨by omega, h2⟩⟩
    · rw [BitVec.getLsbD_append]
      simp only [h, if_false]
      constructor
      · exact fun h => h.2
      · intro h2
        refine ⟨?_, h2⟩
        by_contra hc
        rw [BitVec.getLsbD_of_ge _ _ (by omega)] at h2
        cases h2
  simp only [this]

/-! ### C46 -/

/-- C46: `inverse` is the multiplicative inverse, and maps zero to zero. -/
theorem C46_inverse : (∀ a : GF128, a ≠ zero → mul a (inverse a) = one) ∧ inverse zero = zero := by
  refine ⟨fun a ha => mul_inverse ha, ?_⟩
  rw [inverse_eq]
  exact zero_pow (M₀ := GF128) (by norm_num)

/-- The field polynomial is irreducible in the sense that the ring has no zero divisors. -/
theorem C46_no_zero_divisors (a b : GF128) (h : mul a b = zero) : a = zero ∨ b = zero := by
  by_contra hc
  push Not at hc
  have h1 : mul (inverse a) (mul a b) = b := by
    show inverse a * (a * b) = b
    rw [← _root_.mul_assoc, _root_.mul_comm (inverse a), mul_inverse hc.1, _root_.one_mul]
  rw [h] at h1
  exact hc.2 (h1.symm.trans (MulZeroClass.mul_zero (M₀ := GF128) _))

/-- A concrete inverse. -/
example : (⟨3, 5⟩ : GF128) ≠ zero ∧ mul ⟨3, 5⟩ (inverse ⟨3, 5⟩) = one := by decide +kernel

/-! ### C47 -/

/-- `k`-fold multiplication of `one()` by `g`. -/
def times (g : GF128) : Nat → GF128
  | 0 => one
  | k + 1 => mul (times g k) g

theorem times_eq (g : GF128) : ∀ k, times g k = g ^ k
  | 0 => by rw [_root_.pow_zero]; rfl
  | k + 1 => by rw [times, times_eq g k, _root_.pow_succ]; rfl

/-- C47: every nonzero element is `generator^k` for exactly one `k < 2^128 - 1`. -/
theorem C47_generator (a : GF128) (ha : a ≠ zero) : ∃! k, k < 2 ^ 128 - 1 ∧ times generator k = a := by
  obtain ⟨k, hk, rfl⟩ := exists_pow ha
  refine ⟨k, ⟨hk, times_eq _ _⟩, ?_⟩
  rintro j ⟨hj, h⟩
  rw [times_eq] at h
  refine pow_injOn_Iio_orderOf ?_ ?_ h
  · rw [Set.mem_Iio, orderOf_generator]; exact hj
  · rw [Set.mem_Iio, orderOf_generator]; exact hk

/-- C47: the order of the generator is `2^128 - 1`. -/
theorem C47_order : times generator (2 ^ 128 - 1) = one ∧
    ∀ k, 0 < k → k < 2 ^ 128 - 1 → times generator k ≠ one := by
  refine ⟨(times_eq _ _).trans generator_pow, ?_⟩
  intro k h0 hk h
  rw [times_eq] at h
  have := orderOf_le_of_pow_eq_one h0 h
  rw [orderOf_generator] at this
  omega

example : (⟨0x123456789abcdef, 0xfedcba987654321⟩ : GF128) ≠ zero := by decide

end DVO.GF128

namespace DVO

/-- C27 for gf128. -/
theorem C27_gf128 (x : GF128) :
    (∑ k ∈ Finset.range 128, if Scalar.getBit x k then (Scalar.setBit k : GF128) else 0) = x ∧
    GF128.ofU128 (GF128.toU128 x) = x ∧ Scalar.sizeOf GF128 = 16 :=
  ⟨LawfulScalar.bits x, GF128.of_to x, rfl⟩

namespace Gilboa
open Net

/-- C23 for gf128. -/
theorem C23_gf128 (c : Chans) (sec : Sec) (m0 : Nat → Block) (rnd : Nat → List GF128) (x : GF128) (y o0 o1 : List GF128)
    (h0 : o0.length = y.length) (h1 : o1.length = y.length) (hlen : y.length < 2 ^ 24) :
    ∃ r0 r1 va vb, Computes (runVectorProvider c sec m0 rnd y o0 : PM (Msg GF128) _)
        (runValueProvider c sec x o1 : PM (Msg GF128) _) (.ok r0) (.ok r1) va vb ∧
      ∀ (k : Nat) (yk : GF128), y[k]? = some yk → ∃ a b, r0[k]? = some a ∧ r1[k]? = some b ∧ GF128.add a b = GF128.mul x yk := by
  obtain ⟨r0, r1, va, vb, h2, -, -, h3⟩ := C23_product (T := GF128) inferInstance c sec m0 rnd x y o0 o1 h0 h1
    ⟨by show y.length + 16 / 16 < 2 ^ 31; omega, by show 16 * 8 * ((y.length + 16 / 16 - 1) / (16 / 16)) < 2 ^ 31; omega⟩
  exact ⟨r0, r1, va, vb, h2, h3⟩

/-- gf128 fills the block, so that `C57_correlated_ot` applies to it. -/
theorem full_gf128 : Full GF128 := ⟨by show 16 / 16 * (8 * 16) = 128; norm_num, fun b _ => GF128.to_of b⟩

theorem useCorrelated_gf128 (sec : Sec) (n : Int) : useCorrelated GF128 sec n = true := rfl

end Gilboa
end DVO
