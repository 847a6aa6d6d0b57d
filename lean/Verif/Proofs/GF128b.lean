/-
gf128 as a subring of GF(2)[X] modulo the field polynomial.
-/
import Verif.Proofs.GF128
import Verif.Spec.GF128
import Mathlib.RingTheory.AdjoinRoot
import Mathlib.Algebra.Ring.InjSurj
import Mathlib.Algebra.Field.ZMod
import Mathlib.Algebra.CharP.Algebra
import Mathlib.Tactic.ComputeDegree

namespace DVO.GF128
open Polynomial

instance : Fact (Nat.Prime 2) := ⟨Nat.prime_two⟩

theorem poly_eq (a : GF128) : poly a = val (X : (ZMod 2)[X]) a := by
  unfold poly val ev
  rw [show (128 : Nat) = 64 + 64 from rfl, Finset.sum_range_add, Finset.mul_sum]
  refine congrArg₂ (· + ·) ?_ ?_
  · apply Finset.sum_congr rfl
    intro i hi
    have := Finset.mem_range.1 hi
    simp only [bit, this, if_true]
  · apply Finset.sum_congr rfl
    intro i hi
    simp only [bit, show ¬ 64 + i < 64 by omega, if_false, Nat.add_sub_cancel_left]
    split <;> simp [pow_add]

theorem coeff_poly (a : GF128) (i : Nat) : (poly a).coeff i = if i < 128 ∧ a.bit i = true then 1 else 0 := by
  unfold poly
  rw [finsetSum_coeff]
  have : ∀ j ∈ Finset.range 128, (if a.bit j then (X : (ZMod 2)[X]) ^ j else 0).coeff i = if i = j then (if a.bit i then 1 else 0) else 0 := by
    intro j _
    by_cases h : i = j
    · subst h
      cases a.bit i <;> simp
    · rw [if_neg h]
      split
      · rw [coeff_X_pow, if_neg h]
      · simp
  rw [Finset.sum_congr rfl this, Finset.sum_ite_eq]
  by_cases h : i < 128 <;> simp [h]

theorem ext_bit {a b : GF128} (h : ∀ i < 128, a.bit i = b.bit i) : a = b := by
  obtain ⟨a0, a1⟩ := a
  obtain ⟨b0, b1⟩ := b
  congr 1
  · apply BitVec.eq_of_getLsbD_eq
    intro i hi
    have := h i (by omega)
    simpa [bit, hi] using this
  · apply BitVec.eq_of_getLsbD_eq
    intro i hi
    have := h (64 + i) (by omega)
    simpa [bit] using this

theorem poly_injective : Function.Injective poly := by
  intro a b h
  apply ext_bit
  intro i hi
  have := congrArg (fun p => p.coeff i) h
  simp only [coeff_poly, hi, true_and] at this
  cases ha : a.bit i <;> cases hb : b.bit i <;> simp [ha, hb] at this ⊢

theorem fieldPoly_natDegree : fieldPoly.natDegree = 128 := by unfold fieldPoly; compute_degree!

theorem fieldPoly_monic : fieldPoly.Monic := by unfold fieldPoly; monicity!

theorem fieldPoly_degree : fieldPoly.degree = 128 := by
  rw [degree_eq_natDegree fieldPoly_monic.ne_zero, fieldPoly_natDegree]; rfl

theorem degree_poly (a : GF128) : (poly a).degree < fieldPoly.degree := by
  rw [degree_eq_natDegree fieldPoly_monic.ne_zero, fieldPoly_natDegree, degree_lt_iff_coeff_zero]
  intro m hm
  rw [coeff_poly, if_neg (by omega)]

/-- GF(2)[X] modulo the field polynomial. -/
abbrev Q : Type := AdjoinRoot fieldPoly

instance : Nontrivial Q := AdjoinRoot.nontrivial fieldPoly (by rw [fieldPoly_degree]; decide +kernel)

instance : CharP Q 2 := by
  have : Algebra (ZMod 2) Q := inferInstance
  exact charP_of_injective_algebraMap (algebraMap (ZMod 2) Q).injective 2

/-- The class of `X`. -/
noncomputable def root : Q := AdjoinRoot.root fieldPoly

theorem root_pow : root ^ 128 = root ^ 7 + root ^ 2 + root + 1 := by
  have h : AdjoinRoot.mk fieldPoly (X ^ 128 + X ^ 7 + X ^ 2 + X + 1) = 0 := by
    have h := AdjoinRoot.mk_self (f := fieldPoly)
    rwa [show AdjoinRoot.mk fieldPoly fieldPoly = AdjoinRoot.mk fieldPoly (X ^ 128 + X ^ 7 + X ^ 2 + X + 1) from
      congrArg _ (by unfold fieldPoly; rfl)] at h
  simp only [map_add, map_pow, map_one, AdjoinRoot.mk_X] at h
  apply CharTwo.add_eq_zero.1
  refine Eq.trans ?_ h
  unfold root
  ring

/-- The class of an element. -/
noncomputable def cls (a : GF128) : Q := val root a

theorem cls_eq (a : GF128) : cls a = AdjoinRoot.mk fieldPoly (poly a) := by
  rw [poly_eq]
  unfold cls val ev root
  simp only [map_add, map_mul, map_pow, map_sum, AdjoinRoot.mk_X]
  refine congrArg₂ (· + ·) ?_ (congrArg _ ?_)
  · apply Finset.sum_congr rfl
    intro i _
    split <;> simp
  · apply Finset.sum_congr rfl
    intro i _
    split <;> simp

attribute [local irreducible] fieldPoly poly

theorem cls_injective : Function.Injective cls := by
  intro a b h
  rw [cls_eq, cls_eq, AdjoinRoot.mk_eq_mk] at h
  apply poly_injective
  by_contra hne
  have h1 : poly a - poly b ≠ 0 := sub_ne_zero.2 hne
  have h2 := degree_le_of_dvd h h1
  have h3 : (poly a - poly b).degree < fieldPoly.degree := lt_of_le_of_lt (degree_sub_le _ _) (max_lt (degree_poly a) (degree_poly b))
  exact absurd (lt_of_le_of_lt h2 h3) (lt_irrefl _)

theorem cls_add (a b : GF128) : cls (add a b) = cls a + cls b := val_add _ a b
theorem cls_mulAsm (a b : GF128) : cls (mulAsm a b) = cls a * cls b := val_mulAsm _ root_pow a b
theorem cls_mulPortable (a b : GF128) : cls (mulPortable a b) = cls a * cls b := val_mulPortable _ root_pow a b
theorem cls_mul (a b : GF128) : cls (mul a b) = cls a * cls b := cls_mulAsm a b

/-- The polynomial of a product, given its class. -/
theorem poly_of_cls {a b c : GF128} (h : cls c = cls a * cls b) : poly c = (poly a * poly b) %ₘ fieldPoly := by
  rw [cls_eq, cls_eq, cls_eq, ← map_mul, AdjoinRoot.mk_eq_mk] at h
  have h2 : poly c = poly c %ₘ fieldPoly := by
    rw [(modByMonic_eq_self_iff fieldPoly_monic).2]
    exact degree_poly c
  rw [h2]
  exact modByMonic_eq_of_dvd_sub fieldPoly_monic h

theorem cls_zero : cls zero = 0 := by
  unfold cls val zero ofLow
  rw [show (0 : BitVec 64) = 0 from rfl, ev_zero]; ring

theorem ev_one {R : Type} [CommRing R] (α : R) : ev α (1 : BitVec 64) = 1 := by
  unfold ev
  rw [Finset.sum_eq_single 0]
  · rw [if_pos (by decide), pow_zero]
  · intro i _ hi
    rw [show (1 : BitVec 64) = 1#64 from rfl, BitVec.getLsbD_one]
    simp [hi]
  · simp

theorem cls_one : cls one = 1 := by
  unfold cls val one ofLow
  rw [ev_zero, ev_one]; ring

theorem cls_neg (a : GF128) : cls (neg a) = - cls a := by
  rw [CharTwo.neg_eq]; rfl

theorem cls_sub (a b : GF128) : cls (sub a b) = cls a - cls b := by
  rw [CharTwo.sub_eq_add]; exact cls_add a b

local instance : Zero GF128 := ⟨zero⟩
local instance : One GF128 := ⟨one⟩
local instance : Add GF128 := ⟨add⟩
local instance : Mul GF128 := ⟨mul⟩
local instance : Neg GF128 := ⟨neg⟩
local instance : Sub GF128 := ⟨sub⟩
local instance : SMul Nat GF128 := ⟨nsmulRec⟩
local instance : SMul Int GF128 := ⟨zsmulRec⟩
local instance : Pow GF128 Nat := ⟨fun a n => npowRec n a⟩
local instance : NatCast GF128 := ⟨Nat.unaryCast⟩
local instance : IntCast GF128 := ⟨Int.castDef⟩

theorem cls_nsmul (n : Nat) (a : GF128) : cls (n • a) = n • cls a := by
  induction n with
  | zero => rw [zero_nsmul]; exact cls_zero
  | succ n ih =>
    rw [succ_nsmul, ← ih, ← cls_add]; rfl

theorem cls_pow (a : GF128) (n : Nat) : cls (a ^ n) = cls a ^ n := by
  induction n with
  | zero => rw [pow_zero]; exact cls_one
  | succ n ih => rw [pow_succ, ← ih, ← cls_mul]; rfl

theorem cls_natCast (n : Nat) : cls (n : GF128) = n := by
  induction n with
  | zero => rw [Nat.cast_zero]; exact cls_zero
  | succ n ih =>
    rw [Nat.cast_succ, ← ih, ← cls_one, ← cls_add]; rfl

theorem cls_zsmul (n : Int) (a : GF128) : cls (n • a) = n • cls a := by
  cases n with
  | ofNat n => rw [Int.ofNat_eq_natCast, natCast_zsmul, ← cls_nsmul]; rfl
  | negSucc n => rw [negSucc_zsmul, ← cls_nsmul, ← cls_neg]; rfl

theorem cls_intCast (n : Int) : cls (n : GF128) = n := by
  cases n with
  | ofNat n => rw [Int.ofNat_eq_natCast, Int.cast_natCast, ← cls_natCast]; rfl
  | negSucc n => rw [Int.cast_negSucc, ← cls_natCast, ← cls_neg]; rfl

/-- The operators of gf128 form a commutative ring. -/
noncomputable instance : CommRing GF128 :=
  cls_injective.commRing cls cls_zero cls_one cls_add cls_mul cls_neg cls_sub cls_nsmul cls_zsmul cls_pow cls_natCast cls_intCast

/-- The class map as a ring homomorphism. -/
noncomputable def clsHom : GF128 →+* Q where
  toFun := cls
  map_zero' := cls_zero
  map_one' := cls_one
  map_add' := cls_add
  map_mul' := cls_mul

theorem clsHom_apply (a : GF128) : clsHom a = cls a := rfl
theorem clsHom_apply' (a : GF128) : (clsHom : GF128 →* Q) a = cls a := rfl

end DVO.GF128
