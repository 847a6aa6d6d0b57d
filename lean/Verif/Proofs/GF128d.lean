/-
Every nonzero element of gf128 is a power of the generator; inverses; gf128 as element type.
-/
import Verif.Proofs.GF128c
import Verif.Model.ScalarTypes
import Verif.Proofs.Scalar
import Mathlib.SetTheory.Cardinal.Finite

namespace DVO.GF128

theorem to_of (x : BitVec 128) : toU128 (ofU128 x) = x := by
  symm
  apply BitVec.eq_of_getLsbD_eq
  intro i hi
  unfold toU128 ofU128
  rw [BitVec.getLsbD_append]
  by_cases h64 : i < 64
  · simp [h64]
  · simp only [h64, decide_false, BitVec.getLsbD_extractLsb', show i - 64 < 64 by omega, decide_true, Bool.true_and]
    congr 1
    omega

theorem of_to (a : GF128) : ofU128 (toU128 a) = a := by
  unfold toU128 ofU128
  rw [extract_append_lo, extract_append_hi]

/-- Elements and 128-bit numbers. -/
def equivFin : GF128 ≃ Fin (2 ^ 128) where
  toFun a := (toU128 a).toFin
  invFun n := ofU128 (BitVec.ofFin n)
  left_inv a := of_to a
  right_inv n := by
    show (toU128 (ofU128 (BitVec.ofFin n))).toFin = n
    rw [to_of]

instance : Finite GF128 := Finite.of_equiv _ equivFin.symm

theorem card : Nat.card GF128 = 2 ^ 128 := by
  rw [Nat.card_congr equivFin, Nat.card_eq_fintype_card, Fintype.card_fin]

theorem cls_generator : cls generator = root := by
  have : cls generator = num 2 := by
    unfold num
    rw [ev_halves]
    unfold cls val generator ofLow
    have e1 : (BitVec.ofNat 128 2).extractLsb' 0 64 = 2 := by decide
    have e2 : (BitVec.ofNat 128 2).extractLsb' 64 64 = 0 := by decide
    rw [e1, e2]
  rw [this, num_two]

theorem cls_hom_pow (a : GF128) (k : Nat) : cls (a ^ k) = cls a ^ k := map_pow clsHom a k

theorem orderOf_generator : orderOf generator = 2 ^ 128 - 1 := by
  have h := orderOf_injective (clsHom : GF128 →* Q) cls_injective generator
  rw [clsHom_apply', cls_generator, orderOf_root] at h
  exact h.symm

theorem generator_pow : generator ^ (2 ^ 128 - 1) = 1 := by
  have h := pow_orderOf_eq_one generator
  rwa [orderOf_generator] at h

theorem zero_ne_one' : (0 : GF128) ≠ 1 := by
  show zero ≠ one
  decide

theorem generator_pow_ne_zero (k : Nat) : generator ^ k ≠ 0 := by
  intro h
  apply zero_ne_one'
  have h2 : (generator ^ (2 ^ 128 - 1)) ^ k = 1 := by rw [generator_pow, one_pow]
  rw [← pow_mul, Nat.mul_comm, pow_mul, h, zero_pow (by norm_num)] at h2
  exact h2

theorem exists_pow {a : GF128} (ha : a ≠ 0) : ∃ k < 2 ^ 128 - 1, generator ^ k = a := by
  let f : Option (Fin (2 ^ 128 - 1)) → GF128 := fun o => o.elim 0 (fun k => generator ^ k.val)
  have hinj : Function.Injective f := by
    intro x y h
    cases x with
    | none =>
      cases y with
      | none => rfl
      | some k => exact absurd h.symm (generator_pow_ne_zero _)
    | some j =>
      cases y with
      | none => exact absurd h (generator_pow_ne_zero _)
      | some k =>
        congr 1
        apply Fin.ext
        refine pow_injOn_Iio_orderOf ?_ ?_ h
        · rw [Set.mem_Iio, orderOf_generator]; exact j.isLt
        · rw [Set.mem_Iio, orderOf_generator]; exact k.isLt
  have hc : Nat.card GF128 ≤ Nat.card (Option (Fin (2 ^ 128 - 1))) := by
    rw [card, Finite.card_option, Nat.card_eq_fintype_card, Fintype.card_fin]
    omega
  obtain ⟨o, ho⟩ := (hinj.bijective_of_nat_card_le hc).2 a
  cases o with
  | none => exact absurd ho.symm ha
  | some k => exact ⟨k.val, k.isLt, ho⟩

theorem pow_card {a : GF128} (ha : a ≠ 0) : a ^ (2 ^ 128 - 1) = 1 := by
  obtain ⟨k, -, rfl⟩ := exists_pow ha
  rw [← pow_mul, Nat.mul_comm, pow_mul, generator_pow, one_pow]

theorem square_eq (a : GF128) : square a = a ^ 2 := by
  rw [pow_two]; rfl

theorem squares (a : GF128) : ∀ n, (List.range n).foldl (fun b _ => square b) a = a ^ 2 ^ n
  | 0 => by simp
  | n + 1 => by
    rw [List.range_succ, List.foldl_append, squares a n, List.foldl_cons, List.foldl_nil, square_eq, ← pow_mul, Nat.pow_succ]

/-- The addition chain computes the power `2^128 - 2`. -/
theorem inverse_eq (a : GF128) : inverse a = a ^ (2 ^ 128 - 2) := by
  unfold inverse
  have hm : ∀ x y : GF128, mul x y = x * y := fun _ _ => rfl
  rw [show List.range 7 = [0, 1, 2, 3, 4, 5, 6] from rfl]
  simp only [List.foldl_cons, List.foldl_nil, squares, hm]
  simp only [if_true, show ¬ (1 = 0) by decide, show ¬ (2 = 0) by decide, show ¬ (3 = 0) by decide, show ¬ (4 = 0) by decide,
    show ¬ (5 = 0) by decide, show ¬ (6 = 0) by decide, if_false, mul_pow, ← pow_mul, ← pow_add]
  refine congrArg (fun n => a ^ n) ?_
  decide +kernel

theorem mul_inverse {a : GF128} (ha : a ≠ 0) : a * inverse a = 1 := by
  rw [inverse_eq, ← pow_succ', show 2 ^ 128 - 2 + 1 = 2 ^ 128 - 1 by norm_num, pow_card ha]

/-- `ScalarHelper<gf128>` (internal/scalar_helpers.h:80-100). -/
noncomputable instance : Scalar GF128 where
  toCommRing := inferInstance
  sizeOf := 16
  toU128 := GF128.toU128
  ofU128 := GF128.ofU128
  getBit x k := decide ((GF128.toU128 x >>> k) &&& 1 ≠ 0)
  setBit k := GF128.ofU128 ((1 : BitVec 128) <<< k)
  canHash := canHashInt 16

end DVO.GF128

namespace DVO
open GF128

theorem cls_setBit (k : Nat) (hk : k < 128) : cls (GF128.ofU128 ((1 : BitVec 128) <<< k)) = root ^ k := by
  have e : cls (GF128.ofU128 ((1 : BitVec 128) <<< k)) = ev root ((1 : BitVec 128) <<< k) := (ev_halves root _).symm
  rw [e, ev_shl]
  · have : ev root (1 : BitVec 128) = 1 := num_one
    rw [this, mul_one]
  · intro i hi
    rw [show (1 : BitVec 128) = 1#128 from rfl, BitVec.getLsbD_one]
    have : i ≠ 0 := by omega
    simp [this]

instance : LawfulScalar GF128 where
  size_pos := by show 1 ≤ 16; norm_num
  size_le := by show 16 ≤ 16; norm_num
  toU128_lt x := (GF128.toU128 x).isLt
  of_to := GF128.of_to
  of_zero := by show GF128.ofU128 0 = GF128.zero; decide
  bits x := by
    apply cls_injective
    have h1 : cls (∑ k ∈ Finset.range (8 * 16), if Scalar.getBit x k then (Scalar.setBit k : GF128) else 0) =
        ∑ k ∈ Finset.range (8 * 16), if Scalar.getBit x k then root ^ k else 0 := by
      have := map_sum clsHom (fun k => if Scalar.getBit x k then (Scalar.setBit k : GF128) else 0) (Finset.range (8 * 16))
      refine this.trans ?_
      apply Finset.sum_congr rfl
      intro k hk
      split
      · exact cls_setBit k (Finset.mem_range.1 hk)
      · exact map_zero clsHom
    refine h1.trans ?_
    have h2 : cls x = ev root (GF128.toU128 x) := (ev_toU128 root x).symm
    rw [h2]
    unfold ev
    apply Finset.sum_congr rfl
    intro k hk
    have : Scalar.getBit x k = (GF128.toU128 x).getLsbD k := by
      exact (uint_getBit (GF128.toU128 x) (Finset.mem_range.1 hk)).trans (BitVec.testBit_toNat _)
    rw [this]

end DVO
