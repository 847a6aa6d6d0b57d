/-
Lemmas about the concrete element types.
-/
import Verif.Model.ScalarTypes
import Mathlib.Algebra.BigOperators.Intervals
import Mathlib.Data.Nat.Size
import Mathlib.Algebra.BigOperators.Ring.Finset
import Mathlib.Tactic.Ring
import Mathlib.Tactic.NormNum

namespace DVO

theorem nat_bits_sum (m : Nat) : ∀ n, (∑ k ∈ Finset.range n, if m.testBit k then 2 ^ k else 0) = m % 2 ^ n := by
  intro n
  induction n with
  | zero => simp [Nat.mod_one]
  | succ n ih =>
    rw [Finset.sum_range_succ, ih, Nat.mod_pow_succ, Nat.testBit_eq_decide_div_mod_eq]
    have : m / 2 ^ n % 2 < 2 := Nat.mod_lt _ (by omega)
    by_cases h : m / 2 ^ n % 2 = 1
    · simp [h]
    · have h0 : m / 2 ^ n % 2 = 0 := by omega
      simp [h0]

theorem uint_getBit {w : Nat} (x : BitVec w) {k : Nat} (hk : k < w) :
    decide ((x >>> k) &&& 1 ≠ 0) = x.toNat.testBit k := by
  rw [Bool.eq_iff_iff, decide_eq_true_iff]
  have hw : 0 < w := by omega
  have h1 : ((x >>> k) &&& 1).toNat = x.toNat / 2 ^ k % 2 := by
    rw [BitVec.toNat_and, BitVec.toNat_ushiftRight, Nat.shiftRight_eq_div_pow]
    have : (1 : BitVec w).toNat = 1 := by
      show 1 % 2 ^ w = 1
      exact Nat.mod_eq_of_lt (Nat.one_lt_two_pow (by omega))
    rw [this, Nat.and_one_is_mod]
  have h2 : ((x >>> k) &&& 1 = 0) ↔ x.toNat / 2 ^ k % 2 = 0 := by
    rw [← h1]
    constructor
    · intro h; rw [h]; simp
    · intro h; apply BitVec.eq_of_toNat_eq; rw [h]; simp
  rw [ne_eq, h2, Nat.testBit_eq_decide_div_mod_eq, decide_eq_true_iff]
  omega

theorem lawful_uint {w : Nat} (h8 : 8 ∣ w) (hw : 8 ≤ w) (hw2 : w ≤ 128) :
    @LawfulScalar (BitVec w) (scalarUInt w) := by
  let := scalarUInt w
  have hsz : 8 * Scalar.sizeOf (BitVec w) = w := by
    show 8 * (w / 8) = w
    omega
  refine @LawfulScalar.mk _ _ ?_ ?_ ?_ ?_ ?_ ?_
  · show 1 ≤ w / 8; omega
  · show w / 8 ≤ 16; omega
  · intro x
    rw [hsz]
    show (BitVec.setWidth 128 x).toNat < 2 ^ w
    rw [BitVec.toNat_setWidth]
    exact lt_of_le_of_lt (Nat.mod_le _ _) x.isLt
  · intro x
    show BitVec.setWidth w (BitVec.setWidth 128 x) = x
    apply BitVec.eq_of_toNat_eq
    rw [BitVec.toNat_setWidth, BitVec.toNat_setWidth]
    have h1 : x.toNat < 2 ^ w := x.isLt
    have h2 : 2 ^ w ≤ 2 ^ 128 := Nat.pow_le_pow_right (by omega) hw2
    rw [Nat.mod_eq_of_lt (show x.toNat < 2 ^ 128 by omega), Nat.mod_eq_of_lt h1]
  · show BitVec.setWidth w (0 : Block) = 0
    simp
  · intro x
    rw [hsz]
    have key : ∀ k ∈ Finset.range w, (if Scalar.getBit x k then (Scalar.setBit k : BitVec w) else 0) =
        (((if x.toNat.testBit k then 2 ^ k else 0 : Nat) : BitVec w)) := by
      intro k hk
      rw [Finset.mem_range] at hk
      have : Scalar.getBit x k = x.toNat.testBit k := uint_getBit x hk
      rw [this]
      split
      · show (1 : BitVec w) <<< k = _
        apply BitVec.eq_of_toNat_eq
        have : (1 : BitVec w).toNat = 1 := by
          show 1 % 2 ^ w = 1
          exact Nat.mod_eq_of_lt (Nat.one_lt_two_pow (by omega))
        rw [BitVec.toNat_shiftLeft, this, Nat.shiftLeft_eq, one_mul]
        rfl
      · simp
    rw [Finset.sum_congr rfl key, ← Nat.cast_sum, nat_bits_sum, Nat.mod_eq_of_lt x.isLt]
    simp

instance : LawfulScalar (BitVec 8) := lawful_uint (by norm_num) (by norm_num) (by norm_num)
instance : LawfulScalar (BitVec 16) := lawful_uint (by norm_num) (by norm_num) (by norm_num)
instance : LawfulScalar (BitVec 32) := lawful_uint (by norm_num) (by norm_num) (by norm_num)
instance : LawfulScalar (BitVec 64) := lawful_uint (by norm_num) (by norm_num) (by norm_num)
instance : LawfulScalar (BitVec 128) := lawful_uint (by norm_num) (by norm_num) (by norm_num)

/-! ### NTL types -/

theorem ntlSize_pos {p : Nat} (hp : 2 ≤ p) : 1 ≤ ntlSizeOf p := by
  unfold ntlSizeOf numBits
  have : 0 < Nat.size (p - 1) := Nat.size_pos.2 (by omega)
  omega

theorem ntlSize_le {p b : Nat} (hp : p ≤ 2 ^ (8 * b)) (h2 : 1 ≤ p) : ntlSizeOf p ≤ b := by
  unfold ntlSizeOf numBits
  have : Nat.size (p - 1) ≤ 8 * b := Nat.size_le.2 (by omega)
  omega

theorem le_pow_size {p : Nat} : p ≤ 2 ^ (8 * ntlSizeOf p) := by
  unfold ntlSizeOf numBits
  have h1 : p - 1 < 2 ^ Nat.size (p - 1) := Nat.lt_size_self _
  have h2 : 2 ^ Nat.size (p - 1) ≤ 2 ^ (8 * ((Nat.size (p - 1) + 7) / 8)) :=
    Nat.pow_le_pow_right (by omega) (by omega)
  omega

theorem zzp_toU128 {p : Nat} (hp : p ≤ 2 ^ 128) (hp0 : 0 < p) (x : ZZp p) :
    (Scalar.toU128 x).toNat = ZMod.val (x : ZMod p) := by
  have : NeZero p := ⟨by omega⟩
  show ((BitVec.ofNat 64 ((ZMod.val (x : ZMod p)) >>> 64)) ++ (BitVec.ofNat 64 (ZMod.val (x : ZMod p)))).toNat = _
  have hx : ZMod.val (x : ZMod p) < 2 ^ 128 := lt_of_lt_of_le (ZMod.val_lt _) hp
  generalize ZMod.val (x : ZMod p) = v at hx ⊢
  rw [BitVec.toNat_append, BitVec.toNat_ofNat, BitVec.toNat_ofNat, Nat.shiftRight_eq_div_pow,
    Nat.mod_eq_of_lt (show v / 2 ^ 64 < 2 ^ 64 by omega), Nat.shiftLeft_eq,
    ← Nat.shiftLeft_eq, ← Nat.shiftLeft_add_eq_or_of_lt (Nat.mod_lt _ (by positivity)), Nat.shiftLeft_eq]
  omega

theorem zzp_ofU128 (p : Nat) (b : Block) : (Scalar.ofU128 b : ZZp p) = ((b.toNat : ℕ) : ZMod p) := by
  show ((((b.extractLsb' 64 64).toNat <<< 64 ||| (b.extractLsb' 0 64).toNat : Nat) : ZMod p)) = _
  congr 1
  rw [BitVec.extractLsb'_toNat, BitVec.extractLsb'_toNat, Nat.shiftRight_eq_div_pow, Nat.shiftRight_zero,
    ← Nat.shiftLeft_add_eq_or_of_lt (Nat.mod_lt _ (by positivity)), Nat.shiftLeft_eq]
  have := b.isLt
  omega

theorem lawful_zzp {p : Nat} (hp : 2 ≤ p) (hp2 : p ≤ 2 ^ 128) : LawfulScalar (ZZp p) := by
  have : NeZero p := ⟨by omega⟩
  refine LawfulScalar.mk (ntlSize_pos hp) (ntlSize_le (b := 16) hp2 (by omega)) ?_ ?_ ?_ ?_
  · intro x
    rw [zzp_toU128 hp2 (by omega)]
    exact lt_of_lt_of_le (ZMod.val_lt _) le_pow_size
  · intro x
    rw [zzp_ofU128, zzp_toU128 hp2 (by omega)]
    exact ZMod.natCast_zmod_val _
  · rw [zzp_ofU128]
    exact Nat.cast_zero
  · intro (x : ZMod p)
    show (∑ k ∈ Finset.range (8 * ntlSizeOf p),
      if (ZMod.val (x : ZMod p)).testBit k then (((1 <<< k : Nat) : ZMod p)) else 0) = (x : ZMod p)
    have key : ∀ k ∈ Finset.range (8 * ntlSizeOf p),
        (if (ZMod.val (x : ZMod p)).testBit k then (((1 <<< k : Nat) : ZMod p)) else 0) =
        ((if (ZMod.val (x : ZMod p)).testBit k then 2 ^ k else 0 : Nat) : ZMod p) := by
      intro k _
      split
      · rw [Nat.shiftLeft_eq, one_mul]
      · simp
    rw [Finset.sum_congr rfl key, ← Nat.cast_sum, nat_bits_sum,
      Nat.mod_eq_of_lt (lt_of_lt_of_le (ZMod.val_lt _) le_pow_size)]
    exact ZMod.natCast_zmod_val _

theorem zzp_small_ofU128 {p : Nat} (hp0 : 0 < p) (hp : p < 2 ^ 60) (b : Block) :
    (Scalar.ofU128 b : Zzp p) = ((b.toNat : ℕ) : ZMod p) := by
  show (((b.toNat % p) % 2 ^ 64 : Nat) : ZMod p) = _
  have : b.toNat % p < p := Nat.mod_lt _ hp0
  rw [Nat.mod_eq_of_lt (by omega)]
  simp

theorem lawful_zzp_small {p : Nat} (hp : 2 ≤ p) (hp2 : p < 2 ^ 60) : LawfulScalar (Zzp p) := by
  have : NeZero p := ⟨by omega⟩
  have hsz : ntlSizeOf p ≤ 8 := ntlSize_le (b := 8) (by omega) (by omega)
  refine LawfulScalar.mk (ntlSize_pos hp) (le_trans hsz (by omega)) ?_ ?_ ?_ ?_
  · intro x
    show (BitVec.ofNat 128 (ZMod.val (x : ZMod p))).toNat < _
    rw [BitVec.toNat_ofNat]
    exact lt_of_le_of_lt (Nat.mod_le _ _) (lt_of_lt_of_le (ZMod.val_lt _) le_pow_size)
  · intro x
    rw [zzp_small_ofU128 (by omega) hp2]
    show ((BitVec.ofNat 128 (ZMod.val (x : ZMod p))).toNat : ZMod p) = _
    have := ZMod.val_lt (x : ZMod p)
    rw [BitVec.toNat_ofNat, Nat.mod_eq_of_lt (by omega)]
    exact ZMod.natCast_zmod_val _
  · rw [zzp_small_ofU128 (by omega) hp2]
    exact Nat.cast_zero
  · intro (x : ZMod p)
    show (∑ k ∈ Finset.range (8 * ntlSizeOf p),
      if (ZMod.val (x : ZMod p)).testBit k then ((((1#64 <<< k).toInt : Int)) : ZMod p) else 0) = (x : ZMod p)
    have hv := ZMod.val_lt (x : ZMod p)
    have key : ∀ k ∈ Finset.range (8 * ntlSizeOf p),
        (if (ZMod.val (x : ZMod p)).testBit k then ((((1#64 <<< k).toInt : Int)) : ZMod p) else 0) =
        ((if (ZMod.val (x : ZMod p)).testBit k then 2 ^ k else 0 : Nat) : ZMod p) := by
      intro k _
      by_cases h : (ZMod.val (x : ZMod p)).testBit k = true
      · rw [if_pos h, if_pos h]
        have hk : k < 60 := by
          by_contra hk
          have : (ZMod.val (x : ZMod p)).testBit k = false := by
            apply Nat.testBit_lt_two_pow
            exact lt_of_lt_of_le (lt_trans hv hp2) (Nat.pow_le_pow_right (by omega) (by omega))
          rw [this] at h; cases h
        have h2 : (2 : Nat) ^ k ≤ 2 ^ 59 := Nat.pow_le_pow_right (by omega) (by omega)
        have h3 : (1#64 <<< k).toNat = 2 ^ k := by
          rw [BitVec.toNat_shiftLeft]
          simp only [BitVec.toNat_ofNat, Nat.shiftLeft_eq]
          rw [Nat.mod_eq_of_lt] <;> omega
        have h4 : (1#64 <<< k).toInt = ((2 ^ k : Nat) : Int) := by
          rw [BitVec.toInt_eq_toNat_of_lt (by rw [h3]; omega), h3]
        rw [h4]; simp
      · rw [if_neg h, if_neg h]; simp
    rw [Finset.sum_congr rfl key, ← Nat.cast_sum, nat_bits_sum,
      Nat.mod_eq_of_lt (lt_of_lt_of_le (ZMod.val_lt _) le_pow_size)]
    exact ZMod.natCast_zmod_val _

end DVO
