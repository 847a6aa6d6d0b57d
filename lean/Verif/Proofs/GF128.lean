/-
Evaluation of bit vectors as polynomials at a point of a ring of characteristic 2, and what the two
multiplications of gf128 compute.
-/
import Verif.Model.GF128
import Mathlib.Algebra.CharP.Two
import Mathlib.Algebra.BigOperators.Intervals
import Mathlib.Algebra.BigOperators.Ring.Finset
import Mathlib.Tactic.Ring
import Mathlib.Tactic.LinearCombination

namespace DVO.GF128
variable {R : Type} [CommRing R] [CharP R 2] (α : R)

/-- Value of the polynomial with coefficients `x` at `α`. -/
def ev {w : Nat} (x : BitVec w) : R := ∑ i ∈ Finset.range w, if x.getLsbD i then α ^ i else 0

@[simp] theorem ev_zero {w : Nat} : ev α (0 : BitVec w) = 0 := by simp [ev]

theorem ev_xor {w : Nat} (x y : BitVec w) : ev α (x ^^^ y) = ev α x + ev α y := by
  unfold ev
  rw [← Finset.sum_add_distrib]
  apply Finset.sum_congr rfl
  intro i _
  rw [BitVec.getLsbD_xor]
  cases x.getLsbD i <;> cases y.getLsbD i <;> simp [CharTwo.add_self_eq_zero]

/-- Splitting the sum at `k`. -/
theorem ev_split {w : Nat} (x : BitVec w) (k m : Nat) (h : w ≤ k + m) :
    ev α x = ev α (x.extractLsb' 0 k) + α ^ k * ev α (x.extractLsb' k m) := by
  have e : ev α x = ∑ i ∈ Finset.range (k + m), if x.getLsbD i then α ^ i else 0 := by
    unfold ev
    rw [← Finset.sum_range_add_sum_Ico _ h]
    rw [left_eq_add]
    apply Finset.sum_eq_zero
    intro i hi
    rw [BitVec.getLsbD_of_ge _ _ (Finset.mem_Ico.1 hi).1]
    rfl
  rw [e, Finset.sum_range_add]
  congr 1
  · apply Finset.sum_congr rfl
    intro i hi
    have := Finset.mem_range.1 hi
    simp [BitVec.getLsbD_extractLsb', this]
  · unfold ev
    rw [Finset.mul_sum]
    apply Finset.sum_congr rfl
    intro i hi
    have := Finset.mem_range.1 hi
    simp [BitVec.getLsbD_extractLsb', this, pow_add]

theorem ev_append {w v : Nat} (x : BitVec w) (y : BitVec v) : ev α (x ++ y) = ev α y + α ^ v * ev α x := by
  rw [ev_split α (x ++ y) v w (by omega)]
  congr 2
  · congr 1
    apply BitVec.eq_of_getLsbD_eq
    intro i hi
    simp [BitVec.getLsbD_extractLsb', BitVec.getLsbD_append, hi]
  · congr 1
    apply BitVec.eq_of_getLsbD_eq
    intro i hi
    simp [BitVec.getLsbD_extractLsb', BitVec.getLsbD_append, hi]

theorem ev_setWidth {w v : Nat} (x : BitVec w) (h : w ≤ v) : ev α (x.setWidth v) = ev α x := by
  unfold ev
  rw [← Finset.sum_range_add_sum_Ico _ h]
  rw [Finset.sum_eq_zero (s := Finset.Ico w v), add_zero]
  · apply Finset.sum_congr rfl
    intro i hi
    have := Finset.mem_range.1 hi
    simp [BitVec.getLsbD_setWidth, show i < v by omega]
  · intro i hi
    rw [BitVec.getLsbD_setWidth, BitVec.getLsbD_of_ge x i (Finset.mem_Ico.1 hi).1]
    simp

/-- Shifting left without losing bits. -/
theorem ev_shl {w : Nat} (x : BitVec w) (k : Nat) (h : ∀ i, w ≤ i + k → x.getLsbD i = false) :
    ev α (x <<< k) = α ^ k * ev α x := by
  by_cases hk : k ≤ w
  · obtain ⟨m, rfl⟩ := Nat.exists_eq_add_of_le hk
    rw [ev_split α (x <<< k) k m le_rfl]
    have e1 : (x <<< k).extractLsb' 0 k = 0 := by
      apply BitVec.eq_of_getLsbD_eq
      intro i hi
      simp [BitVec.getLsbD_extractLsb', hi]
    rw [e1, ev_zero, zero_add]
    congr 1
    unfold ev
    have hs : m ≤ k + m := by omega
    rw [← Finset.sum_range_add_sum_Ico _ hs, Finset.sum_eq_zero (s := Finset.Ico m (k + m)), add_zero]
    · apply Finset.sum_congr rfl
      intro i hi
      have := Finset.mem_range.1 hi
      rw [BitVec.getLsbD_extractLsb', BitVec.getLsbD_shiftLeft]
      simp only [this, decide_true, Bool.true_and, show k + i < k + m by omega, show ¬ k + i < k by omega, decide_false,
        Bool.not_false, Nat.add_sub_cancel_left]
    · intro i hi
      rw [h i (by have := (Finset.mem_Ico.1 hi).1; omega)]
      rfl
  · have e : x = 0 := by
      apply BitVec.eq_of_getLsbD_eq
      intro i hi
      rw [h i (by omega)]
      simp
    rw [e, ev_zero, mul_zero]
    convert ev_zero α
    simp

/-- Partial sums of the carry-less product. -/
theorem ev_clmulWord (a b : BitVec 64) : ev α (clmulWord a b) = ev α a * ev α b := by
  unfold clmulWord
  have key : ∀ n, n ≤ 64 →
      ev α ((List.range n).foldl (fun acc i => if a.getLsbD i then acc ^^^ (b.setWidth 128 <<< i) else acc) (0 : BitVec 128)) =
        ∑ i ∈ Finset.range n, (if a.getLsbD i then α ^ i else 0) * ev α b := by
    intro n
    induction n with
    | zero => intro _; rw [Finset.sum_range_zero]; exact ev_zero α
    | succ n ih =>
      intro hn
      rw [List.range_succ, List.foldl_append, Finset.sum_range_succ, ← ih (by omega)]
      simp only [List.foldl_cons, List.foldl_nil]
      split
      · rw [ev_xor, ev_shl, ev_setWidth α b (by omega)]
        intro i hi
        rw [BitVec.getLsbD_setWidth, BitVec.getLsbD_of_ge b i (by omega), Bool.and_false]
      · simp
  rw [key 64 le_rfl, ← Finset.sum_mul]
  rfl

/-- Halves of a register. -/
theorem ev_halves (x : BitVec 128) : ev α x = ev α (x.extractLsb' 0 64) + α ^ 64 * ev α (x.extractLsb' 64 64) :=
  ev_split α x 64 64 (by omega)

theorem ev_shr64 (x : BitVec 128) : ev α (x >>> 64) = ev α (x.extractLsb' 64 64) := by
  rw [ev_halves]
  have e1 : (x >>> 64).extractLsb' 0 64 = x.extractLsb' 64 64 := by
    apply BitVec.eq_of_getLsbD_eq
    intro i hi
    simp [BitVec.getLsbD_extractLsb', hi]
  have e2 : (x >>> 64).extractLsb' 64 64 = 0 := by
    apply BitVec.eq_of_getLsbD_eq
    intro i hi
    simp only [BitVec.getLsbD_extractLsb', hi, BitVec.getLsbD_ushiftRight]
    rw [BitVec.getLsbD_of_ge x _ (by omega)]
    simp
  rw [e1, e2, ev_zero, mul_zero, add_zero]

theorem shr64_lo (x : BitVec 128) : (x >>> 64).extractLsb' 0 64 = x.extractLsb' 64 64 := by
  apply BitVec.eq_of_getLsbD_eq
  intro i hi
  simp [BitVec.getLsbD_extractLsb', hi]

theorem shr64_hi (x : BitVec 128) : (x >>> 64).extractLsb' 64 64 = 0 := by
  apply BitVec.eq_of_getLsbD_eq
  intro i hi
  simp only [BitVec.getLsbD_extractLsb', hi, BitVec.getLsbD_ushiftRight]
  rw [BitVec.getLsbD_of_ge x _ (by omega)]
  simp

theorem ev_shl64 (x : BitVec 128) : ev α (x <<< 64) = α ^ 64 * ev α (x.extractLsb' 0 64) := by
  rw [ev_halves]
  have e1 : (x <<< 64).extractLsb' 0 64 = 0 := by
    apply BitVec.eq_of_getLsbD_eq
    intro i hi
    simp [BitVec.getLsbD_extractLsb', hi]
  have e2 : (x <<< 64).extractLsb' 64 64 = x.extractLsb' 0 64 := by
    apply BitVec.eq_of_getLsbD_eq
    intro i hi
    simp [BitVec.getLsbD_extractLsb', hi]
    omega
  rw [e1, e2, ev_zero, zero_add]

/-- Value of an element. -/
def val (x : GF128) : R := ev α x.v0 + α ^ 64 * ev α x.v1

theorem ev_toU128 (x : GF128) : ev α (x.v1 ++ x.v0) = val α x := ev_append α _ _

theorem val_add (x y : GF128) : val α (add x y) = val α x + val α y := by
  simp only [val, add, ev_xor]; ring

theorem extract_append_lo' {w v : Nat} (x : BitVec w) (y : BitVec v) : (x ++ y).extractLsb' 0 v = y := by
  apply BitVec.eq_of_getLsbD_eq
  intro i hi
  simp [BitVec.getLsbD_extractLsb', BitVec.getLsbD_append, hi]

theorem extract_append_hi' {w v : Nat} (x : BitVec w) (y : BitVec v) : (x ++ y).extractLsb' v w = x := by
  apply BitVec.eq_of_getLsbD_eq
  intro i hi
  simp [BitVec.getLsbD_extractLsb', BitVec.getLsbD_append, hi]

theorem extract_append_lo (x y : BitVec 64) : (x ++ y : BitVec 128).extractLsb' 0 64 = y := extract_append_lo' x y
theorem extract_append_hi (x y : BitVec 64) : (x ++ y : BitVec 128).extractLsb' 64 64 = x := extract_append_hi' x y

theorem extract_xor (x y : BitVec 128) (s : Nat) : (x ^^^ y).extractLsb' s 64 = x.extractLsb' s 64 ^^^ y.extractLsb' s 64 := by
  apply BitVec.eq_of_getLsbD_eq
  intro i hi
  simp [BitVec.getLsbD_extractLsb', hi]

theorem ev_modulus : ev α modulus = α ^ 7 + α ^ 2 + α + 1 := by
  have h : ∀ i ∈ Finset.range 64, (if modulus.getLsbD i then α ^ i else 0) = if i ∈ ({0, 1, 2, 7} : Finset Nat) then α ^ i else 0 := by
    intro i hi
    congr 1
    have : ∀ i < 64, (modulus.getLsbD i = true) = (i ∈ ({0, 1, 2, 7} : Finset Nat)) := by
      intro i hi
      rw [eq_iff_iff]
      revert i
      decide
    exact this i (Finset.mem_range.1 hi)
  unfold ev
  rw [Finset.sum_congr rfl h, Finset.sum_ite_mem, show Finset.range 64 ∩ {0, 1, 2, 7} = {0, 1, 2, 7} by decide]
  rw [Finset.sum_insert (by decide), Finset.sum_insert (by decide), Finset.sum_insert (by decide), Finset.sum_singleton]
  ring

/-- The carry-less multiplication computes the product. -/
theorem val_mulAsm (h : α ^ 128 = α ^ 7 + α ^ 2 + α + 1) (x y : GF128) : val α (mulAsm x y) = val α x * val α y := by
  have hm : ev α modulus = α ^ 128 := by rw [h, ev_modulus]
  have hm0 : (modulus.setWidth 128).extractLsb' 0 64 = modulus := by decide
  have hself : ∀ z : R, z + z = 0 := CharTwo.add_self_eq_zero
  unfold mulAsm clmul
  simp only [if_true, Bool.false_eq_true, if_false, extract_append_lo, extract_append_hi, hm0]
  rw [show ∀ z : BitVec 128, val α ⟨z.extractLsb' 0 64, z.extractLsb' 64 64⟩ = ev α z from fun z => (ev_halves α z).symm]
  generalize hM : clmulWord x.v1 y.v0 ^^^ clmulWord x.v0 y.v1 = M
  generalize hH : clmulWord x.v1 y.v1 = H
  have eM : ev α M = ev α x.v1 * ev α y.v0 + ev α x.v0 * ev α y.v1 := by rw [← hM, ev_xor, ev_clmulWord, ev_clmulWord]
  have eH : ev α H = ev α x.v1 * ev α y.v1 := by rw [← hH, ev_clmulWord]
  generalize hT : clmulWord ((H ^^^ M >>> 64).extractLsb' 64 64) modulus = Tm
  have eT : ev α Tm = ev α (H.extractLsb' 64 64) * α ^ 128 := by
    rw [← hT, ev_clmulWord, hm, extract_xor, ev_xor, shr64_hi, ev_zero, add_zero]
  simp only [ev_xor, ev_clmulWord, hm, extract_xor, ev_shl64, shr64_lo]
  rw [ev_halves] at eM eH eT
  unfold val
  linear_combination α ^ 64 * eM + α ^ 128 * eH + α ^ 64 * eT

theorem and_bit (v : BitVec 64) (k : Nat) (hk : k < 64) : (v &&& ((1 : BitVec 64) <<< k) ≠ 0) ↔ v.getLsbD k = true := by
  have e : v &&& ((1 : BitVec 64) <<< k) = if v.getLsbD k then BitVec.twoPow 64 k else 0#64 := by
    have : ((1 : BitVec 64) <<< k) = BitVec.twoPow 64 k := by
      rw [BitVec.twoPow_eq]; rfl
    rw [this, BitVec.and_twoPow]
  rw [e]
  split
  · rename_i h
    simp only [h, iff_true]
    intro hc
    have := congrArg (fun z => z.getLsbD k) hc
    simp [BitVec.getLsbD_twoPow, hk] at this
  · rename_i h
    simp [h]

/-- Shifting left by one with carry. -/
theorem ev_shl1 (v : BitVec 64) : ev α (v <<< 1) + (if v.getLsbD 63 then α ^ 64 else 0) = α * ev α v := by
  unfold ev
  rw [Finset.sum_range_succ' _ 63, Finset.sum_range_succ _ 63, mul_add, Finset.mul_sum]
  congr 1
  · rw [show (v <<< 1).getLsbD 0 = false by simp]
    simp only [Bool.false_eq_true, if_false, add_zero]
    apply Finset.sum_congr rfl
    intro i hi
    have := Finset.mem_range.1 hi
    rw [BitVec.getLsbD_shiftLeft]
    simp only [show i + 1 < 64 by omega, decide_true, Bool.true_and, show ¬ i + 1 < 1 by omega, decide_false, Bool.not_false, Nat.add_sub_cancel]
    split <;> ring
  · split <;> ring

theorem ev_shr63 (v : BitVec 64) : ev α (v >>> 63) = if v.getLsbD 63 then 1 else 0 := by
  unfold ev
  rw [Finset.sum_range_succ' _ 63, Finset.sum_eq_zero, zero_add]
  · rw [BitVec.getLsbD_ushiftRight]; simp
  · intro i _
    rw [BitVec.getLsbD_ushiftRight, BitVec.getLsbD_of_ge v _ (by omega)]
    simp

theorem or_eq_xor (v0 v1 : BitVec 64) : (v1 <<< 1) ||| (v0 >>> 63) = (v1 <<< 1) ^^^ (v0 >>> 63) := by
  apply BitVec.eq_of_getLsbD_eq
  intro i hi
  rw [BitVec.getLsbD_or, BitVec.getLsbD_xor]
  rcases Nat.eq_zero_or_pos i with rfl | h
  · rw [show (v1 <<< 1).getLsbD 0 = false by simp]; simp
  · rw [BitVec.getLsbD_ushiftRight, BitVec.getLsbD_of_ge v0 _ (by omega)]; simp

/-- One step of the portable multiplication multiplies `shifted` by `α`. -/
theorem val_mulStep (h : α ^ 128 = α ^ 7 + α ^ 2 + α + 1) (w : BitVec 64) (j : Nat) (hj : j < 64) (s : GF128 × GF128) :
    val α (mulStep w j s).1 = α * val α s.1 ∧
      val α (mulStep w j s).2 = val α s.2 + (if w.getLsbD j then 1 else 0) * val α s.1 := by
  have hm : ev α modulus = α ^ 128 := by rw [h, ev_modulus]
  have hself : ∀ z : R, z + z = 0 := CharTwo.add_self_eq_zero
  have h0 := ev_shl1 α s.1.v0
  have h1 := ev_shl1 α s.1.v1
  constructor
  · unfold mulStep val
    simp only [and_bit _ 63 (by omega : 63 < 64)]
    by_cases hb : s.1.v1.getLsbD 63 = true
    · rw [if_pos hb] at h1 ⊢
      simp only [or_eq_xor, ev_xor, hm, ev_shr63]
      by_cases hc : s.1.v0.getLsbD 63 = true
      · rw [if_pos hc] at h0 ⊢
        linear_combination h0 + α ^ 64 * h1
      · rw [if_neg hc] at h0 ⊢
        linear_combination h0 + α ^ 64 * h1
    · rw [if_neg hb] at h1 ⊢
      simp only [or_eq_xor, ev_xor, ev_shr63]
      by_cases hc : s.1.v0.getLsbD 63 = true
      · rw [if_pos hc] at h0 ⊢
        linear_combination h0 + α ^ 64 * h1
      · rw [if_neg hc] at h0 ⊢
        linear_combination h0 + α ^ 64 * h1
  · unfold mulStep val
    simp only [and_bit _ j hj]
    by_cases hb : w.getLsbD j = true
    · simp only [hb, if_true, ev_xor]; ring
    · simp only [hb, Bool.false_eq_true, if_false]; ring

/-- The inner loop of the portable multiplication. -/
theorem val_mulLoop (h : α ^ 128 = α ^ 7 + α ^ 2 + α + 1) (w : BitVec 64) (s : GF128 × GF128) : ∀ n, n ≤ 64 →
    val α ((List.range n).foldl (fun s j => mulStep w j s) s).1 = α ^ n * val α s.1 ∧
    val α ((List.range n).foldl (fun s j => mulStep w j s) s).2 = val α s.2 +
      (∑ i ∈ Finset.range n, if w.getLsbD i then α ^ i else 0) * val α s.1 := by
  intro n
  induction n with
  | zero => intro _; simp
  | succ n ih =>
    intro hn
    obtain ⟨h1, h2⟩ := ih (by omega)
    obtain ⟨h3, h4⟩ := val_mulStep α h w n (by omega) ((List.range n).foldl (fun s j => mulStep w j s) s)
    rw [List.range_succ, List.foldl_append, List.foldl_cons, List.foldl_nil, h3, h4, h1, h2, Finset.sum_range_succ]
    refine ⟨by ring, ?_⟩
    by_cases hb : w.getLsbD n = true
    · rw [if_pos hb, if_pos hb]; ring
    · rw [if_neg hb, if_neg hb]; ring

/-- The portable multiplication computes the product. -/
theorem val_mulPortable (h : α ^ 128 = α ^ 7 + α ^ 2 + α + 1) (x y : GF128) : val α (mulPortable x y) = val α x * val α y := by
  unfold mulPortable
  obtain ⟨h1, h2⟩ := val_mulLoop α h y.v0 (x, mk0) 64 le_rfl
  obtain ⟨-, h4⟩ := val_mulLoop α h y.v1 ((List.range 64).foldl (fun s j => mulStep y.v0 j s) (x, mk0)) 64 le_rfl
  simp only at h4 ⊢
  rw [h4, h1, h2]
  have : val α mk0 = 0 := by
    unfold val mk0
    rw [ev_zero]; ring
  simp only [this]
  unfold val ev
  ring

end DVO.GF128
