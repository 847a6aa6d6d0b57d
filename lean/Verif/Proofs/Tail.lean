/-
Tails of sums of independent numbers; throws that hit every box.
-/
import Verif.Proofs.Words
import Mathlib.Algebra.BigOperators.Ring.Finset
import Mathlib.Analysis.SpecialFunctions.Exp
import Mathlib.Analysis.Complex.ExponentialBounds
import Mathlib.Algebra.Order.Ring.Pow

namespace DVO.Tail
open Finset

/-! ### Throws that hit every box -/

/-- The boxes that no throw hits. -/
def missed {M N : Nat} (t : Fin M → Fin N) : Finset (Fin N) := univ.filter fun b => ∀ i, t i ≠ b

theorem missed_cons {M N : Nat} (b : Fin N) (t : Fin M → Fin N) : missed (Fin.cons b t : Fin (M + 1) → Fin N) = (missed t).erase b := by
  ext c
  simp only [missed, mem_filter, mem_univ, true_and, mem_erase, Fin.forall_fin_succ, Fin.cons_zero, Fin.cons_succ]
  exact and_congr_left fun _ => ne_comm

theorem pow_two_terms {z d : ℝ} (hz : 0 ≤ z) (hd : 0 ≤ d) : ∀ j : Nat, z ^ j + j * z ^ (j - 1) * d ≤ (z + d) ^ j
  | 0 => by simp
  | j + 1 => by
    have h := pow_two_terms hz hd j
    have h1 : (z ^ j + j * z ^ (j - 1) * d) * (z + d) ≤ (z + d) ^ j * (z + d) := mul_le_mul_of_nonneg_right h (by linarith)
    rw [pow_succ (z + d)]
    refine le_trans ?_ h1
    rw [Nat.add_sub_cancel]
    have h2 : (j : ℝ) * z ^ (j - 1) * z = j * z ^ j := by
      cases j with
      | zero => simp
      | succ j => rw [Nat.add_sub_cancel]; ring
    have h3 : (0 : ℝ) ≤ j * z ^ (j - 1) * d * d := by positivity
    push_cast
    have e : (z ^ j + j * z ^ (j - 1) * d) * (z + d) = z ^ (j + 1) + z ^ j * d + (j * z ^ (j - 1) * z) * d + j * z ^ (j - 1) * d * d := by ring
    rw [e, h2]
    nlinarith

/-- The generating function of the number of boxes that are missed. -/
theorem sum_missed {N : Nat} (hN : 0 < N) : ∀ (M : Nat) {z : ℝ}, 0 ≤ z → z ≤ 1 →
    ∑ t : Fin M → Fin N, z ^ (missed t).card ≤ (N : ℝ) ^ M * (1 - (1 - z) * (1 - 1 / N) ^ M) ^ N
  | 0, z, h0, h1 => by
    rw [Fintype.sum_unique]
    have : missed (default : Fin 0 → Fin N) = univ := by
      ext b; simp [missed]
    rw [this, card_univ, Fintype.card_fin]
    simp
  | M + 1, z, h0, h1 => by
    have hN' : (0 : ℝ) < N := by exact_mod_cast hN
    have hN1 : (1 : ℝ) ≤ N := by exact_mod_cast hN
    have hd : 0 ≤ (1 - z) / N := div_nonneg (by linarith) hN'.le
    have h2 : z + (1 - z) / N ≤ 1 := by
      have : (1 - z) / N ≤ (1 - z) / 1 := div_le_div_of_nonneg_left (by linarith) one_pos hN1
      linarith
    have ih := sum_missed hN M (z := z + (1 - z) / N) (by linarith) h2
    have h3 : ∀ t : Fin M → Fin N, ∑ b : Fin N, z ^ (missed (Fin.cons b t : Fin (M + 1) → Fin N)).card ≤ N * (z + (1 - z) / N) ^ (missed t).card := fun t => by
      have e : ∀ b, z ^ (missed (Fin.cons b t : Fin (M + 1) → Fin N)).card = if b ∈ missed t then z ^ ((missed t).card - 1) else z ^ (missed t).card := fun b => by
        rw [missed_cons]
        split
        · next h => rw [card_erase_of_mem h]
        · next h => rw [erase_eq_of_notMem h]
      rw [sum_congr rfl fun b _ => e b, sum_ite, sum_const, sum_const, nsmul_eq_mul, nsmul_eq_mul]
      have e1 : (univ.filter fun b => b ∈ missed t) = missed t := by ext b; simp
      have e2 : ((univ.filter fun b => b ∉ missed t).card : ℝ) = N - (missed t).card := by
        have := card_filter_add_card_filter_not (s := (univ : Finset (Fin N))) (fun b => b ∈ missed t)
        rw [e1, card_univ, Fintype.card_fin] at this
        rw [eq_sub_iff_add_eq, add_comm]
        exact_mod_cast this
      rw [e1, e2]
      have h4 := pow_two_terms h0 hd (missed t).card
      have h5 : (N : ℝ) * (z ^ (missed t).card + (missed t).card * z ^ ((missed t).card - 1) * ((1 - z) / N)) ≤ N * (z + (1 - z) / N) ^ (missed t).card :=
        mul_le_mul_of_nonneg_left h4 hN'.le
      refine le_trans (le_of_eq ?_) h5
      have h6 : ((missed t).card : ℝ) * z ^ ((missed t).card - 1) * z = (missed t).card * z ^ (missed t).card := by
        cases (missed t).card with
        | zero => simp
        | succ j => rw [Nat.add_sub_cancel]; ring
      generalize ((missed t).card : ℝ) = c at *
      generalize z ^ ((missed t).card - 1) = u at *
      generalize z ^ (missed t).card = v at *
      field_simp
      linear_combination h6
    rw [← (Fin.consEquiv (fun _ : Fin (M + 1) => Fin N)).sum_comp, Fintype.sum_prod_type_right]
    refine (sum_le_sum fun t _ => h3 t).trans ?_
    rw [← mul_sum]
    refine (mul_le_mul_of_nonneg_left ih hN'.le).trans (le_of_eq ?_)
    have h7 : 1 - (z + (1 - z) / N) = (1 - z) * (1 - 1 / N) := by field_simp; ring
    rw [h7, pow_succ' (N : ℝ), pow_succ' (1 - 1 / (N : ℝ))]
    ring

/-- Few sequences of throws hit every box. -/
theorem card_onto {N : Nat} (hN : 0 < N) (M : Nat) (A : Finset (Fin M → Fin N)) (hA : ∀ t ∈ A, Function.Surjective t) :
    (A.card : ℝ) ≤ (N : ℝ) ^ M * (1 - (1 - 1 / N) ^ M) ^ N := by
  have h := sum_missed hN M (z := 0) le_rfl zero_le_one
  rw [sub_zero, one_mul] at h
  refine le_trans ?_ h
  rw [card_eq_sum_ones, Nat.cast_sum]
  refine (sum_le_sum fun t ht => ?_).trans (sum_le_sum_of_subset_of_nonneg (subset_univ A) fun t _ _ => pow_nonneg le_rfl _)
  have : missed t = ∅ := by
    rw [missed, filter_eq_empty_iff]
    intro b _ h
    obtain ⟨i, hi⟩ := hA t ht b
    exact h i hi
  rw [this, card_empty, pow_zero, Nat.cast_one]

/-! ### Sums of independent numbers -/

theorem tail_count {D : Type} [Fintype D] (y : D → ℝ) (e : ℝ) {l : ℝ} (hl : 0 ≤ l) (n : Nat) (A : Finset (Fin n → D)) (hA : ∀ t ∈ A, n * e ≤ ∑ i, y (t i)) :
    (A.card : ℝ) ≤ (∑ w, Real.exp (l * (y w - e))) ^ n := by
  classical
  rw [Fintype.sum_pow, card_eq_sum_ones, Nat.cast_sum]
  refine (sum_le_sum fun t ht => ?_).trans (sum_le_sum_of_subset_of_nonneg (subset_univ A) fun t _ _ => prod_nonneg fun i _ => (Real.exp_pos _).le)
  rw [← Real.exp_sum, Nat.cast_one]
  refine Real.one_le_exp ?_
  rw [← mul_sum, sum_sub_distrib, sum_const, card_univ, Fintype.card_fin, nsmul_eq_mul]
  exact mul_nonneg hl (sub_nonneg.2 (hA t ht))

/-- A bound on the number of sequences of values between `-1/2` and `1/2` whose sum is far above what it is on average. -/
theorem tail_bound {D : Type} [Fintype D] {y : D → ℝ} (hy : ∀ w, |y w| ≤ 1 / 2) {m e l : ℝ} (hm : ∑ w, y w ≤ m * Fintype.card D) (hl : 0 ≤ l) (hl' : l ≤ 1) (n : Nat)
    (A : Finset (Fin n → D)) (hA : ∀ t ∈ A, n * e ≤ ∑ i, y (t i)) :
    (A.card : ℝ) ≤ (Fintype.card D : ℝ) ^ n * Real.exp (n * (l * m + l ^ 2 / 4 - l * e)) := by
  refine (tail_count y e hl n A hA).trans ?_
  rw [Real.exp_nat_mul, ← mul_pow]
  refine pow_le_pow_left₀ (sum_nonneg fun _ _ => (Real.exp_pos _).le) ?_ n
  have h1 : ∀ w, Real.exp (l * (y w - e)) ≤ (1 + l * y w + l ^ 2 / 4) * Real.exp (-(l * e)) := fun w => by
    rw [mul_sub, sub_eq_add_neg, Real.exp_add]
    refine mul_le_mul_of_nonneg_right ?_ (Real.exp_pos _).le
    have hw := hy w
    have h2 : |l * y w| ≤ l / 2 := by
      rw [abs_mul, abs_of_nonneg hl]
      calc l * |y w| ≤ l * (1 / 2) := mul_le_mul_of_nonneg_left hw hl
        _ = l / 2 := by ring
    have h3 := (abs_le.1 (Real.abs_exp_sub_one_sub_id_le (h2.trans (by linarith)))).2
    have h4 : (l * y w) ^ 2 ≤ (l / 2) ^ 2 := sq_le_sq' (abs_le.1 h2).1 (abs_le.1 h2).2
    nlinarith
  refine (sum_le_sum fun w _ => h1 w).trans ?_
  rw [← sum_mul, sum_add_distrib, sum_add_distrib, sum_const, sum_const, ← mul_sum, card_univ, nsmul_eq_mul, nsmul_eq_mul, mul_one]
  have h5 : (Fintype.card D : ℝ) + l * ∑ w, y w + Fintype.card D * (l ^ 2 / 4) ≤ Fintype.card D * (1 + (l * m + l ^ 2 / 4)) := by
    have := mul_le_mul_of_nonneg_left hm hl
    linarith
  have h6 : 1 + (l * m + l ^ 2 / 4) ≤ Real.exp (l * m + l ^ 2 / 4) := by linarith [Real.add_one_le_exp (l * m + l ^ 2 / 4)]
  calc _ ≤ (Fintype.card D : ℝ) * (1 + (l * m + l ^ 2 / 4)) * Real.exp (-(l * e)) := mul_le_mul_of_nonneg_right h5 (Real.exp_pos _).le
    _ ≤ (Fintype.card D : ℝ) * Real.exp (l * m + l ^ 2 / 4) * Real.exp (-(l * e)) := by gcongr
    _ = _ := by rw [mul_assoc, ← Real.exp_add, sub_eq_add_neg]

/-! ### Words -/

attribute [local instance] bitsFintype

/-- What a word stands for, as a number between 0 and 1, less 1/2. -/
noncomputable def centred (w : BitVec 64) : ℝ := w.toNat / 2 ^ 64 - 1 / 2

theorem centred_abs (w : BitVec 64) : |centred w| ≤ 1 / 2 := by
  have h : (w.toNat : ℝ) ≤ 2 ^ 64 := by exact_mod_cast w.isLt.le
  have h2 : (w.toNat : ℝ) / 2 ^ 64 ≤ 1 := (div_le_one (by positivity)).2 h
  have h3 : (0 : ℝ) ≤ (w.toNat : ℝ) / 2 ^ 64 := by positivity
  unfold centred
  rw [abs_le]
  constructor <;> linarith

theorem sum_centred : ∑ w, centred w = -(1 / 2) := by
  have inv : Function.Involutive (fun w : BitVec 64 => ~~~w) := fun w => BitVec.not_not
  have h1 : ∑ w, centred (~~~w) = ∑ w, centred w := Equiv.sum_comp inv.toPerm centred
  have h2 : ∀ w, centred w + centred (~~~w) = -(1 / 2 ^ 64) := fun w => by
    have h := w.isLt
    unfold centred
    rw [BitVec.toNat_not]
    have : ((2 ^ 64 - 1 - w.toNat : Nat) : ℝ) = 2 ^ 64 - 1 - w.toNat := by
      rw [Nat.cast_sub (by omega), Nat.cast_sub (by norm_num)]
      push_cast
      ring
    rw [this]
    field_simp
    ring
  have h3 : ∑ w, (centred w + centred (~~~w)) = -1 := by
    rw [sum_congr rfl fun w _ => h2 w, sum_const, card_univ, card_bits, nsmul_eq_mul]
    push_cast
    norm_num
  rw [sum_add_distrib, h1] at h3
  linarith

/-- A set of sequences of words is as likely as it is large. -/
theorem tuples_le {F : Finset (Block → Block)} {c : ℚ} (hF : Family F c) (key nonce : Block) {B : Nat} (hB : B ≤ 2 ^ 63) (A : Finset (Fin (2 * B) → BitVec 64)) :
    Oracle.frac F (fun e => (fun i : Fin (2 * B) => RNG.stream (fun _ => e) key nonce i) ∈ A) ≤ c * ((A.card : ℚ) / (2 ^ 64) ^ (2 * B)) := by
  classical
  let R : (Fin (2 * B) → BitVec 64) → Nat → Finset (BitVec 64) := fun t n => if h : n < 2 * B then {t ⟨n, h⟩} else univ
  have hle : ∀ e : Block → Block, (fun i : Fin (2 * B) => RNG.stream (fun _ => e) key nonce i) ∈ A → ∃ t ∈ A, ∀ n < 2 * B, RNG.stream (fun _ => e) key nonce n ∈ R t n := fun e h =>
    ⟨_, h, fun n hn => by simp only [R, hn, dif_pos, mem_singleton]⟩
  refine (Oracle.frac_mono hle).trans ((Oracle.frac_exists _ _).trans ((sum_le_sum fun t _ => (words_uniform hF key nonce hB (R t)).trans_eq
    (congrArg (c * ·) (prod_congr rfl (g := fun _ => (1 : ℚ) / 2 ^ 64) fun n hn => by
      rw [mem_range] at hn
      simp only [R, hn, dif_pos, card_singleton, Nat.cast_one]))).trans (le_of_eq ?_)))
  rw [sum_const, prod_const, card_range, nsmul_eq_mul, div_pow, one_pow]
  ring

end DVO.Tail
