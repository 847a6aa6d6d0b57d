/-
Bounds on the estimate of the number of buckets.
-/
import Verif.Proofs.Erf
import Mathlib.Analysis.Complex.ExponentialBounds

namespace DVO.Cuckoo
open Real

theorem sqrt2_lo : 1.414 ≤ √2 := Real.le_sqrt_of_sq_le (by norm_num)
theorem sqrt2_hi : √2 ≤ 1.415 := Real.sqrt_le_iff.2 ⟨by norm_num, by norm_num⟩

theorem log_nonneg {n : Nat} (h : 0 < n) : 0 ≤ logb 2 n :=
  Real.logb_nonneg (by norm_num) (by exact_mod_cast h)

theorem slope_le (n : Nat) : slope n ≤ 123.5 := by
  unfold slope
  have := erf_le_one ((logb 2 n - 6.3) / (2.3 * √2))
  linarith

theorem slope_ge {n : Nat} (h : 0 < n) : 0.008 ≤ slope n := by
  have h1 : -1.94 ≤ (logb 2 n - 6.3) / (2.3 * √2) := by
    rw [le_div_iff₀ (by positivity)]
    have := log_nonneg h
    have := sqrt2_lo
    linarith
  have h2 := erf_mono h1
  have h3 := erf_gap (x := 1.94) (by norm_num)
  have h4 : 1 / 8104 ≤ rexp (-1 * (1.94 + 1) ^ 2) := by
    have h5 : rexp (-9) ≤ rexp (-1 * (1.94 + 1) ^ 2) := by rw [exp_le_exp]; norm_num
    have h6 : rexp 9 ≤ 8104 := by
      rw [show (9 : ℝ) = (9 : ℕ) * 1 by norm_num, exp_nat_mul]
      calc rexp 1 ^ 9 ≤ 2.7182818286 ^ 9 := pow_le_pow_left₀ (exp_pos 1).le exp_one_lt_d9.le 9
        _ ≤ 8104 := by norm_num
    rw [exp_neg] at h5
    refine le_trans ?_ h5
    rw [one_div]
    exact inv_anti₀ (exp_pos 9) h6
  have h7 : 1.12 * (1 / 8104) ≤ 2 / √π * rexp (-1 * (1.94 + 1) ^ 2) := mul_le_mul le_coef h4 (by norm_num) coef_pos.le
  unfold slope
  norm_num at h2 h3 h7 ⊢
  linarith

/-- For numbers of elements above the mean of the transition. -/
theorem slope_ge' {n : Nat} {x : ℝ} (hx : 0 ≤ x) (h1 : x ≤ 1) (h : 6.3 + 3.2545 * x ≤ logb 2 n) :
    61.75 * (1 + 1.12 * (x - x ^ 3 / 3)) ≤ slope n := by
  have h2 : x ≤ (logb 2 n - 6.3) / (2.3 * √2) := by
    rw [le_div_iff₀ (by positivity)]
    have := mul_le_mul_of_nonneg_left sqrt2_hi hx
    linarith
  have h3 := erf_mono h2
  have h4 := le_erf hx
  have h5 : 0 ≤ x - x ^ 3 / 3 := by
    have : x ^ 3 ≤ x := by
      calc x ^ 3 = x * x ^ 2 := by ring
        _ ≤ x * 1 := mul_le_mul_of_nonneg_left (pow_le_one₀ hx h1) hx
        _ = x := mul_one x
    linarith
  have h6 := mul_le_mul_of_nonneg_right le_coef h5
  unfold slope
  linarith

theorem intercept_le {n : Nat} : intercept n ≤ -logb 2 n := by
  unfold intercept
  have := neg_one_le_erf ((logb 2 n - 6.45) / (2.18 * √2))
  linarith

theorem le_intercept {n : Nat} : -130 - logb 2 n ≤ intercept n := by
  unfold intercept
  have := erf_le_one ((logb 2 n - 6.45) / (2.18 * √2))
  linarith

theorem estimate_le {s a : ℝ} {n : Nat} (hn : 0 < n) (hs : 0 ≤ s) (ha : 0 < a) (h : a ≤ slope n) :
    estimate3 s n ≤ (s + 130 + logb 2 n) / a * n := by
  unfold estimate3
  have h0 := log_nonneg hn
  have h1 := le_intercept (n := n)
  apply mul_le_mul_of_nonneg_right _ (Nat.cast_nonneg n)
  exact div_le_div₀ (by linarith) (by linarith) ha h

theorem le_estimate {s : ℝ} {n : Nat} (hn : 0 < n) (hs : 0 ≤ s) : (s + logb 2 n) / 123.5 * n ≤ estimate3 s n := by
  unfold estimate3
  have h0 := log_nonneg hn
  have h1 := intercept_le (n := n)
  have h2 := slope_ge hn
  apply mul_le_mul_of_nonneg_right _ (Nat.cast_nonneg n)
  exact div_le_div₀ (by linarith) (by linarith) (by linarith) (slope_le n)

/-- Twelve bits of security suffice for at least one bucket per element, with a little to spare. -/
theorem estimate_enough {s : ℝ} {n : Nat} (hn : 0 < n) (hs : 12 ≤ s) : (1 + 1 / 2 ^ 10) * n ≤ estimate3 s n := by
  have h0 := log_nonneg hn
  have hp := slope_ge hn
  unfold estimate3
  apply mul_le_mul_of_nonneg_right _ (Nat.cast_nonneg n)
  rw [le_div_iff₀ (by linarith)]
  have key : erf ((logb 2 n - 6.3) / (2.3 * √2)) - erf ((logb 2 n - 6.45) / (2.18 * √2)) ≤ 0.177 := by
    rcases le_total ((logb 2 n - 6.3) / (2.3 * √2)) ((logb 2 n - 6.45) / (2.18 * √2)) with h | h
    · have := erf_mono h
      norm_num at this ⊢
      linarith
    · refine (erf_lip h).trans ?_
      have h1 : (logb 2 n - 6.3) / (2.3 * √2) - (logb 2 n - 6.45) / (2.18 * √2) = (1.101 - 0.12 * logb 2 n) / (5.014 * √2) := by
        field_simp
        ring
      have h2 : (1.101 - 0.12 * logb 2 n) / (5.014 * √2) ≤ 0.156 := by
        rw [div_le_iff₀ (by positivity)]
        have := sqrt2_lo
        norm_num at this ⊢
        linarith
      rw [← h1] at h2
      calc _ ≤ (1.13 : ℝ) * 0.156 := mul_le_mul coef_lt h2 (by linarith) (by norm_num)
        _ ≤ 0.177 := by norm_num
  have h3 := erf_le_one ((logb 2 n - 6.3) / (2.3 * √2))
  have h4 := neg_one_le_erf ((logb 2 n - 6.3) / (2.3 * √2))
  have h5 := slope_le n
  have h6 : slope n = 123.5 / 2 * (1 + erf ((logb 2 n - 6.3) / (2.3 * √2))) := rfl
  have h7 : intercept n = -130 / 2 * (1 + erf ((logb 2 n - 6.45) / (2.18 * √2))) - logb 2 n := rfl
  generalize erf ((logb 2 n - 6.3) / (2.3 * √2)) = A at *
  generalize erf ((logb 2 n - 6.45) / (2.18 * √2)) = B at *
  have h8 : (1 + 1 / 2 ^ 10) * slope n ≤ slope n + 0.13 := by
    norm_num at h5 ⊢
    linarith
  norm_num at *
  linarith

end DVO.Cuckoo
