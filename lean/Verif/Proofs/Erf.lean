/-
Bounds on the error function.
-/
import Verif.Model.Buckets
import Mathlib.Analysis.Real.Pi.Bounds

namespace DVO.Cuckoo
open MeasureTheory Real

theorem gauss_int (a b : ℝ) : IntervalIntegrable (fun t : ℝ => rexp (-1 * t ^ 2)) volume a b :=
  (Continuous.intervalIntegrable (by fun_prop) a b)

theorem erf_zero : erf 0 = 0 := by unfold erf; simp

theorem coef_pos : 0 < 2 / √π := by positivity

theorem coef_lt : 2 / √π ≤ 1.13 := by
  rw [div_le_iff₀ (by positivity)]
  have h : (1.77 : ℝ) ≤ √π := by
    apply Real.le_sqrt_of_sq_le
    have := Real.pi_gt_d2
    norm_num at this ⊢
    linarith
  linarith

theorem le_coef : 1.12 ≤ 2 / √π := by
  rw [le_div_iff₀ (by positivity)]
  have h : √π ≤ 1.775 := by
    apply Real.sqrt_le_iff.2 ⟨by norm_num, ?_⟩
    have := Real.pi_lt_d2
    norm_num at this ⊢
    linarith
  linarith

theorem erf_sub (a b : ℝ) : erf b - erf a = 2 / √π * ∫ t in a..b, rexp (-1 * t ^ 2) := by
  unfold erf
  rw [← mul_sub, intervalIntegral.integral_interval_sub_left (gauss_int _ _) (gauss_int _ _)]

theorem erf_mono {a b : ℝ} (h : a ≤ b) : erf a ≤ erf b := by
  have : 0 ≤ erf b - erf a := by
    rw [erf_sub]
    exact mul_nonneg coef_pos.le (intervalIntegral.integral_nonneg h fun t _ => (exp_pos _).le)
  linarith

theorem erf_lip {a b : ℝ} (h : a ≤ b) : erf b - erf a ≤ 2 / √π * (b - a) := by
  rw [erf_sub]
  apply mul_le_mul_of_nonneg_left _ coef_pos.le
  have := intervalIntegral.integral_mono_on (μ := volume) h (gauss_int a b) (g := fun _ => (1 : ℝ)) (by simp)
    (fun t _ => by rw [exp_le_one_iff]; nlinarith [sq_nonneg t])
  simpa using this

theorem erf_neg (x : ℝ) : erf (-x) = -erf x := by
  unfold erf
  rw [← mul_neg, ← intervalIntegral.integral_symm]
  congr 1
  have := intervalIntegral.integral_comp_neg (a := 0) (b := x) (fun t : ℝ => rexp (-1 * t ^ 2))
  simp only [neg_sq, neg_zero] at this
  rw [intervalIntegral.integral_symm, ← this, intervalIntegral.integral_symm, neg_neg]

theorem erf_nonneg {x : ℝ} (h : 0 ≤ x) : 0 ≤ erf x := erf_zero ▸ erf_mono h

theorem erf_le_one (x : ℝ) : erf x ≤ 1 := by
  have hp : ∀ y : ℝ, 0 ≤ y → erf y ≤ 1 := by
    intro y hy
    unfold erf
    have h1 : ∫ t in (0 : ℝ)..y, rexp (-1 * t ^ 2) ≤ √π / 2 := by
      rw [intervalIntegral.integral_of_le hy]
      have h2 := integral_gaussian_Ioi 1
      rw [div_one] at h2
      rw [← h2]
      exact setIntegral_mono_set (integrable_exp_neg_mul_sq one_pos).integrableOn
        (Filter.Eventually.of_forall fun t => (exp_pos _).le) (Filter.Eventually.of_forall fun t ht => ht.1)
    calc 2 / √π * ∫ t in (0 : ℝ)..y, rexp (-1 * t ^ 2) ≤ 2 / √π * (√π / 2) := mul_le_mul_of_nonneg_left h1 coef_pos.le
      _ = 1 := by field_simp
  rcases le_total 0 x with h | h
  · exact hp x h
  · exact (erf_mono h).trans (by rw [erf_zero]; exact zero_le_one)

theorem neg_one_le_erf (x : ℝ) : -1 ≤ erf x := by
  have := erf_le_one (-x)
  rw [erf_neg] at this
  linarith

/-- A lower bound for positive arguments. -/
theorem le_erf {x : ℝ} (h : 0 ≤ x) : 2 / √π * (x - x ^ 3 / 3) ≤ erf x := by
  unfold erf
  apply mul_le_mul_of_nonneg_left _ coef_pos.le
  have h1 := intervalIntegral.integral_mono_on (μ := volume) h (f := fun t : ℝ => 1 - t ^ 2)
    (Continuous.intervalIntegrable (by fun_prop) 0 x) (gauss_int 0 x) (fun t _ => by
      have := add_one_le_exp (-1 * t ^ 2)
      linarith)
  have h2 : ∫ t in (0 : ℝ)..x, (1 - t ^ 2) = x - x ^ 3 / 3 := by
    rw [intervalIntegral.integral_sub (by simp) (Continuous.intervalIntegrable (by fun_prop) 0 x), integral_pow]
    norm_num
  linarith

/-- `erf` stays away from -1. -/
theorem erf_gap {x : ℝ} (h : 0 ≤ x) : 2 / √π * rexp (-1 * (x + 1) ^ 2) ≤ 1 + erf (-x) := by
  rw [erf_neg]
  have h1 := erf_le_one (x + 1)
  have h2 : 2 / √π * rexp (-1 * (x + 1) ^ 2) ≤ erf (x + 1) - erf x := by
    rw [erf_sub]
    apply mul_le_mul_of_nonneg_left _ coef_pos.le
    have := intervalIntegral.integral_mono_on (μ := volume) (show x ≤ x + 1 by linarith) (f := fun _ => rexp (-1 * (x + 1) ^ 2)) (by simp)
      (gauss_int x (x + 1)) (fun t ht => by
        rw [exp_le_exp]
        have : t ^ 2 ≤ (x + 1) ^ 2 := pow_le_pow_left₀ (by linarith [ht.1]) ht.2 2
        linarith)
    simpa using this
  linarith

end DVO.Cuckoo
