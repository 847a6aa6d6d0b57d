/-
The estimate of the number of buckets (cuckoo_hasher.cpp:67-111) over the real numbers. `Hasher.optimal`
stands for what the code computes in `double`s.
-/
import Verif.Model.Cuckoo
import Mathlib.Analysis.SpecialFunctions.Gaussian.GaussianIntegral
import Mathlib.Analysis.SpecialFunctions.Log.Base
import Mathlib.MeasureTheory.Integral.IntervalIntegral.Basic

namespace DVO.Cuckoo

/-- The error function, `std::erf` (used in cuckoo_hasher.cpp:79, 82). -/
noncomputable def erf (x : ℝ) : ℝ := 2 / √Real.pi * ∫ t in (0 : ℝ)..x, Real.exp (-1 * t ^ 2)

/-- `a` (cuckoo_hasher.cpp:74-79). -/
noncomputable def slope (n : Nat) : ℝ := 123.5 / 2 * (1 + erf ((Real.logb 2 n - 6.3) / (2.3 * √2)))

/-- `b` (cuckoo_hasher.cpp:74-83). -/
noncomputable def intercept (n : Nat) : ℝ := -130 / 2 * (1 + erf ((Real.logb 2 n - 6.45) / (2.18 * √2))) - Real.logb 2 n

/-- The number before it is rounded up, for three hash functions (cuckoo_hasher.cpp:90-91). -/
noncomputable def estimate3 (s : ℝ) (n : Nat) : ℝ := (s - intercept n) / slope n * n

/-- `sec(e)`, for two hash functions and `stash_size = 0` (cuckoo_hasher.cpp:92-101). -/
noncomputable def sec2 (n : Nat) (e : ℝ) : ℝ :=
  (1 + 0.65 * 0) * (3.3 * Real.logb 2 e + -0.8 + Real.logb 2 n - (5 * Real.logb 2 n + 14) * e ^ (-2.5 : ℝ))

open Classical in
/-- The search for `e` (cuckoo_hasher.cpp:106-109), from the current `e` and `s`. -/
noncomputable def search2 (sec : ℝ) (n : Nat) : (fuel : Nat) → (e s : ℝ) → Out ℝ
  | 0, _, _ => .diverge
  | fuel + 1, e, s => if s < sec then search2 sec n fuel (e + 1) (sec2 n (e + 1)) else .ok e

/-- The number of buckets for two hash functions (cuckoo_hasher.cpp:104-111). -/
noncomputable def buckets2 (sec : ℝ) (n fuel : Nat) : Out Int := do
  let e ← search2 sec n fuel 1 0
  toInt64 ⌈e * n⌉

end DVO.Cuckoo
