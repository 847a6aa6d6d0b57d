/-
The remaining floating-point formulas over the real numbers: the length of hashes and the depth of trees.
`Hasher.tooManyBits` and `fl` stand for what the code computes in `double`s.
-/
import Mathlib.Analysis.SpecialFunctions.Log.Base

namespace DVO.Cuckoo

/-- `bits_needed` (cuckoo_hasher.h:137-138 and 190-191), for `m > 0` inputs, `k` hash functions and `b`
    buckets. (The logarithm of 0 is `-inf` in the code and 0 here.) -/
noncomputable def bitsNeeded (s : ℝ) (k m b : Nat) : ℝ := s + Real.logb 2 m + Real.logb 2 k + Real.logb 2 b

end DVO.Cuckoo

namespace DVO.GGM

/-- `log(num_leaves) / log(arity)` (ggm_tree.cpp:43; all_but_one_random_ot.cpp:79 with arity 2). -/
noncomputable def depth (n a : Nat) : ℝ := Real.log n / Real.log a

end DVO.GGM
