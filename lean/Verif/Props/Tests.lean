/-
C69: the assertions of the library's unit tests hold of the model.
-/
import Verif.Model.Tests
import Verif.Props.Formulas
import Verif.Props.GF128

set_option linter.unusedSectionVars false

/-! ### gf128_test.cpp -/

namespace DVO.GF128

/-- The arguments and results of `gf128_mul` in the test (gf128_test.cpp:37-66). -/
def sage : List (GF128 × GF128 × GF128) :=
  [(ofHighLow 0xb1d2219b0266de02 0x4556f8aac66f427f, ofHighLow 0xfc9de0af7ec40b3f 0x3dddbcee3039f5fc, ofHighLow 0xf0b63cd2d8d9acb7 0x14c9965cbb45f242),
   (ofHighLow 0x7218e0e28cba2bad 0xc63a3ae27b186b00, ofHighLow 0x6cbf9a222a7f80a7 0xbfe1ca4a7ccb135f, ofHighLow 0x9a68dc276e08964a 0x94cf56a81986e62f),
   (ofHighLow 0xfa309c33b717dd13 0x38567cdad827aacf, ofHighLow 0x8418b817f5caf84c 0x3590e0c94d76b16a, ofHighLow 0x0d4af0a0c7778f42 0xa52cdf9b42326edc),
   (ofHighLow 0xf7903a9c58e4223c 0x0cdc30af062ba589, ofHighLow 0x4193e34b8241b8b6 0x8d73a6d58a9833ad, ofHighLow 0x1aebbb2a40e6bdc5 0x40b58b1663f1e7ba),
   (ofHighLow 0x81f59dadf3516810 0x657e286088c96142, ofHighLow 0x12356e70b09e27a6 0x56aa86373c498fdd, ofHighLow 0x6f1931b5b32adfd6 0x3d0721c2dd988b1d),
   (ofHighLow 0x0fe9a9f10ea6b3be 0x614becf0f6981970, ofHighLow 0xf764a67447957a65 0x897bb93561e04d72, ofHighLow 0x7082df4ae39182f8 0x29ead6ff7a231a76),
   (ofHighLow 0xb6f0e7fe834a305f 0x5d1bce4867374275, ofHighLow 0xf507be43450e596c 0x7625671a07a1b127, ofHighLow 0x7d87898bb86b9700 0x288b33919644a559),
   (ofHighLow 0x00a7fced16ffa59b 0x7009d6ea6cbc3723, ofHighLow 0xb4dab96b1454919d 0x23fad70584b9ff24, ofHighLow 0x6f67249586163ab9 0xbb823abc98939fae),
   (ofHighLow 0x5756b56a1d208f91 0xac2c97ebcf121998, ofHighLow 0x633c9cefc089eb74 0x0fd73239d93bd077, ofHighLow 0xb2658b016f98c47f 0x9dfa616729b5e040),
   (ofHighLow 0xf55ab02f9dae69b8 0xc1c42adfa999b078, ofHighLow 0xfae308c406eb08fe 0x49bfcd0bd4d96b01, ofHighLow 0xdf0f7f62ecc610e1 0x9bcec94d9f08f412)]

/-- C69: `MultiplicationTest.SageTests`, for both implementations of the multiplication. (The values come
    from a computer algebra system.) -/
theorem C69_sage : sage.length = 10 ∧ ∀ v ∈ sage, eq (mulAsm v.1 v.2.1) v.2.2 = true ∧ eq (mulPortable v.1 v.2.1) v.2.2 = true := by
  decide +kernel

/-- C69: `InverseTest.SimpleTest` passes exactly if the random element is not zero. -/
theorem C69_inverse (a : GF128) : eq (mul a (inverse a)) (ofLow 1) = true ↔ a ≠ zero := by
  constructor
  · rintro h rfl
    rw [C46_inverse.2] at h
    exact absurd h (by decide +kernel)
  · intro h
    rw [C46_inverse.1 a h]
    decide

end DVO.GF128

/-! ### ggm_tree_test.cpp -/

namespace DVO.GGM

theorem arity_keys (rand : Nat → Block) (arity : Nat) : ((List.range arity).map rand).length = arity := by simp

theorem createArity_eq (aes : Cipher) (fl : Nat → Nat → Nat) (arity : Nat) (n : Int) (seed : Block) (rand : Nat → Block) :
    createArity aes fl arity n seed rand = create aes fl n seed ((List.range arity).map rand) := by
  unfold createArity
  rw [if_neg (by omega), Int.toNat_natCast]

/-- C69: `Constructor`, and the calls of `Create` in `Expansion` and `Constructor2`, for all arities and all
    numbers of leaves up to 2^33 (the values of the nodes are those of `C01_create_recurrence`). -/
theorem C69_constructor (aes : Cipher) {fl : Nat → Nat → Nat} (H : FaithfulDepth fl) (rand : Nat → Block) {arity : Nat} (ha : 2 ≤ arity)
    {n : Nat} (hn : 0 < n) (hn' : n ≤ 2 ^ 33) (seed : Block) :
    ∃ t, createArity aes fl arity n seed rand = .ok t ∧ t.arity = arity ∧ t.numLeaves = n ∧ t.getValueAtNode 0 0 = .ok seed := by
  rw [createArity_eq]
  obtain ⟨t, ht⟩ := C68_tree H aes (n := n) (by omega) (by omega) seed (keys := (List.range arity).map rand) (by rw [arity_keys]; exact ha)
  obtain ⟨h1, -, -, -, h2, h3, -⟩ := C01_create_recurrence aes fl n seed _ t ht
  exact ⟨t, ht, by rw [h1, arity_keys], by rw [h2, Int.toNat_natCast], h3⟩

theorem numLeaves_of {t : Tree} {n : Nat} (h : t.levelSize (t.numLevels - 1) = .ok n) : t.numLeaves = n := by
  unfold Tree.levelSize Tree.numLevels rd at h
  unfold Tree.numLeaves
  rw [List.getLast?_eq_getElem?]
  cases hr : t.levels[t.levels.length - 1]? with
  | none => rw [hr] at h; cases h
  | some row => rw [hr] at h; injection h

/-- C69: `Constructor2` (`CheckExceptOnPathToIndex`), with the comparison of the leaves of both trees that the
    test intends; it compares the leaves of the second tree with themselves. -/
theorem C69_constructor2 (aes : Cipher) {fl : Nat → Nat → Nat} (H : FaithfulDepth fl) (rand : Nat → Block) {arity : Nat} (ha : 2 ≤ arity)
    {n : Nat} (hn : n ≤ 2 ^ 31) (seed : Block) {missing : Nat} (hm : missing < n) :
    ∃ t x t2, createArity aes fl arity n seed rand = .ok t ∧ t.getSiblingWiseXOR = .ok x ∧
      createFromXor aes fl arity n missing x t.keys = .ok t2 ∧
      t2.arity = t.arity ∧ t2.numLeaves = t.numLeaves ∧ t2.numLevels = t.numLevels ∧ t2.getValueAtLeaf missing = .ok 0 ∧
      (∀ i : Nat, i < n → i ≠ missing → ∃ v, t.getValueAtLeaf i = .ok v ∧ t2.getValueAtLeaf i = .ok v) ∧
      ∀ l : Nat, l < t.numLevels → t2.getValueAtNode l (missing / arity ^ (t.numLevels - 1 - l) : Nat) = .ok 0 := by
  obtain ⟨t, ht, ha', -, -⟩ := C69_constructor aes H rand ha (n := n) (by omega) (by omega) seed
  have ht' : create aes fl n seed ((List.range arity).map rand) = .ok t := by rw [← createArity_eq]; exact ht
  obtain ⟨-, -, h0, hlast, -, -, hrec⟩ := C01_create_recurrence aes fl n seed _ t ht'
  rw [arity_keys] at hrec
  obtain ⟨x, t2, hx, h2, e1, -, e3, e4, e5⟩ := C03_punctured aes fl n seed _ t ht' (by omega) missing (by omega) (by omega)
  rw [Int.toNat_natCast] at hlast e5
  rw [ha'] at h2 e5
  have hpos : 0 < t.numLevels := by
    unfold Tree.numLevels
    by_contra hc
    unfold Tree.levelSize at h0
    rw [List.length_eq_zero_iff.1 (show t.levels.length = 0 by omega)] at h0
    cases h0
  have leaf : ∀ i : Nat, i < n → ∃ v, t.getValueAtNode ((t.numLevels - 1 : Nat) : Int) i = .ok v := fun i hi =>
    (C05_getValue t _ i).1.2 ⟨by omega, by omega, by omega, n, by rw [Int.toNat_natCast]; exact hlast, by omega⟩
  -- the nodes on the path exist
  have path : ∀ k, k < t.numLevels → ∃ v, t.getValueAtNode ((t.numLevels - 1 - k : Nat) : Int) ((missing / arity ^ k : Nat) : Int) = .ok v := by
    intro k
    induction k with
    | zero => intro _; rw [pow_zero, Nat.div_one]; exact leaf missing hm
    | succ k ih =>
      intro hk
      obtain ⟨v, hv⟩ := ih (by omega)
      obtain ⟨-, h3, -, N, h4, h5⟩ := (C05_getValue t _ _).1.1 ⟨v, hv⟩
      rw [Int.toNat_natCast] at h4
      obtain ⟨p, -, h6, -, -⟩ := hrec (t.numLevels - 1 - (k + 1)) (missing / arity ^ k) (by
        rw [show t.numLevels - 1 - (k + 1) + 1 = t.numLevels - 1 - k by omega]
        unfold Tree.levelSize rd at h4
        cases hr : t.levels[t.numLevels - 1 - k]? with
        | none => rw [hr] at h4; cases h4
        | some row =>
          rw [hr] at h4
          injection h4 with h4
          exact ⟨row, hr, by omega⟩)
      rw [Nat.div_div_eq_div_mul, ← pow_succ] at h6
      exact ⟨p, h6⟩
  have eq2 : ((t2.numLevels : Int) - 1) = ((t.numLevels - 1 : Nat) : Int) := by rw [e3]; omega
  have eq1 : ((t.numLevels : Int) - 1) = ((t.numLevels - 1 : Nat) : Int) := by omega
  refine ⟨t, x, t2, ht, hx, h2, e1, ?_, e3, ?_, ?_, ?_⟩
  · rw [numLeaves_of hlast]
    exact numLeaves_of (by rw [e3, e4]; exact hlast)
  · obtain ⟨v, hv⟩ := leaf missing hm
    unfold Tree.getValueAtLeaf
    rw [eq2, e5 _ _ v hv, if_pos (by unfold pathNode; rw [Nat.sub_self, pow_zero, Nat.div_one])]
  · intro i hi hne
    obtain ⟨v, hv⟩ := leaf i hi
    refine ⟨v, by unfold Tree.getValueAtLeaf; rw [eq1]; exact hv, ?_⟩
    unfold Tree.getValueAtLeaf
    rw [eq2, e5 _ _ v hv, if_neg (by unfold pathNode; rw [Nat.sub_self, pow_zero, Nat.div_one]; exact hne)]
  · intro l hl
    obtain ⟨v, hv⟩ := path (t.numLevels - 1 - l) (by omega)
    rw [show t.numLevels - 1 - (t.numLevels - 1 - l) = l by omega] at hv
    rw [e5 _ _ v hv, if_pos (by rfl)]

/-- The largest case of the test, and one far beyond. -/
example (rand : Nat → Block) := C69_constructor2 exCipher exactDepth_faithful rand (arity := 9) (by omega) (n := 49) (by omega) 42 (missing := 42) (by omega)
example (rand : Nat → Block) := C69_constructor2 exCipher exactDepth_faithful rand (arity := 2) (by omega) (n := 2 ^ 31) (by omega) 42 (missing := 12345678) (by omega)

/-- C69: the tests of error messages. -/
theorem C69_messages (aes : Cipher) (fl : Nat → Nat → Nat) (rand : Nat → Block) (seed : Block) :
    createArity aes fl 1 23 seed rand = .err .invalidArgument "arity must be at least 2" ∧
    createArity aes fl 2 0 seed rand = .err .invalidArgument "num_leaves must be positive" ∧
    createFromXor aes fl 1 0 0 [] [] = .err .invalidArgument "arity must be at least 2" ∧
    createFromXor aes fl 2 0 0 [] [] = .err .invalidArgument "`num_leaves` must be positive" ∧
    createFromXor aes fl 2 1 2 [] [] = .err .invalidArgument "`missing_index` must be smaller than `num_leaves`" ∧
    createFromXor aes fl 2 3 0 [[23, 42], [123]] [] = .err .invalidArgument "All elements of `sibling_wise_xors` must have length `arity`" ∧
    createFromXor aes fl 2 9 0 [[23, 42], [23, 42], [23, 42]] [] =
      .err .invalidArgument "Dimensions passed in `sibling_wise_xors` to small for `num_leaves`" ∧
    createFromXor aes fl 2 1 0 [[23, 42]] [] = .err .invalidArgument "`keys` must not be empty" := by
  exact ⟨rfl, rfl, rfl, rfl, rfl, rfl, rfl, rfl⟩

/-- C69: `GetValueInvalidLevelIndex` and `GetValueInvalidNodeIndex`. -/
theorem C69_getValue (aes : Cipher) (fl : Nat → Nat → Nat) (rand : Nat → Block) (seed : Block) (t : Tree) (h : createArity aes fl 2 23 seed rand = .ok t) :
    t.getValueAtNode (-1) 0 = .err .invalidArgument "level_index out of range" ∧
    t.getValueAtNode 0 (-1) = .err .invalidArgument "node_index out of range" := by
  obtain ⟨-, -, h1, -, -, -, -⟩ := C01_create_recurrence aes fl 23 seed _ t (by rw [← createArity_eq]; exact h)
  refine ⟨rfl, ?_⟩
  unfold Tree.levelSize at h1
  cases hr : rd t.levels 0 with
  | ok row =>
    have hl : 0 < t.levels.length := by
      by_contra hc
      rw [List.length_eq_zero_iff.1 (show t.levels.length = 0 by omega)] at hr
      cases hr
    unfold Tree.getValueAtNode
    rw [if_neg (by unfold Tree.numLevels; omega), show (0 : Int).toNat = 0 from rfl, hr, Out.ok_bind, if_pos (by omega)]
  | _ => rw [hr] at h1; cases h1

end DVO.GGM

/-! ### cuckoo_hasher_test.cpp -/

namespace DVO.Cuckoo
open MeasureTheory Real

/-- C69: the tests of error messages. (The last one is for any number of distinct or equal inputs that is
    larger than the number of buckets, the others are the calls of the tests.) -/
theorem C69_messages (aes : Cipher) (bits : Nat → Nat → Nat → Bool) (optimal : Nat → Nat → Int) (seed : Block) (thr : List Nat) :
    create aes bits optimal seed 0 = .err .invalidArgument "`num_hash_functions` must be positive" ∧
    (∃ h, create aes bits optimal seed 1 = .ok h ∧
      hashSimple h thr [] 0 = .err .invalidArgument "`num_buckets` must be positive" ∧
      hashCuckoo h [] 0 = .err .invalidArgument "`HashCuckoo` can only be called when at least 2 hash functions were specified at construction") ∧
    (∃ h, create aes bits optimal seed 2 = .ok h ∧
      hashCuckoo h [] 0 = .err .invalidArgument "`num_buckets` must be positive" ∧
      hashCuckoo h [1, 2] 1 = .err .invalidArgument "`inputs.size()` must not be larger than `num_buckets`") :=
  ⟨rfl, ⟨_, rfl, rfl, rfl⟩, _, rfl, rfl, rfl⟩

theorem erf_piece {a b : ℝ} (h : a ≤ b) (c : ℝ) :
    2 / √π * (rexp (-c) * ((b - a) * (1 + c) - (b ^ 3 - a ^ 3) / 3)) ≤ erf b - erf a := by
  rw [erf_sub]
  apply mul_le_mul_of_nonneg_left _ coef_pos.le
  have h1 := intervalIntegral.integral_mono_on (μ := volume) h (f := fun t : ℝ => rexp (-c) * (1 + c - t ^ 2))
    (Continuous.intervalIntegrable (by fun_prop) a b) (gauss_int a b) (fun t _ => by
      have h2 := add_one_le_exp (c - t ^ 2)
      have h3 : rexp (-1 * t ^ 2) = rexp (-c) * rexp (c - t ^ 2) := by rw [← Real.exp_add]; congr 1; ring
      rw [h3]
      exact mul_le_mul_of_nonneg_left (by linarith) (exp_pos _).le)
  have h2 : ∫ t in a..b, rexp (-c) * (1 + c - t ^ 2) = rexp (-c) * ((b - a) * (1 + c) - (b ^ 3 - a ^ 3) / 3) := by
    rw [intervalIntegral.integral_const_mul, intervalIntegral.integral_sub (by simp) (Continuous.intervalIntegrable (by fun_prop) a b), integral_pow]
    norm_num
    ring
  linarith

theorem exp_half : 0.606 ≤ rexp (-0.5) := by
  have h1 := Real.exp_one_lt_d9
  have h2 : rexp 0.5 ≤ 1.65 := by
    apply le_of_sq_le_sq _ (by norm_num)
    rw [← Real.exp_nat_mul]
    norm_num
    linarith
  rw [Real.exp_neg, le_inv_comm₀ (by norm_num) (exp_pos _)]
  exact h2.trans (by norm_num)

theorem exp_three_halves : 0.223 ≤ rexp (-1.5) := by
  have h1 := Real.exp_one_lt_d9
  have h2 : rexp 1.5 ≤ 4.482 := by
    apply le_of_sq_le_sq _ (by norm_num)
    rw [← Real.exp_nat_mul, show ((2 : ℕ) : ℝ) * 1.5 = (3 : ℕ) * 1 by norm_num, Real.exp_nat_mul]
    have h3 := pow_le_pow_left₀ (exp_pos 1).le h1.le 3
    exact h3.trans (by norm_num)
  rw [Real.exp_neg, le_inv_comm₀ (by norm_num) (exp_pos _)]
  exact h2.trans (by norm_num)

theorem erf_large {x : ℝ} (h : 1.5 ≤ x) : 0.938 ≤ erf x := by
  have h0 := le_erf (x := 0.5) (by norm_num)
  have h1 := erf_piece (a := 0.5) (b := 1) (by norm_num) 0.5
  have h2 := erf_piece (a := 1) (b := 1.5) (by norm_num) 1.5
  have h3 := erf_mono h
  have e0 := le_coef
  have e1 := exp_half
  have e2 := exp_three_halves
  norm_num at h0 h1 h2 e0 e1 e2 h3 ⊢
  nlinarith

/-- C69: `TestGetOptimalNumberOfBuckets`: with 40 bits and 2^20 elements there are between 1.5 and 1.59 times as
    many buckets as elements (the test asks for 1.4 and 1.6). -/
theorem C69_buckets (aes : Cipher) (bits : Nat → Nat → Nat → Bool) {optimal : Sec → Nat → Nat → Int} (H : Faithful optimal) (seed : Block) :
    ∃ h n, create aes bits (optimal (some (2 ^ 40))) seed 3 = .ok h ∧ getOptimalNumberOfBuckets h (2 ^ 20) = .ok n ∧
      1.5 < (n : ℝ) / 2 ^ 20 ∧ (n : ℝ) / 2 ^ 20 < 1.59 := by
  have hl : logb 2 ((2 ^ 20 : Nat) : ℝ) = 20 := by
    rw [Nat.cast_pow, Nat.cast_ofNat, Real.logb_pow, Real.logb_self_eq_one (by norm_num)]
    norm_num
  have hs : logb 2 ((2 ^ 40 : ℚ) : ℝ) = 40 := by
    rw [Rat.cast_pow, Rat.cast_ofNat, Real.logb_pow, Real.logb_self_eq_one (by norm_num)]
    norm_num
  have s1 := sqrt2_lo
  have s2 := sqrt2_hi
  have e1 : 0.938 ≤ erf ((20 - 6.3) / (2.3 * √2)) := erf_large (by
    rw [le_div_iff₀ (by positivity)]
    norm_num at s2 ⊢
    linarith)
  have e2 : 0.938 ≤ erf ((20 - 6.45) / (2.18 * √2)) := erf_large (by
    rw [le_div_iff₀ (by positivity)]
    norm_num at s2 ⊢
    linarith)
  have e3 := erf_le_one ((20 - 6.3) / (2.3 * √2))
  have e4 := erf_le_one ((20 - 6.45) / (2.18 * √2))
  have a1 : 119.6 ≤ slope (2 ^ 20) := by unfold slope; rw [hl]; norm_num at e1 ⊢; linarith
  have a2 : slope (2 ^ 20) ≤ 123.5 := slope_le _
  have a3 : intercept (2 ^ 20) ≤ -145.9 := by unfold intercept; rw [hl]; norm_num at e2 ⊢; linarith
  have a4 : -150 ≤ intercept (2 ^ 20) := by unfold intercept; rw [hl]; norm_num at e4 ⊢; linarith
  have b1 : 1.505 * 2 ^ 20 ≤ estimate3 (logb 2 ((2 ^ 40 : ℚ) : ℝ)) (2 ^ 20) := by
    unfold estimate3
    rw [hs, Nat.cast_pow, Nat.cast_ofNat]
    apply mul_le_mul_of_nonneg_right _ (by norm_num)
    rw [le_div_iff₀ (lt_of_lt_of_le (by norm_num) a1)]
    norm_num at a2 a3 ⊢
    linarith
  have b2 : estimate3 (logb 2 ((2 ^ 40 : ℚ) : ℝ)) (2 ^ 20) ≤ 1.589 * 2 ^ 20 := by
    unfold estimate3
    rw [hs, Nat.cast_pow, Nat.cast_ofNat]
    apply mul_le_mul_of_nonneg_right _ (by norm_num)
    rw [div_le_iff₀ (lt_of_lt_of_le (by norm_num) a1)]
    norm_num at a1 a4 ⊢
    linarith
  have hr := H (2 ^ 40) (by norm_num) (2 ^ 20) (by norm_num)
  have up : optimal (some (2 ^ 40)) 3 (2 ^ 20) ≤ 1666199 := hr.le (by
    refine le_trans (mul_le_mul_of_nonneg_right b2 (by norm_num)) ?_
    norm_num)
  have lo : 1578000 ≤ optimal (some (2 ^ 40)) 3 (2 ^ 20) := hr.ge (by
    refine lt_of_lt_of_le ?_ (mul_le_mul_of_nonneg_right b1 (by norm_num))
    norm_num)
  have up' : ((optimal (some (2 ^ 40)) 3 (2 ^ 20) : Int) : ℝ) ≤ 1666199 := by exact_mod_cast up
  have lo' : (1578000 : ℝ) ≤ ((optimal (some (2 ^ 40)) 3 (2 ^ 20) : Int) : ℝ) := by exact_mod_cast lo
  refine ⟨_, optimal (some (2 ^ 40)) 3 (2 ^ 20), rfl, ?_, ?_, ?_⟩
  · unfold getOptimalNumberOfBuckets
    rw [if_neg (by norm_num), if_neg (by norm_num), if_pos (Or.inl (by rfl))]
    exact if_pos ⟨by show _ ≤ optimal (some (2 ^ 40)) 3 (2 ^ 20); omega, by show optimal (some (2 ^ 40)) 3 (2 ^ 20) < _; omega⟩
  · rw [lt_div_iff₀ (by norm_num)]
    norm_num at lo' ⊢
    linarith
  · rw [div_lt_iff₀ (by norm_num)]
    norm_num at up' ⊢
    linarith

example := C69_buckets GGM.exCipher (fun _ _ _ => false) exact3_faithful 5

end DVO.Cuckoo
