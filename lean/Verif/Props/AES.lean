/-
C73: with AES itself in place of an arbitrary function.
-/
import Verif.Proofs.AES1
import Verif.Proofs.AES2
import Verif.Proofs.Words
import Verif.Proofs.RNG
import Verif.Props.Formulas

namespace DVO.AES
open Cuckoo
open RNG (stream stream_even stream_odd)

/-! ### The definition is AES -/

/-- Product in GF(2^8). -/
def mul (a : Nat) : (bits b : Nat) → Nat
  | 0, _ => 0
  | bits + 1, b => Nat.xor (b % 2 * a) (xtime (mul a bits (b / 2)))

/-- `b^254`, the inverse in GF(2^8) (zero for zero). -/
def inverse (b : Nat) : Nat :=
  let b2 := mul b 8 b
  let b3 := mul b2 8 b
  let b12 := let b6 := mul b3 8 b3; mul b6 8 b6
  let b15 := mul b12 8 b3
  let b240 := let b30 := mul b15 8 b15; let b60 := mul b30 8 b30; let b120 := mul b60 8 b60; mul b120 8 b120
  mul (mul b240 8 b12) 8 b2

/-- The affine map of the S-box: `b + (b rotated by 1, 2, 3, 4) + 0x63`. -/
def affine (b : Nat) : Nat :=
  let rot (i : Nat) : Nat := (b * 2 ^ i) % 256 + b / 2 ^ (8 - i)
  b ^^^ rot 1 ^^^ rot 2 ^^^ rot 3 ^^^ rot 4 ^^^ 0x63

/-- C73: the table is the S-box: inversion in GF(2^8), and the affine map. -/
theorem C73_sbox : (∀ b < 256, b ≠ 0 → mul b 8 (inverse b) = 1) ∧ inverse 0 = 0 ∧ ∀ b < 256, sub b = affine (inverse b) := by decide +kernel

/-- C73: the examples of FIPS 197 (appendices B and C.1) and of SP 800-38A (F.1.1). The first byte is the lowest. -/
theorem C73_vectors :
    encrypt 0x3c4fcf098815f7aba6d2ae2816157e2b 0x340737e0a29831318d305a88a8f64332 = 0x320b6a19978511dcfb09dc021d842539 ∧
    encrypt 0x0f0e0d0c0b0a09080706050403020100 0xffeeddccbbaa99887766554433221100 = 0x5ac5b47080b7cdd830047b6ad8e0c469 ∧
    encrypt 0x3c4fcf098815f7aba6d2ae2816157e2b 0x2a179373117e3de9969f402ee2bec16b = 0x97ef6624f3ca9ea860367a0db47bd73a ∧
    encrypt 0x3c4fcf098815f7aba6d2ae2816157e2b 0x518eaf45ac6fb79e9cac031e578a2dae = 0xafbafd965a8985e79d69b90385d5d3f5 ∧
    encrypt 0x3c4fcf098815f7aba6d2ae2816157e2b 0xef520a1a19c1fbe511e45ca3461cc830 = 0x880603ede3001b8823ce8e597fcdb143 ∧
    encrypt 0x3c4fcf098815f7aba6d2ae2816157e2b 0x10376ce67b412bad179b4fdf45249ff6 = 0xd45d7204712023823fade8275e780c7b := by decide +kernel

/-! ### Permutations -/

/-- C73: AES is a permutation of the blocks, for every key. -/
theorem C73_bijective (key : Block) : Function.Bijective (encrypt key) := by
  let _ := bitsFintype 128
  exact Finite.injective_iff_bijective.1 fun _ _ => encrypt_inj key

/-- C73: the generator does not repeat: the pairs of words that come from different blocks are different. -/
theorem C73_blocks (key nonce : Block) {i j : Nat} (hi : i < 2 ^ 128) (hj : j < 2 ^ 128)
    (h0 : stream encrypt key nonce (2 * i) = stream encrypt key nonce (2 * j)) (h1 : stream encrypt key nonce (2 * i + 1) = stream encrypt key nonce (2 * j + 1)) : i = j := by
  rw [stream_even, stream_even] at h0
  rw [stream_odd, stream_odd] at h1
  have : encrypt key (nonce + BitVec.ofNat 128 i) = encrypt key (nonce + BitVec.ofNat 128 j) := by
    refine BitVec.eq_of_toNat_eq ?_
    have e0 := congrArg BitVec.toNat h0
    have e1 := congrArg BitVec.toNat h1
    generalize encrypt key (nonce + BitVec.ofNat 128 i) = x at *
    generalize encrypt key (nonce + BitVec.ofNat 128 j) = y at *
    simp only [BitVec.toNat_setWidth, BitVec.toNat_ushiftRight, Nat.shiftRight_eq_div_pow] at e0 e1
    have := x.isLt
    have := y.isLt
    omega
  have h2 := encrypt_inj key this
  have h3 := congrArg BitVec.toNat ((BitVec.add_right_inj nonce).1 h2)
  rwa [BitVec.toNat_ofNat, BitVec.toNat_ofNat, Nat.mod_eq_of_lt hi, Nat.mod_eq_of_lt hj] at h3

/-! ### `TestCuckooHashing` -/

/-- The numbers of buckets and elements of the test. -/
def testSizes : List (Nat × Nat) :=
  [200, 300, 400, 500, 600, 700, 800, 900].flatMap fun n => ([0, 100, 200, 300, 400, 500].filter fun k => 3 * k < 2 * n).map fun k => (n, k)

set_option maxRecDepth 100000 in
theorem testSizes_run : testRuns (2 ^ 128 - 1234) 123 500 testSizes = true := by decide +kernel

/-- C73: `TestCuckooHashing` passes: with the seed -1234 and three hash functions, the numbers 123, 124, ... can be hashed into all the
    numbers of buckets of the test, and each is in exactly one bucket. -/
theorem C73_cuckoo {bits : Sec → Nat → Nat → Nat → Bool} (H : FaithfulBits bits) (optimal : Nat → Nat → Int) {n k : Nat}
    (hn : n ∈ [200, 300, 400, 500, 600, 700, 800, 900]) (hk : 100 ∣ k) (hkn : 3 * k < 2 * n) :
    ∃ h buckets, create encrypt (bits (some (2 ^ 40))) optimal (-1234) 3 = .ok h ∧
      hashCuckoo h ((List.range k).map fun i => BitVec.ofNat 128 (123 + i)) n = .ok buckets ∧ buckets.length = n ∧
      ∀ i < k, ∃! b : Nat, buckets[b]? = some (i : Int) := by
  have hn' : 200 ≤ n ∧ n ≤ 900 := by
    simp only [List.mem_cons, List.not_mem_nil, or_false] at hn
    omega
  obtain ⟨j, rfl⟩ := hk
  have hj : j ≤ 5 := by omega
  have hs : (n, 100 * j) ∈ testSizes := by
    unfold testSizes
    refine List.mem_flatMap.2 ⟨n, hn, List.mem_map.2 ⟨100 * j, List.mem_filter.2 ⟨?_, by simpa using hkn⟩, rfl⟩⟩
    rcases (by omega : j = 0 ∨ j = 1 ∨ j = 2 ∨ j = 3 ∨ j = 4 ∨ j = 5) with rfl | rfl | rfl | rfl | rfl | rfl <;> decide
  have hb : bits (some (2 ^ 40)) 3 (100 * j) n = false := by
    refine C68_accepted H (by norm_num) (by norm_num) (by omega) ?_
    have h1 : ((100 * j : Nat) : ℚ) ≤ 500 := by exact_mod_cast (by omega : 100 * j ≤ 500)
    have h2 : (n : ℚ) ≤ 900 := by exact_mod_cast hn'.2
    calc (2 : ℚ) ^ 40 * (100 * j : Nat) * (3 : Nat) * n ≤ 2 ^ 40 * 500 * (3 : Nat) * 900 := by gcongr
      _ ≤ 3 * 2 ^ 126 := by norm_num
  obtain ⟨buckets, hok⟩ := testRuns_ok (seed := -1234) (first := 123) (m := 500) (by norm_num) testSizes_run hs (by omega) (by omega) (by omega) (by omega) (by omega)
    (bits := fun m b => bits (some (2 ^ 40)) 3 m b) hb (optimal 3)
  refine ⟨_, buckets, by unfold create; rw [if_neg (by norm_num)]; rfl, hok, ?_⟩
  obtain ⟨rows, -, h1, -, h2⟩ := C16_hashCuckoo _ (by norm_num) _ _ (by omega) _ hok
  refine ⟨by exact_mod_cast h1, fun i hi => h2 i (by simpa using hi)⟩

/-! Examples. -/

example := C73_cuckoo exactBits_faithful (fun _ _ => 1) (n := 800) (k := 500) (by decide) (by decide) (by decide)

example : stream encrypt 1 2 0 ≠ stream encrypt 1 2 2 ∧ encrypt 1 2 ≠ encrypt 2 1 := by decide +kernel

end DVO.AES
