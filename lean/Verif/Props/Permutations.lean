/-
C76: what is proved for random functions in place of AES (C71, C72, C74), for random permutations.
-/
import Verif.Props.RandomTests
import Verif.Props.Sampling
import Verif.Props.AES

namespace DVO.Permutations
open VOLE Cuckoo
open RNG (Gen create)
open _root_.DVO.Dist (stdLib)

attribute [local instance] bitsFintype

/-- C76: encryption with AES under any key is a permutation, i.e. one of those that are counted. -/
theorem C76_aes (key : Block) : ∃ e : Equiv.Perm Block, ∀ b, e b = AES.encrypt key b :=
  ⟨Equiv.ofBijective _ (AES.C73_bijective key), fun _ => rfl⟩

/-- C76: whatever is done with up to `2^63` blocks at different inputs, a random permutation makes it at most `4/3` times as likely as
    independent and uniform blocks. -/
theorem C76_blocks {B : Nat} (hB : B ≤ 2 ^ 63) {q : Fin B → Block} (hq : Function.Injective q) (A : Finset (Fin B → Block)) :
    overPermutations (fun e => (fun i => e (q i)) ∈ A) ≤ 4 / 3 * ((A.card : ℚ) / (2 ^ 128) ^ B) := by
  rw [overPermutations_eq]
  exact blocks_uniform family_permutations hB q hq A

/-- C76: the bucket numbers of different inputs under all hash functions (C71). -/
theorem C76_tables {bits : Sec → Nat → Nat → Nat → Bool} (H : FaithfulBits bits) {f : ℚ} (hf : 1 ≤ f) {k : Nat} (hk : 0 < k) (hk' : k < 2 ^ 31) (optimal : Nat → Int)
    {inputs : List Block} (hd : inputs.Nodup) (hm : inputs.length * k ≤ 2 ^ 63) {N : Int} (h0 : 0 < N) (hN : N < 2 ^ 63)
    (ha : ¬ bits (some f) k inputs.length N.toNat = true) (A : Finset (Fin inputs.length × Fin k → ZMod N.toNat)) :
    overPermutations (fun enc => ∃ (rows : List (List Nat)) (t : Fin inputs.length × Fin k → ZMod N.toNat), hash ⟨enc, k, bits (some f) k, optimal⟩ inputs N = .ok rows ∧ t ∈ A ∧
        ∀ a, ∃ (row : List Nat) (b : Nat), rows[a.1.val]? = some row ∧ row[a.2.val]? = some b ∧ t a = (b : ZMod N.toNat)) ≤
      4 / 3 * ((A.card : ℚ) / (N.toNat : ℚ) ^ (inputs.length * k) + 1 / (2 * f) + ((inputs.length * k : Nat) : ℚ) ^ 2 / 2 ^ 128) := by
  rw [overPermutations_eq]
  exact table_le family_permutations H hf hk hk' optimal hm (by norm_num) hd h0 hN ha A

/-- C76: the noise indices, for the parameters of the library (C72). -/
theorem C76_noise (hiFirst new : Bool) {i n t m fuel dfuel : Nat} (ht : noiseSizes[i]? = some (t : Int)) (hm : seedSizes[i]? = some (m : Int)) (hn : m ≤ n)
    (hn' : n ≤ 10616092) (hf : 2 * t < fuel) (hd : 2 * t ≤ dfuel) {junk : Gen} {s : List (BitVec 8)} {g : Gen} (hg : create junk s t = .ok g) :
    overPermutations (fun enc => ¬ ∃ l, sampleIndices (stdLib hiFirst new dfuel) (fun _ => enc) n t fuel g [] = .ok l) < 1 / 2 ^ 138 := by
  rw [overPermutations_eq]
  exact (Dist.noise_le family_permutations hiFirst new ht hm hn hn' hf hd hg).trans_lt (by norm_num)

/-- C76: the code generator (C72). -/
theorem C76_code {T : Type} [Scalar T] (hiFirst new : Bool) {rows cols F dfuel : Nat} (hr : 1 ≤ rows) (hr' : rows < 2 ^ 64) (hc : cols ≤ 10616092) (hF : 1 ≤ F) (hF' : F ≤ 2 ^ 16)
    (hd : F ≤ dfuel) {junk : Gen} {s : List (BitVec 8)} {g : Gen} (hg : create junk s (nonzeros * cols) = .ok g) :
    overPermutations (fun enc => ¬ ∃ c : Sparse T, sampleCode (stdLib hiFirst new dfuel) (fun _ => enc) rows cols g = .ok c) ≤
      4 / 3 * (10 * cols * (F + 2) * ((rows : ℚ) / 2 ^ 64) ^ F) := by
  rw [overPermutations_eq]
  exact Dist.code_le family_permutations hiFirst new hr hr' hc hF hF' hd hg

open RandomTests

/-- C76: the unit tests of the random generator (C74). -/
theorem C76_tests (junk : Gen) {s : List (BitVec 8)} (hs : 32 ≤ s.length) :
    overPermutations (fun enc => notObviouslyBroken (fun _ => enc) junk s ≠ .ok true) ≤ 1 / 2 ^ 62 ∧
    overPermutations (fun enc => allBitsGetSampled (fun _ => enc) junk s ≠ .ok true) < 1 / 2 ^ 73 ∧
    ∀ F : Doubles, F.Accurate → overPermutations (fun enc => uniformReals F (fun _ => enc) junk s ≠ .ok true) ≤ 4 / 3 * (1 / 2 ^ 1900) := by
  simp only [overPermutations_eq]
  exact ⟨(broken_le family_permutations junk hs).trans (by norm_num), (bits_le family_permutations junk hs).trans_lt (by norm_num),
    fun F hF => reals_le family_permutations hF junk hs⟩

/-- C76: the test in which cuckoo hashing is to fail (C74). -/
theorem C76_overflow {bits : Sec → Nat → Nat → Nat → Bool} (H : FaithfulBits bits) (optimal : Nat → Nat → Int) :
    overPermutations (fun enc => cuckooOverflow (fun _ => enc) (bits (some (2 ^ 40))) optimal ≠ .ok true) ≤ 1 / 2 ^ 40 := by
  rw [overPermutations_eq]
  exact (overflow_le family_permutations H optimal).trans (by norm_num)

/-! Examples: two blocks; the tables of a thousand inputs; the smallest and the largest parameters; the tests. The permutations are really
different from the functions: two blocks at different inputs are never equal. -/
section Examples

example (A : Finset (Fin 2 → Block)) : overPermutations (fun e => (fun i : Fin 2 => e (BitVec.ofNat 128 i)) ∈ A) ≤ 4 / 3 * ((A.card : ℚ) / (2 ^ 128) ^ 2) :=
  C76_blocks (by norm_num) (q := fun i : Fin 2 => BitVec.ofNat 128 i) (by decide) A

example : overPermutations (fun e => e 0 = e 1) = 0 := by
  unfold overPermutations
  have : IsEmpty {e : Equiv.Perm Block // (e : Block → Block) 0 = e 1} := ⟨fun e => absurd (e.1.injective e.2) (by decide)⟩
  rw [Nat.card_of_isEmpty, Nat.cast_zero, zero_div]

example := C76_tables exactBits_faithful (f := 2 ^ 40) (by norm_num) (k := 3) (by norm_num) (by norm_num) (fun _ => 0) ex_nodup
  (by rw [List.length_map, List.length_range]; norm_num) (N := 2000) (by norm_num) (by norm_num)
  (by
    rw [List.length_map, List.length_range, Bool.not_eq_true, show (2000 : Int).toNat = 2000 from rfl]
    exact C68_accepted exactBits_faithful (by norm_num) (by norm_num) (by norm_num) (by norm_num))

example (new : Bool) (junk g : Gen) (s : List (BitVec 8)) (hg : create junk s 98 = .ok g) :
    overPermutations (fun enc => ¬ ∃ l, sampleIndices (stdLib true new 1000) (fun _ => enc) 4096 98 1000 g [] = .ok l) < 1 / 2 ^ 138 :=
  C76_noise (i := 0) true new rfl rfl (by norm_num) (by norm_num) (by norm_num) (by norm_num) hg

example (new : Bool) (junk g : Gen) (s : List (BitVec 8)) (hg : create junk s (nonzeros * (10616092 : Nat)) = .ok g) :
    overPermutations (fun enc => ¬ ∃ c : Sparse (BitVec 64), @sampleCode _ (scalarUInt 64) (stdLib true new 5) (fun _ => enc) (588160 : Nat) 10616092 g = .ok c) < 1 / 2 ^ 190 := by
  let _ := scalarUInt 64
  exact (C76_code true new (rows := 588160) (cols := 10616092) (F := 5) (by norm_num) (by norm_num) (by norm_num) (by norm_num) (by norm_num) (le_refl _) hg).trans_lt (by norm_num)

example (junk : Gen) := C76_tests junk (s := List.replicate 32 5) (by decide)
example (junk : Gen) := (C76_tests junk (s := List.replicate 32 5) (by decide)).2.2 _ exactDoubles_accurate
example := C76_overflow exactBits_faithful fun _ _ => 1

end Examples
end DVO.Permutations
