/-
C74: the unit tests that depend on random numbers, with a random function in place of AES.
-/
import Verif.Model.RandomTests
import Verif.Proofs.Tail
import Verif.Proofs.Dist2
import Verif.Props.Uniform
import Verif.Props.Cuckoo

namespace DVO.RandomTests
open Finset VOLE
open _root_.DVO.Dist (Tape tape_create)
open RNG (stream load128 after Gen size)

attribute [local instance] bitsFintype

/-- The generator that the tests make. -/
theorem created (aes : Cipher) (junk : Gen) {s : List (BitVec 8)} (hs : 32 ≤ s.length) :
    ∃ g, RNG.create junk s defaultSize = .ok g ∧ Tape aes (stream aes (load128 s) (load128 (s.drop 16))) (fun p => after aes g p) (2 ^ 49) := by
  obtain ⟨g, hg⟩ : ∃ g, RNG.create junk s defaultSize = .ok g := by
    have h : ¬ s.length < RNG.stateSize := by unfold RNG.stateSize; omega
    unfold RNG.create RNG.seed
    simp only [if_neg h]
    exact ⟨_, rfl⟩
  have e : size defaultSize = 2 ^ 17 := by decide
  have h := tape_create aes (by rw [e]; norm_num) hg
  rw [e] at h
  exact ⟨g, hg, fun p hp => h p (by omega)⟩

/-- A loop that draws one word in each step. -/
theorem draws {aes : Cipher} {f : Nat → BitVec 64} {G : Nat → Gen} {cap : Nat} (H : Tape aes f G cap) {α : Type} (op : α → BitVec 64 → α) (a : α) (r : Nat → α) (h0 : r 0 = a)
    {n : Nat} (h : ∀ i < n, r (i + 1) = op (r i) (f i)) (hn : n ≤ cap) :
    loop (fun _ (s : α × Gen) => do
      let (w, g) ← word aes s.2
      .ok (op s.1 w, g)) 0 n (a, G 0) = .ok (r n, G n) := by
  refine loop_eq (fun i s => s = (r i, G i)) (by rw [h0]) (fun i s _ hi hs => ?_) (fun s hs => by rw [hs, Nat.zero_add])
  subst hs
  dsimp only
  rw [H i (by omega)]
  exact ⟨_, rfl, by rw [h i (by omega)]⟩

/-! ### `NotObviouslyBroken` -/

/-- `NotObviouslyBroken`, for functions from a family in place of AES. -/
theorem broken_le {G : Finset (Block → Block)} {c : ℚ} (hG : Family G c) (junk : Gen) {s : List (BitVec 8)} (hs : 32 ≤ s.length) :
    Oracle.frac G (fun enc => notObviouslyBroken (fun _ => enc) junk s ≠ .ok true) ≤ c * (3 / 2 ^ 64) := by
  classical
  let A : Finset (Fin (2 * 1) → BitVec 64) :=
    univ.image (fun v _ => v) ∪ univ.image (fun v i => if i.val = 0 then 0 else v) ∪ univ.image (fun v i => if i.val = 0 then v else 0)
  have hA : A.card ≤ 3 * 2 ^ 64 := by
    have h : ∀ f : BitVec 64 → Fin (2 * 1) → BitVec 64, (univ.image f).card ≤ 2 ^ 64 := fun f => by
      refine card_image_le.trans ?_
      rw [card_univ, card_bits]
    refine (card_union_le _ _).trans ((Nat.add_le_add (card_union_le _ _) le_rfl).trans ?_)
    have h1 := h fun v _ => v
    have h2 := h fun v i => if i.val = 0 then 0 else v
    have h3 := h fun v i => if i.val = 0 then v else 0
    omega
  have hle : ∀ enc, notObviouslyBroken (fun _ => enc) junk s ≠ .ok true → (fun i : Fin (2 * 1) => stream (fun _ => enc) (load128 s) (load128 (s.drop 16)) i) ∈ A := fun enc h => by
    obtain ⟨g, hg, H⟩ := created (fun _ => enc) junk hs
    have e0 := H 0 (by norm_num)
    have e1 := H 1 (by norm_num)
    generalize stream (fun _ => enc) (load128 s) (load128 (s.drop 16)) = f at *
    unfold notObviouslyBroken at h
    rw [hg, Out.ok_bind, show g = after (fun _ => enc) g 0 from rfl, e0, Out.ok_bind] at h
    dsimp only at h
    rw [Nat.zero_add, e1, Out.ok_bind] at h
    have h2 : f 0 = f 1 ∨ f 0 = 0 ∨ f 1 = 0 := by
      by_contra hc
      push Not at hc
      exact h (by rw [decide_eq_true hc])
    have hi : ∀ i : Fin (2 * 1), i.val = 0 ∨ i.val = 1 := fun i => by omega
    rw [mem_union, mem_union, mem_image, mem_image, mem_image]
    rcases h2 with h2 | h2 | h2
    · refine .inl (.inl ⟨f 0, mem_univ _, funext fun i => ?_⟩)
      rcases hi i with h3 | h3 <;> rw [h3]
      exact h2
    · refine .inl (.inr ⟨f 1, mem_univ _, funext fun i => ?_⟩)
      rcases hi i with h3 | h3 <;> simp [h3, h2]
    · refine .inr ⟨f 0, mem_univ _, funext fun i => ?_⟩
      rcases hi i with h3 | h3 <;> simp [h3, h2]
  refine (Oracle.frac_mono hle).trans ((Tail.tuples_le hG _ _ (by norm_num) A).trans (mul_le_mul_of_nonneg_left ?_ hG.nonneg))
  have h : (A.card : ℚ) ≤ 3 * 2 ^ 64 := by exact_mod_cast hA
  calc (A.card : ℚ) / (2 ^ 64) ^ (2 * 1) ≤ 3 * 2 ^ 64 / (2 ^ 64) ^ (2 * 1) := div_le_div_of_nonneg_right h (by norm_num)
    _ = 3 / 2 ^ 64 := by norm_num

/-- C74: `NotObviouslyBroken` fails for less than `2^-62` of the functions in place of AES. -/
theorem C74_broken (junk : Gen) {s : List (BitVec 8)} (hs : 32 ≤ s.length) :
    overCiphers (fun enc => notObviouslyBroken (fun _ => enc) junk s ≠ .ok true) ≤ 3 / 2 ^ 64 := by
  rw [overCiphers_eq]
  exact (broken_le family_ciphers junk hs).trans_eq (one_mul _)

/-! ### `AllBitsGetSampled` -/

/-- The words without a certain bit. -/
def without (j : Nat) : Finset (BitVec 64) := univ.filter fun w => w.getLsbD j = false

theorem card_without {j : Nat} (hj : j < 64) : (without j).card ≤ 2 ^ 63 := by
  have h1 : (without j).card ≤ (univ.filter fun w : BitVec 64 => ¬ w.getLsbD j = false).card := by
    refine card_le_card_of_injOn (fun w => w ^^^ BitVec.twoPow 64 j) (fun w hw => ?_) (fun a _ b _ h => ?_)
    · have hw := (mem_filter.1 (mem_coe.1 hw)).2
      refine mem_coe.2 (mem_filter.2 ⟨mem_univ _, ?_⟩)
      rw [BitVec.getLsbD_xor, hw, BitVec.getLsbD_twoPow]
      simp [hj]
    · have := congrArg (· ^^^ BitVec.twoPow 64 j) h
      simpa [BitVec.xor_assoc] using this
  have h2 := card_filter_add_card_filter_not (s := (univ : Finset (BitVec 64))) (fun w => w.getLsbD j = false)
  rw [card_univ, card_bits] at h2
  unfold without at *
  omega

/-- The disjunction of the first words. -/
def orWords (f : Nat → BitVec 64) : Nat → BitVec 64
  | 0 => 0
  | n + 1 => orWords f n ||| f n

theorem orWords_bit (f : Nat → BitVec 64) (j n : Nat) : (orWords f n).getLsbD j = false ↔ ∀ i < n, (f i).getLsbD j = false := by
  induction n with
  | zero => simp [orWords]
  | succ n ih =>
    rw [orWords, BitVec.getLsbD_or, Bool.or_eq_false_iff, ih]
    constructor
    · rintro ⟨h1, h2⟩ i hi
      rcases Nat.lt_succ_iff_lt_or_eq.1 hi with h | rfl
      · exact h1 i h
      · exact h2
    · exact fun h => ⟨fun i hi => h i (by omega), h n (by omega)⟩

/-- `AllBitsGetSampled`, for functions from a family in place of AES. -/
theorem bits_le {G : Finset (Block → Block)} {c : ℚ} (hG : Family G c) (junk : Gen) {s : List (BitVec 8)} (hs : 32 ≤ s.length) :
    Oracle.frac G (fun enc => allBitsGetSampled (fun _ => enc) junk s ≠ .ok true) ≤ c * (1 / 2 ^ 74) := by
  classical
  have hle : ∀ enc, allBitsGetSampled (fun _ => enc) junk s ≠ .ok true →
      ∃ j ∈ range 64, ∀ n < 2 * 40, stream (fun _ => enc) (load128 s) (load128 (s.drop 16)) n ∈ without j := fun enc h => by
    obtain ⟨g, hg, H⟩ := created (fun _ => enc) junk hs
    generalize stream (fun _ => enc) (load128 s) (load128 (s.drop 16)) = f at *
    by_contra hc
    push Not at hc
    refine h ?_
    unfold allBitsGetSampled
    rw [hg, Out.ok_bind, show g = after (fun _ => enc) g 0 from rfl, draws H (fun a w => a ||| w) 0 (orWords f) rfl (n := 80) (fun _ _ => rfl) (by norm_num), Out.ok_bind]
    have : orWords f 80 = 0xFFFFFFFFFFFFFFFF := by
      apply BitVec.eq_of_getLsbD_eq
      intro j hj
      obtain ⟨n, h1, h2⟩ := hc j (mem_range.2 hj)
      have h3 : (orWords f 80).getLsbD j = true := by
        by_contra h4
        rw [Bool.not_eq_true, orWords_bit] at h4
        exact h2 (mem_filter.2 ⟨mem_univ _, h4 n h1⟩)
      rw [h3, show (0xFFFFFFFFFFFFFFFF : BitVec 64) = BitVec.allOnes 64 from rfl, BitVec.getLsbD_allOnes, decide_eq_true hj]
    dsimp only
    rw [decide_eq_true this]
  refine (Oracle.frac_mono hle).trans ((Oracle.frac_exists _ _).trans ?_)
  refine (sum_le_card_nsmul _ _ (c * (1 / 2) ^ 80) fun j hj => ?_).trans (le_of_eq (by rw [card_range, nsmul_eq_mul, mul_left_comm]; norm_num))
  refine (words_uniform hG _ _ (by norm_num) (fun _ => without j)).trans (mul_le_mul_of_nonneg_left ?_ hG.nonneg)
  rw [prod_const, card_range]
  refine pow_le_pow_left₀ (div_nonneg (Nat.cast_nonneg _) (by norm_num)) ?_ _
  have h : ((without j).card : ℚ) ≤ 2 ^ 63 := by exact_mod_cast card_without (mem_range.1 hj)
  rw [div_le_div_iff₀ (by norm_num) (by norm_num)]
  linarith

/-- C74: `AllBitsGetSampled` fails for at most `2^-74` of the functions in place of AES. -/
theorem C74_bits (junk : Gen) {s : List (BitVec 8)} (hs : 32 ≤ s.length) :
    overCiphers (fun enc => allBitsGetSampled (fun _ => enc) junk s ≠ .ok true) ≤ 1 / 2 ^ 74 := by
  rw [overCiphers_eq]
  exact (bits_le family_ciphers junk hs).trans_eq (one_mul _)

/-! ### `UniformReals` -/

/-- `double` arithmetic is accurate. -/
structure Doubles.Accurate (F : Doubles) : Prop where
  real : ∀ w, |F.real w - w.toNat / 2 ^ 64| ≤ 1 / 2 ^ 53
  add : ∀ a b, |F.add a b - (a + b)| ≤ |a + b| / 2 ^ 53

/-- Arithmetic without rounding. -/
def exactDoubles : Doubles := ⟨fun w => w.toNat / 2 ^ 64, (· + ·)⟩

/-- The sum, with rounding. -/
def sumWords (F : Doubles) (f : Nat → BitVec 64) : Nat → ℚ
  | 0 => 0
  | n + 1 => F.add (sumWords F f n) (F.real (f n))

theorem sumWords_near {F : Doubles} (hF : F.Accurate) (f : Nat → BitVec 64) : ∀ n ≤ 2 ^ 24, |sumWords F f n - ∑ i ∈ range n, ((f i).toNat : ℚ) / 2 ^ 64| ≤ n / 2 ^ 27
  | 0, _ => by simp [sumWords]
  | n + 1, hn => by
    have ih := sumWords_near hF f n (by omega)
    have h1 := hF.real (f n)
    have h2 := hF.add (sumWords F f n) (F.real (f n))
    have hn' : (n : ℚ) + 1 ≤ 2 ^ 24 := by exact_mod_cast hn
    have hw : ∀ i, (0 : ℚ) ≤ ((f i).toNat : ℚ) / 2 ^ 64 ∧ ((f i).toNat : ℚ) / 2 ^ 64 ≤ 1 := fun i => by
      have h : ((f i).toNat : ℚ) ≤ 2 ^ 64 := by exact_mod_cast (f i).isLt.le
      exact ⟨div_nonneg (Nat.cast_nonneg _) (by norm_num), (div_le_one (by norm_num)).2 h⟩
    have h3 : (0 : ℚ) ≤ ∑ i ∈ range n, ((f i).toNat : ℚ) / 2 ^ 64 := sum_nonneg fun i _ => (hw i).1
    have h4 : ∑ i ∈ range n, ((f i).toNat : ℚ) / 2 ^ 64 ≤ (n : ℚ) := by
      refine (sum_le_card_nsmul _ _ 1 fun i _ => (hw i).2).trans (le_of_eq ?_)
      rw [card_range, nsmul_eq_mul, mul_one]
    obtain ⟨h5, h6⟩ := hw n
    rw [sum_range_succ, sumWords]
    push_cast
    generalize ∑ i ∈ range n, ((f i).toNat : ℚ) / 2 ^ 64 = S at *
    generalize ((f n).toNat : ℚ) / 2 ^ 64 = x at *
    generalize sumWords F f n = a at *
    generalize F.real (f n) = y at *
    have h7 : |a + y| ≤ 2 ^ 25 := by
      obtain ⟨a1, a2⟩ := abs_le.1 ih
      obtain ⟨b1, b2⟩ := abs_le.1 h1
      rw [abs_le]
      norm_num at *
      constructor <;> linarith
    obtain ⟨a1, a2⟩ := abs_le.1 ih
    obtain ⟨b1, b2⟩ := abs_le.1 h1
    obtain ⟨c1, c2⟩ := abs_le.1 (h2.trans (div_le_div_of_nonneg_right h7 (by norm_num)))
    rw [abs_le]
    norm_num at *
    constructor <;> linarith

theorem exp_small : 2 * Real.exp ((2 ^ 24 : Nat) * (9 / 500 * (1 / 2 ^ 65) + (9 / 500) ^ 2 / 4 - 9 / 500 * (9 / 1000))) ≤ 1 / 2 ^ 1900 := by
  have h1 : ((2 ^ 24 : Nat) : ℝ) * (9 / 500 * (1 / 2 ^ 65) + (9 / 500) ^ 2 / 4 - 9 / 500 * (9 / 1000)) ≤ -(1342 : Nat) := by norm_num
  have h2 := Real.exp_le_exp.2 h1
  rw [Real.exp_neg] at h2
  have h3 : (2 : ℝ) ^ 1901 ≤ Real.exp (1342 : Nat) := by
    rw [← mul_one ((1342 : Nat) : ℝ), Real.exp_nat_mul]
    calc (2 : ℝ) ^ 1901 ≤ 2 ^ (10 * 191) := pow_le_pow_right₀ (by norm_num) (by norm_num)
      _ ≤ ((2.7 : ℝ) ^ 7) ^ 191 := by rw [pow_mul]; exact pow_le_pow_left₀ (by norm_num) (by norm_num) _
      _ ≤ (2.7 : ℝ) ^ 1342 := by rw [← pow_mul]; exact pow_le_pow_right₀ (by norm_num) (by norm_num)
      _ ≤ Real.exp 1 ^ 1342 := pow_le_pow_left₀ (by norm_num) (by linarith [Real.exp_one_gt_d9]) _
  have h4 : (Real.exp (1342 : Nat))⁻¹ ≤ ((2 : ℝ) ^ 1901)⁻¹ := inv_anti₀ (by positivity) h3
  have h5 : 2 * ((2 : ℝ) ^ 1901)⁻¹ = 1 / 2 ^ 1900 := by
    rw [pow_succ, mul_inv_rev, ← mul_assoc, mul_inv_cancel₀ two_ne_zero, one_mul, one_div]
  rw [← h5]
  exact mul_le_mul_of_nonneg_left (h2.trans h4) zero_le_two

theorem reals_bound {G : Finset (Block → Block)} {c : ℚ} (hG : Family G c) (key nonce : Block) {B n : Nat} (hB : n = 2 * B) (hn : n = 2 ^ 24) :
    Oracle.frac G (fun e => ¬ |(∑ i ∈ range n, Tail.centred (stream (fun _ => e) key nonce i))| < n * (9 / 1000)) ≤ c * (1 / 2 ^ 1900) := by
  classical
  subst hB
  let U : Finset (Fin (2 * B) → BitVec 64) := univ.filter fun t => (2 * B : Nat) * (9 / 1000 : ℝ) ≤ ∑ i, Tail.centred (t i)
  let L : Finset (Fin (2 * B) → BitVec 64) := univ.filter fun t => (2 * B : Nat) * (9 / 1000 : ℝ) ≤ ∑ i, -Tail.centred (t i)
  have hle : ∀ e : Block → Block, (¬ |(∑ i ∈ range (2 * B), Tail.centred (stream (fun _ => e) key nonce i))| < (2 * B : Nat) * (9 / 1000)) →
      (fun i : Fin (2 * B) => stream (fun _ => e) key nonce i) ∈ U ∪ L := fun e h => by
    rw [not_lt, le_abs, ← sum_neg_distrib, ← Fin.sum_univ_eq_sum_range (fun i => Tail.centred (stream (fun _ => e) key nonce i)),
      ← Fin.sum_univ_eq_sum_range (fun i => -Tail.centred (stream (fun _ => e) key nonce i))] at h
    rw [mem_union, mem_filter, mem_filter]
    exact h.imp (fun h => ⟨mem_univ _, h⟩) (fun h => ⟨mem_univ _, h⟩)
  refine (Oracle.frac_mono hle).trans ((Tail.tuples_le hG _ _ (by omega) (U ∪ L)).trans (mul_le_mul_of_nonneg_left ?_ hG.nonneg))
  have hD : (Fintype.card (BitVec 64) : ℝ) = 2 ^ 64 := by rw [card_bits]; norm_num
  have hU := Tail.tail_bound Tail.centred_abs (m := 1 / 2 ^ 65) (e := 9 / 1000) (l := 9 / 500) (by rw [Tail.sum_centred, hD]; norm_num) (by norm_num) (by norm_num) (2 * B) U
    (fun t ht => (mem_filter.1 ht).2)
  have hL := Tail.tail_bound (y := fun w => -Tail.centred w) (fun w => by rw [abs_neg]; exact Tail.centred_abs w) (m := 1 / 2 ^ 65) (e := 9 / 1000) (l := 9 / 500)
    (by rw [sum_neg_distrib, Tail.sum_centred, hD]; norm_num) (by norm_num) (by norm_num) (2 * B) L (fun t ht => (mem_filter.1 ht).2)
  have hsum : ((U ∪ L).card : ℝ) ≤ U.card + L.card := by exact_mod_cast card_union_le U L
  have hexp := exp_small
  rw [hD] at hU hL
  rw [← hn] at hexp
  generalize U ∪ L = V at hsum ⊢
  generalize U.card = u at *
  generalize L.card = l at *
  generalize 2 * B = n at *
  have key : (V.card : ℝ) / (2 ^ 64) ^ n ≤ 1 / 2 ^ 1900 := by
    have hp : (0 : ℝ) < (2 ^ 64) ^ n := pow_pos (by norm_num) _
    rw [div_le_iff₀ hp]
    generalize Real.exp ((n : ℝ) * (9 / 500 * (1 / 2 ^ 65) + (9 / 500) ^ 2 / 4 - 9 / 500 * (9 / 1000))) = E at *
    generalize ((2 : ℝ) ^ 64) ^ n = P at *
    generalize (1 : ℝ) / 2 ^ 1900 = δ at *
    nlinarith
  have key2 : (((V.card : ℚ) / (2 ^ 64) ^ n : ℚ) : ℝ) ≤ ((1 / 2 ^ 1900 : ℚ) : ℝ) := by
    rw [Rat.cast_div, Rat.cast_natCast, Rat.cast_pow, Rat.cast_pow, Rat.cast_ofNat, Rat.cast_div, Rat.cast_one, Rat.cast_pow, Rat.cast_ofNat]
    exact key
  exact Rat.cast_le.1 key2

theorem reals_pass {F : Doubles} (hF : F.Accurate) (f : Nat → BitVec 64) {n : Nat} (hn : n = 2 ^ 24) (h : |∑ i ∈ range n, Tail.centred (f i)| < n * (9 / 1000)) :
    |sumWords F f n / 2 ^ 24 - 1 / 2| ≤ 1 / 100 := by
  have h2 := sumWords_near hF f n hn.le
  have hn' : (n : ℝ) = 2 ^ 24 := by rw [hn]; norm_num
  have hn'' : (n : ℚ) = 2 ^ 24 := by rw [hn]; norm_num
  have h3 : (∑ i ∈ range n, Tail.centred (f i)) = ((∑ i ∈ range n, ((f i).toNat : ℚ) / 2 ^ 64 : ℚ) : ℝ) - 2 ^ 23 := by
    unfold Tail.centred
    rw [sum_sub_distrib, sum_const, card_range, nsmul_eq_mul, hn']
    push_cast
    norm_num
  rw [h3, hn'] at h
  rw [hn''] at h2
  generalize (∑ i ∈ range n, ((f i).toNat : ℚ) / 2 ^ 64) = S at *
  generalize sumWords F f n = a at *
  obtain ⟨h4, h5⟩ := abs_lt.1 h
  have hS1 : S < 2 ^ 23 + 2 ^ 24 * (9 / 1000) := by
    have : (S : ℝ) < ((2 ^ 23 + 2 ^ 24 * (9 / 1000) : ℚ) : ℝ) := by push_cast; linarith
    exact Rat.cast_lt.1 this
  have hS2 : 2 ^ 23 - 2 ^ 24 * (9 / 1000) < S := by
    have : ((2 ^ 23 - 2 ^ 24 * (9 / 1000) : ℚ) : ℝ) < (S : ℝ) := by push_cast; linarith
    exact Rat.cast_lt.1 this
  obtain ⟨a1, a2⟩ := abs_le.1 h2
  rw [abs_le]
  norm_num at *
  constructor <;> linarith

/-- `UniformReals`, for functions from a family in place of AES. -/
theorem reals_le {G : Finset (Block → Block)} {c : ℚ} (hG : Family G c) {F : Doubles} (hF : F.Accurate) (junk : Gen) {s : List (BitVec 8)} (hs : 32 ≤ s.length) :
    Oracle.frac G (fun enc => uniformReals F (fun _ => enc) junk s ≠ .ok true) ≤ c * (1 / 2 ^ 1900) := by
  obtain ⟨n, hn⟩ : ∃ n, n = 2 ^ 24 := ⟨_, rfl⟩
  refine le_trans (Oracle.frac_mono fun enc h => ?_) (reals_bound hG (load128 s) (load128 (s.drop 16)) (B := 2 ^ 23) (by omega) hn)
  obtain ⟨g, hg, H⟩ := created (fun _ => enc) junk hs
  intro hc
  refine h ?_
  have h1 := reals_pass hF _ hn hc
  unfold uniformReals
  rw [hg, Out.ok_bind, ← hn, show g = after (fun _ => enc) g 0 from rfl,
    draws H (fun a w => F.add a (F.real w)) 0 (sumWords F (stream (fun _ => enc) (load128 s) (load128 (s.drop 16)))) rfl (n := n) (fun _ _ => rfl) (by omega), Out.ok_bind]
  dsimp only
  rw [decide_eq_true h1]

/-- C74: `UniformReals` fails for at most `2^-1900` of the functions in place of AES. -/
theorem C74_reals {F : Doubles} (hF : F.Accurate) (junk : Gen) {s : List (BitVec 8)} (hs : 32 ≤ s.length) :
    overCiphers (fun enc => uniformReals F (fun _ => enc) junk s ≠ .ok true) ≤ 1 / 2 ^ 1900 := by
  rw [overCiphers_eq]
  exact (reals_le family_ciphers hF junk hs).trans_eq (one_mul _)

/-! ### `TestCuckooHashingOverflow` -/

open Cuckoo

/-- Tables that name every bucket are rare. -/
theorem card_tables {m k N : Nat} [NeZero N] (A : Finset (Fin m × Fin k → ZMod N)) (hA : ∀ t ∈ A, Function.Surjective t) :
    (A.card : ℚ) / (N : ℚ) ^ (m * k) ≤ (1 - (1 - 1 / N) ^ (m * k)) ^ N := by
  classical
  have hN : 0 < N := Nat.pos_of_ne_zero (NeZero.ne N)
  have e : ZMod N ≃ Fin N := (ZMod.finEquiv N).symm.toEquiv
  let g : Fin (m * k) ≃ Fin m × Fin k := finProdFinEquiv.symm
  let B : Finset (Fin (m * k) → Fin N) := A.image fun t => e ∘ t ∘ g
  have h1 : B.card = A.card := card_image_of_injective _ fun t t' h => by
    funext a
    have := congrFun h (g.symm a)
    simpa using this
  have h2 := Tail.card_onto hN (m * k) B fun t ht => by
    obtain ⟨t', h, rfl⟩ := mem_image.1 ht
    exact e.surjective.comp ((hA t' h).comp g.surjective)
  rw [h1] at h2
  have hp : (0 : ℚ) < (N : ℚ) ^ (m * k) := pow_pos (by exact_mod_cast hN) _
  rw [div_le_iff₀ hp, mul_comm]
  have h3 : ((A.card : ℚ) : ℝ) ≤ (((N : ℚ) ^ (m * k) * (1 - (1 - 1 / N) ^ (m * k)) ^ N : ℚ) : ℝ) := by
    push_cast
    exact h2
  exact Rat.cast_le.1 h3

/-- A full table, for functions from a family in place of AES. -/
theorem full_le {G : Finset (Block → Block)} {c : ℚ} {m : Nat} (hG : Oracle.Spread G c m) {bits : Sec → Nat → Nat → Nat → Bool} (H : FaithfulBits bits) {f : ℚ} (hf : 1 ≤ f) {k : Nat} (hk : 2 ≤ k) (hk' : k < 2 ^ 31) (optimal : Nat → Int)
    {inputs : List Block} (hd : inputs.Nodup) (h0 : 0 < inputs.length) (hN : inputs.length < 2 ^ 63) (ha : bits (some f) k inputs.length inputs.length = false)
    (hm : inputs.length * k ≤ m) (hm2 : 2 ≤ m) :
    Oracle.frac G (fun enc => hashCuckoo ⟨enc, k, bits (some f) k, optimal⟩ inputs inputs.length ≠
        .err .internal "Failed to insert element, maximum number of tries exhausted") ≤
      c * ((1 - (1 - 1 / inputs.length) ^ (inputs.length * k)) ^ inputs.length + 1 / (2 * f) + ((inputs.length * k : Nat) : ℚ) ^ 2 / 2 ^ 128) := by
  classical
  have hne : NeZero (inputs.length : Int).toNat := ⟨by omega⟩
  have hne' : NeZero inputs.length := ⟨by omega⟩
  let A : Finset (Fin inputs.length × Fin k → ZMod (inputs.length : Int).toNat) := univ.filter Function.Surjective
  have h1 := table_le hG H hf (show 0 < k by omega) hk' optimal hm hm2 hd (N := inputs.length) (by omega) (by omega) (by rw [Int.toNat_natCast, ha]; exact Bool.false_ne_true) A
  have h2 : (A.card : ℚ) / (inputs.length : ℚ) ^ (inputs.length * k) ≤ (1 - (1 - 1 / inputs.length) ^ (inputs.length * k)) ^ inputs.length :=
    card_tables (N := inputs.length) A fun t ht => (mem_filter.1 ht).2
  refine le_trans (Oracle.frac_mono fun enc h => ?_) (h1.trans (mul_le_mul_of_nonneg_left (add_le_add (add_le_add h2 le_rfl) le_rfl) hG.nonneg))
  obtain ⟨a1, a2⟩ := C17_outcomes ⟨enc, k, bits (some f) k, optimal⟩ (by dsimp only; omega) inputs inputs.length (by omega)
  obtain ⟨buckets, hok⟩ : ∃ buckets, hashCuckoo ⟨enc, k, bits (some f) k, optimal⟩ inputs inputs.length = .ok buckets := by
    rcases a2 with a2 | a2 | a2
    · exact a2
    · rcases a1.1 a2 with a3 | a3 | a3 | a3
      · dsimp only at a3; omega
      · omega
      · omega
      · dsimp only at a3
        rw [Int.toNat_natCast, ha] at a3
        cases a3
    · exact absurd a2 h
  obtain ⟨rows, b1, b2, b3, b4⟩ := C16_hashCuckoo _ (by dsimp only; omega) inputs _ (by omega) buckets hok
  have hlen : buckets.length = inputs.length := by exact_mod_cast b2
  rw [hash_eq _ (by omega) (by omega), Out.ok.injEq] at b1
  dsimp only [Int.toNat_natCast] at b1
  have hrow : ∀ i : Fin inputs.length, rows[i.val]? = some (bucketsOf enc k inputs.length inputs[i]) := fun i => by
    rw [← b1, List.getElem?_map, List.getElem?_eq_getElem i.isLt]
    rfl
  refine ⟨rows, fun a => ((bucketOf enc inputs.length inputs[a.1] a.2 : Nat) : ZMod _), ?_, mem_filter.2 ⟨mem_univ _, ?_⟩, fun a => ⟨_, _, hrow a.1, ?_, rfl⟩⟩
  · rw [hash_eq _ (by omega) (by omega), ← b1]
    rfl
  · -- every bucket is taken
    choose p hp _ using fun i : Fin inputs.length => b4 i i.isLt
    have hlt : ∀ i, p i < inputs.length := fun i => hlen ▸ (List.getElem?_eq_some_iff.1 (hp i)).1
    have hinj : Function.Injective fun i => (⟨p i, hlt i⟩ : Fin inputs.length) := fun i j hij => by
      have h3 := hp i
      rw [show p i = p j from congrArg Fin.val hij, hp j] at h3
      exact Fin.ext (by simpa using h3.symm)
    have hsur := Finite.surjective_of_injective hinj
    intro c
    obtain ⟨i, hi⟩ := hsur ⟨c.val, by have := ZMod.val_lt c; omega⟩
    have hi' : p i = c.val := congrArg Fin.val hi
    rcases b3 _ _ (hp i) with h3 | ⟨i', row, h3, h4, h5⟩
    · omega
    · obtain rfl : i.val = i' := by exact_mod_cast h3
      rw [hrow i] at h4
      cases h4
      unfold bucketsOf at h5
      obtain ⟨j, h6, h7⟩ := List.mem_map.1 h5
      refine ⟨(i, ⟨j, List.mem_range.1 h6⟩), ?_⟩
      dsimp only
      rw [h7, hi', ZMod.natCast_zmod_val]
  · unfold bucketsOf
    rw [List.getElem?_map, List.getElem?_range a.2.isLt]
    rfl

/-- C74: into as many buckets as there are elements, cuckoo hashing succeeds for few functions in place of AES. -/
theorem C74_full {bits : Sec → Nat → Nat → Nat → Bool} (H : FaithfulBits bits) {f : ℚ} (hf : 1 ≤ f) {k : Nat} (hk : 2 ≤ k) (hk' : k < 2 ^ 31) (optimal : Nat → Int)
    {inputs : List Block} (hd : inputs.Nodup) (h0 : 0 < inputs.length) (hN : inputs.length < 2 ^ 63) (ha : bits (some f) k inputs.length inputs.length = false) :
    overCiphers (fun enc => hashCuckoo ⟨enc, k, bits (some f) k, optimal⟩ inputs inputs.length ≠
        .err .internal "Failed to insert element, maximum number of tries exhausted") ≤
      (1 - (1 - 1 / inputs.length) ^ (inputs.length * k)) ^ inputs.length + 1 / (2 * f) + ((inputs.length * k : Nat) : ℚ) ^ 2 / 2 ^ 128 := by
  rw [overCiphers_eq]
  have hne : Nonempty Block := ⟨0⟩
  exact (full_le (Oracle.spread_univ (inputs.length * k + 2)) H hf hk hk' optimal hd h0 hN ha (by omega) (by omega)).trans_eq (one_mul _)

theorem inputs_nodup {n : Nat} (hn : n < 2 ^ 64) : (generateInputs n).Nodup := by
  unfold generateInputs
  refine List.Nodup.map_on (fun x hx y hy h => ?_) List.nodup_range
  rw [List.mem_range] at hx hy
  have h2 := congrArg BitVec.toNat h
  rw [BitVec.toNat_ofNat, BitVec.toNat_ofNat, Nat.mod_eq_of_lt (by omega), Nat.mod_eq_of_lt (by omega)] at h2
  omega

theorem overflow_bound {n : Nat} (h2 : 2 ≤ n) (he : n % 2 = 0) : (1 - (1 - 1 / n) ^ (n * 2)) ^ n ≤ (15 / 16 : ℚ) ^ n := by
  obtain ⟨c, rfl⟩ : ∃ c, n = 2 * c := ⟨n / 2, by omega⟩
  have hc : (1 : ℚ) ≤ c := by exact_mod_cast (by omega : 1 ≤ c)
  have h3 : (1 : ℚ) / 2 ≤ (1 - 1 / (2 * c : Nat)) ^ c := by
    have h4 := one_add_mul_le_pow (a := -(1 / (2 * c : ℚ))) (by
      have : 1 / (2 * c : ℚ) ≤ 1 := (div_le_one (by linarith)).2 (by linarith)
      linarith) c
    push_cast
    rw [← sub_eq_add_neg] at h4
    refine le_trans (le_of_eq ?_) h4
    field_simp
    norm_num
  have h4 : ((1 : ℚ) / 2) ^ 4 ≤ ((1 - 1 / (2 * c : Nat)) ^ c) ^ 4 := pow_le_pow_left₀ (by norm_num) h3 4
  rw [← pow_mul, show c * 4 = 2 * c * 2 by ring] at h4
  have h5 : (1 - 1 / ((2 * c : Nat) : ℚ)) ^ (2 * c * 2) ≤ 1 := by
    have h6 : (1 : ℚ) ≤ (2 * c : Nat) := by push_cast; linarith
    have h7 : 1 / ((2 * c : Nat) : ℚ) ≤ 1 := (div_le_one (by linarith)).2 h6
    exact pow_le_one₀ (by linarith) (by linarith [show (0 : ℚ) ≤ 1 / ((2 * c : Nat) : ℚ) by positivity])
  refine pow_le_pow_left₀ (by linarith) ?_ _
  norm_num at h4 ⊢
  linarith

/-- `TestCuckooHashingOverflow`, for functions from a family in place of AES. -/
theorem overflow_le {G : Finset (Block → Block)} {c : ℚ} (hG : Family G c) {bits : Sec → Nat → Nat → Nat → Bool} (H : FaithfulBits bits) (optimal : Nat → Nat → Int) :
    Oracle.frac G (fun enc => cuckooOverflow (fun _ => enc) (bits (some (2 ^ 40))) optimal ≠ .ok true) ≤ c * (3 / 2 ^ 42) := by
  obtain ⟨n, hn⟩ : ∃ n, n = 2 ^ 20 := ⟨_, rfl⟩
  have hlen : (generateInputs n).length = n := by unfold generateInputs; rw [List.length_map, List.length_range]
  have hq : (n : ℚ) = 2 ^ 20 := by rw [hn]; norm_num
  have h1 := full_le hG H (f := 2 ^ 40) (by norm_num) (k := 2) (by norm_num) (by norm_num) (optimal 2) (inputs_nodup (n := n) (by omega)) (by rw [hlen]; omega) (by rw [hlen]; omega)
    (by rw [hlen]; exact C68_accepted H (by norm_num) (by norm_num) (by omega) (by rw [hq]; norm_num)) (by rw [hlen]; omega) (by norm_num)
  rw [hlen] at h1
  have h2 := overflow_bound (n := n) (by omega) (by omega)
  have h3 : ((15 : ℚ) / 16) ^ n ≤ 1 / 2 ^ 43 := by
    calc ((15 : ℚ) / 16) ^ n ≤ (15 / 16) ^ 1000 := pow_le_pow_of_le_one (by norm_num) (by norm_num) (by omega)
      _ = ((15 / 16) ^ 100) ^ 10 := by rw [← pow_mul]
      _ ≤ (1 / 2 ^ 9) ^ 10 := pow_le_pow_left₀ (by norm_num) (by norm_num) _
      _ ≤ 1 / 2 ^ 43 := by norm_num
  have h4 : ((n * 2 : Nat) : ℚ) ^ 2 / 2 ^ 128 ≤ 1 / 2 ^ 80 := by
    rw [Nat.cast_mul, hq]
    norm_num
  refine le_trans (Oracle.frac_mono fun enc h => ?_) (h1.trans (mul_le_mul_of_nonneg_left ((add_le_add (add_le_add (h2.trans h3) le_rfl) h4).trans (by norm_num)) hG.nonneg))
  intro hc
  refine h ?_
  unfold cuckooOverflow
  rw [← hn]
  unfold create
  rw [if_neg (by norm_num), Out.ok_bind]
  dsimp only
  rw [show (2 : Int).toNat = 2 from rfl, hc]
  rfl

/-- C74: `TestCuckooHashingOverflow` fails for less than `2^-40` of the functions in place of AES. -/
theorem C74_overflow {bits : Sec → Nat → Nat → Nat → Bool} (H : FaithfulBits bits) (optimal : Nat → Nat → Int) :
    overCiphers (fun enc => cuckooOverflow (fun _ => enc) (bits (some (2 ^ 40))) optimal ≠ .ok true) < 1 / 2 ^ 40 := by
  rw [overCiphers_eq]
  exact (overflow_le family_ciphers H optimal).trans_lt (by norm_num)

/-! ### What the tests find out -/

/-- C74: the tests of the generator are about the first words of the stream, and nothing else. -/
theorem C74_words (aes : Cipher) (junk : Gen) {s : List (BitVec 8)} (hs : 32 ≤ s.length) {f : Nat → BitVec 64} (hf : f = stream aes (load128 s) (load128 (s.drop 16))) :
    (notObviouslyBroken aes junk s = .ok true ↔ f 0 ≠ f 1 ∧ f 0 ≠ 0 ∧ f 1 ≠ 0) ∧
    (allBitsGetSampled aes junk s = .ok true ↔ ∀ j < 64, ∃ i < 80, (f i).getLsbD j = true) ∧
    (allBitsGetSampled aes junk s = .ok true ∨ allBitsGetSampled aes junk s = .ok false) ∧
    (uniformReals exactDoubles aes junk s = .ok true ↔ |(∑ i ∈ range (2 ^ 24), ((f i).toNat : ℚ) / 2 ^ 64) / 2 ^ 24 - 1 / 2| ≤ 1 / 100) := by
  obtain ⟨g, hg, H⟩ := created aes junk hs
  rw [← hf] at H
  have hb : allBitsGetSampled aes junk s = .ok (decide (orWords f 80 = 0xFFFFFFFFFFFFFFFF)) := by
    unfold allBitsGetSampled
    rw [hg, Out.ok_bind, show g = after aes g 0 from rfl, draws H (fun a w => a ||| w) 0 (orWords f) rfl (n := 80) (fun _ _ => rfl) (by norm_num), Out.ok_bind]
  refine ⟨?_, ?_, ?_, ?_⟩
  · unfold notObviouslyBroken
    rw [hg, Out.ok_bind, show g = after aes g 0 from rfl, H 0 (by norm_num), Out.ok_bind]
    dsimp only
    rw [H 1 (by norm_num), Out.ok_bind, Out.ok.injEq, decide_eq_true_iff]
  · rw [hb, Out.ok.injEq, decide_eq_true_iff, show (0xFFFFFFFFFFFFFFFF : BitVec 64) = BitVec.allOnes 64 from rfl]
    have key : ∀ j, (orWords f 80).getLsbD j = true ↔ ∃ i < 80, (f i).getLsbD j = true := fun j => by
      rw [← Bool.not_eq_false, orWords_bit]
      push Not
      simp only [Bool.not_eq_false]
    constructor
    · intro h j hj
      rw [← key, h, BitVec.getLsbD_allOnes, decide_eq_true hj]
    · intro h
      apply BitVec.eq_of_getLsbD_eq
      intro j hj
      rw [(key j).2 (h j hj), BitVec.getLsbD_allOnes, decide_eq_true hj]
  · rw [hb]
    cases decide (orWords f 80 = 0xFFFFFFFFFFFFFFFF)
    · exact .inr rfl
    · exact .inl rfl
  · obtain ⟨n, hn⟩ : ∃ n, n = 2 ^ 24 := ⟨_, rfl⟩
    unfold uniformReals
    rw [hg, Out.ok_bind, ← hn, show g = after aes g 0 from rfl,
      draws H (fun a w => exactDoubles.add a (exactDoubles.real w)) 0 (fun n => ∑ i ∈ range n, ((f i).toNat : ℚ) / 2 ^ 64) rfl (n := n) (fun i _ => sum_range_succ _ _) (by omega),
      Out.ok_bind, Out.ok.injEq, decide_eq_true_iff]

/-- C74: `TestCuckooHashingOverflow` finds out whether hashing fails for lack of room; nothing else can go wrong. -/
theorem C74_noticed {bits : Sec → Nat → Nat → Nat → Bool} (H : FaithfulBits bits) (aes : Cipher) (optimal : Nat → Nat → Int) :
    (cuckooOverflow aes (bits (some (2 ^ 40))) optimal = .ok true ∧
      hashCuckoo ⟨aes (-1234), 2, bits (some (2 ^ 40)) 2, optimal 2⟩ (generateInputs (2 ^ 20)) (2 ^ 20) =
        .err .internal "Failed to insert element, maximum number of tries exhausted") ∨
    (cuckooOverflow aes (bits (some (2 ^ 40))) optimal = .ok false ∧
      ∃ buckets, hashCuckoo ⟨aes (-1234), 2, bits (some (2 ^ 40)) 2, optimal 2⟩ (generateInputs (2 ^ 20)) (2 ^ 20) = .ok buckets) := by
  obtain ⟨n, hn⟩ : ∃ n, n = 2 ^ 20 := ⟨_, rfl⟩
  have hlen : (generateInputs n).length = n := by unfold generateInputs; rw [List.length_map, List.length_range]
  have hq : (n : ℚ) = 2 ^ 20 := by rw [hn]; norm_num
  have hi : (2 : Int) ^ 20 = (n : Int) := by rw [hn]; norm_num
  have ha : bits (some (2 ^ 40)) 2 n n = false := C68_accepted H (by norm_num) (by norm_num) (by omega) (by rw [hq]; norm_num)
  have hc : ∀ r, hashCuckoo ⟨aes (-1234), 2, bits (some (2 ^ 40)) 2, optimal 2⟩ (generateInputs n) n = r → cuckooOverflow aes (bits (some (2 ^ 40))) optimal = (match r with
      | .err _ message => .ok (message == "Failed to insert element, maximum number of tries exhausted")
      | .ok _ => .ok false
      | .throws m => .throws m
      | .ub w => .ub w
      | .diverge => .diverge) := by
    rintro r rfl
    unfold cuckooOverflow
    rw [← hn]
    unfold create
    rw [if_neg (by norm_num), Out.ok_bind]
    rfl
  rw [← hn, hi]
  obtain ⟨a1, a2⟩ := C17_outcomes ⟨aes (-1234), 2, bits (some (2 ^ 40)) 2, optimal 2⟩ (by norm_num) (generateInputs n) n (by omega)
  rcases a2 with ⟨b, a2⟩ | a2 | a2
  · exact .inr ⟨hc _ a2, b, a2⟩
  · rcases a1.1 a2 with a3 | a3 | a3 | a3
    · dsimp only at a3; omega
    · omega
    · rw [hlen] at a3; omega
    · dsimp only at a3
      rw [hlen, Int.toNat_natCast, ha] at a3
      cases a3
  · exact .inl ⟨(hc _ a2).trans rfl, a2⟩

/-! Examples: exact arithmetic is accurate, and so is rounding down to multiples of `2^-60`; two functions in place of AES, with one of which
the first test passes and with the other of which it fails. -/
section Examples

theorem exactDoubles_accurate : exactDoubles.Accurate where
  real w := by simp [exactDoubles]
  add a b := by simp [exactDoubles]; positivity

def roundedDoubles : Doubles := ⟨fun w => (w.toNat / 2 ^ 4 : Nat) / 2 ^ 60, (· + ·)⟩

theorem roundedDoubles_accurate : roundedDoubles.Accurate where
  real w := by
    have h1 : ((w.toNat / 2 ^ 4 : Nat) : ℚ) * 2 ^ 4 ≤ w.toNat := by exact_mod_cast Nat.div_mul_le_self w.toNat (2 ^ 4)
    have h2 : (w.toNat : ℚ) ≤ (w.toNat / 2 ^ 4 : Nat) * 2 ^ 4 + 2 ^ 4 := by
      have : w.toNat ≤ w.toNat / 2 ^ 4 * 2 ^ 4 + 2 ^ 4 := by omega
      exact_mod_cast this
    simp only [roundedDoubles]
    generalize ((w.toNat / 2 ^ 4 : Nat) : ℚ) = q at *
    rw [abs_le]
    norm_num at *
    constructor <;> linarith
  add a b := by simp [roundedDoubles]; positivity

example (junk : Gen) := C74_broken junk (s := List.replicate 32 5) (by decide)
example (junk : Gen) := C74_bits junk (s := List.replicate 32 5) (by decide)
example (junk : Gen) := C74_reals exactDoubles_accurate junk (s := List.replicate 32 5) (by decide)
example (junk : Gen) := C74_reals roundedDoubles_accurate junk (s := List.replicate 32 5) (by decide)
example (aes : Cipher) (junk : Gen) := C74_words aes junk (s := List.replicate 32 5) (by decide) rfl
example (aes : Cipher) := C74_noticed exactBits_faithful aes fun _ _ => 1
example := C74_overflow exactBits_faithful fun _ _ => 1

theorem notObviouslyBroken_const (junk : Gen) {s : List (BitVec 8)} (hs : 32 ≤ s.length) (b : Block) :
    notObviouslyBroken (fun _ _ => b) junk s = .ok (decide (b.setWidth 64 ≠ (b >>> 64).setWidth 64 ∧ b.setWidth 64 ≠ 0#64 ∧ (b >>> 64).setWidth 64 ≠ 0#64)) := by
  obtain ⟨g, hg, H⟩ := created (fun _ _ => b) junk hs
  unfold notObviouslyBroken
  rw [hg, Out.ok_bind, show g = after (fun _ _ => b) g 0 from rfl, H 0 (by norm_num), Out.ok_bind]
  dsimp only
  rw [H 1 (by norm_num)]
  rfl

example (junk : Gen) : notObviouslyBroken (fun _ _ => 0x10000000000000007) junk (List.replicate 32 5) = .ok true := by
  rw [notObviouslyBroken_const junk (by decide)]
  exact congrArg Out.ok (by decide)

example (junk : Gen) : notObviouslyBroken (fun _ _ => 0x10000000000000001) junk (List.replicate 32 5) = .ok false := by
  rw [notObviouslyBroken_const junk (by decide)]
  exact congrArg Out.ok (by decide)

end Examples

end DVO.RandomTests
