/-
The order of the generator of gf128, by evaluation in the kernel.
-/
import Verif.Proofs.GF128b
import Mathlib.GroupTheory.OrderOfElement
import Mathlib.NumberTheory.LucasPrimality
import Mathlib.Tactic.NormNum.Prime
import Mathlib.Tactic.IntervalCases

namespace DVO.GF128

/-! ### A large prime -/

/-- Modular exponentiation: `r * a^k mod p`, for `k < 2^f`. -/
def powMod (p : Nat) : Nat → Nat → Nat → Nat → Nat
  | 0, _, _, r => r
  | f + 1, a, k, r => powMod p f (a * a % p) (k / 2) (bif Nat.beq (k % 2) 1 then r * a % p else r)

theorem powMod_eq (p : Nat) : ∀ (f a k r : Nat), k < 2 ^ f → ((powMod p f a k r : Nat) : ZMod p) = r * (a : ZMod p) ^ k
  | 0, a, k, r, h => by
    have : k = 0 := by simpa using h
    subst this; simp [powMod]
  | f + 1, a, k, r, h => by
    unfold powMod
    rw [powMod_eq p f _ _ _ (by rw [Nat.pow_succ] at h; omega)]
    have e : (a : ZMod p) ^ k = (a : ZMod p) ^ (k % 2) * ((a : ZMod p) * a) ^ (k / 2) := by
      rw [← pow_two, ← pow_mul, ← pow_add, Nat.mod_add_div]
    rw [e]
    rcases Nat.mod_two_eq_zero_or_one k with h2 | h2 <;> rw [h2]
    · rw [show Nat.beq 0 1 = false from rfl, cond_false]; simp
    · rw [show Nat.beq 1 1 = true from rfl, cond_true]; simp [mul_assoc]

theorem cast_ne_one {p c : Nat} (hp : 1 < p) (h : c % p ≠ 1) : ((c : Nat) : ZMod p) ≠ 1 := by
  intro hc
  rw [← Nat.cast_one, ZMod.natCast_eq_natCast_iff'] at hc
  rw [Nat.mod_eq_of_lt hp] at hc
  exact h hc

theorem prime_big : Nat.Prime 67280421310721 := by
  have key : ∀ k < 2 ^ 64, ((powMod 67280421310721 64 3 k 1 : Nat) : ZMod 67280421310721) = (3 : ZMod 67280421310721) ^ k := by
    intro k hk
    rw [powMod_eq _ _ _ _ _ hk]; simp
  refine lucas_primality _ 3 ?_ ?_
  · rw [← key _ (by norm_num)]
    rw [show powMod 67280421310721 64 3 (67280421310721 - 1) 1 = 1 by decide +kernel]; simp
  · intro q hq hd
    rw [show 67280421310721 - 1 = 2 ^ 8 * 5 * 47 * 373 * 2998279 by norm_num] at hd
    have h : q = 2 ∨ q = 5 ∨ q = 47 ∨ q = 373 ∨ q = 2998279 := by
      rcases hq.dvd_mul.1 hd with hd | hd
      · rcases hq.dvd_mul.1 hd with hd | hd
        · rcases hq.dvd_mul.1 hd with hd | hd
          · rcases hq.dvd_mul.1 hd with hd | hd
            · exact .inl ((Nat.prime_dvd_prime_iff_eq hq Nat.prime_two).1 (hq.dvd_of_dvd_pow hd))
            · exact .inr (.inl ((Nat.prime_dvd_prime_iff_eq hq (by norm_num)).1 hd))
          · exact .inr (.inr (.inl ((Nat.prime_dvd_prime_iff_eq hq (by norm_num)).1 hd)))
        · exact .inr (.inr (.inr (.inl ((Nat.prime_dvd_prime_iff_eq hq (by norm_num)).1 hd))))
      · exact .inr (.inr (.inr (.inr ((Nat.prime_dvd_prime_iff_eq hq (by norm_num)).1 hd))))
    rcases h with rfl | rfl | rfl | rfl | rfl <;> (rw [← key _ (by norm_num)]; exact cast_ne_one (by norm_num) (by decide +kernel))

/-- The prime factors of `2^128 - 1`. -/
theorem prime_factors {q : Nat} (hq : q.Prime) (hd : q ∣ 2 ^ 128 - 1) :
    q = 3 ∨ q = 5 ∨ q = 17 ∨ q = 257 ∨ q = 641 ∨ q = 65537 ∨ q = 274177 ∨ q = 6700417 ∨ q = 67280421310721 := by
  rw [show 2 ^ 128 - 1 = 3 * (5 * (17 * (257 * (641 * (65537 * (274177 * (6700417 * 67280421310721))))))) by norm_num] at hd
  have st : ∀ {p r : Nat}, p.Prime → q ∣ p * r → q = p ∨ q ∣ r := fun hp h =>
    (hq.dvd_mul.1 h).imp_left (Nat.prime_dvd_prime_iff_eq hq hp).1
  rcases st (by norm_num) hd with h | hd
  · exact .inl h
  refine .inr ?_
  rcases st (by norm_num) hd with h | hd
  · exact .inl h
  refine .inr ?_
  rcases st (by norm_num) hd with h | hd
  · exact .inl h
  refine .inr ?_
  rcases st (by norm_num) hd with h | hd
  · exact .inl h
  refine .inr ?_
  rcases st (by norm_num) hd with h | hd
  · exact .inl h
  refine .inr ?_
  rcases st (by norm_num) hd with h | hd
  · exact .inl h
  refine .inr ?_
  rcases st (by norm_num) hd with h | hd
  · exact .inl h
  refine .inr ?_
  rcases st (by norm_num) hd with h | hd
  · exact .inl h
  exact .inr ((Nat.prime_dvd_prime_iff_eq hq prime_big).1 hd)

/-! ### Multiplication on natural numbers, for evaluation -/

/-- Multiplication by `X`. -/
def dbl (a : Nat) : Nat := bif Nat.blt a (2 ^ 127) then 2 * a else Nat.xor (2 * a % 2 ^ 128) 135

/-- `r + a * (lowest n bits of b)`. -/
def nmulGo : Nat → Nat → Nat → Nat → Nat
  | 0, _, _, r => r
  | n + 1, a, b, r => nmulGo n (dbl a) (b / 2) (bif Nat.beq (b % 2) 1 then Nat.xor r a else r)

def nmul (a b : Nat) : Nat := nmulGo 128 a b 0

/-- `r * a^k` for `k < 2^f`. -/
def npow : Nat → Nat → Nat → Nat → Nat
  | 0, _, _, r => r
  | f + 1, a, k, r => npow f (nmul a a) (k / 2) (bif Nat.beq (k % 2) 1 then nmul r a else r)

/-- The class of a number below `2^128`. -/
noncomputable def num (n : Nat) : Q := ev root (BitVec.ofNat 128 n)

theorem num_xor (a b : Nat) : num (Nat.xor a b) = num a + num b := by
  unfold num
  rw [← ev_xor]
  congr 1
  apply BitVec.eq_of_getLsbD_eq
  intro i hi
  rw [BitVec.getLsbD_xor, BitVec.getLsbD_ofNat, BitVec.getLsbD_ofNat, BitVec.getLsbD_ofNat,
    show (Nat.xor a b).testBit i = (a.testBit i ^^ b.testBit i) from Nat.testBit_xor a b i]
  simp [hi]

theorem num_zero : num 0 = 0 := ev_zero root

theorem num_bits (n : Nat) (m : Nat) (hm : m ≤ 128) (hn : n < 2 ^ m) :
    num n = ∑ i ∈ Finset.range m, if n.testBit i then root ^ i else 0 := by
  unfold num ev
  rw [← Finset.sum_range_add_sum_Ico _ hm, Finset.sum_eq_zero (s := Finset.Ico m 128), add_zero]
  · apply Finset.sum_congr rfl
    intro i hi
    rw [BitVec.getLsbD_ofNat]
    simp [show i < 128 by have := Finset.mem_range.1 hi; omega]
  · intro i hi
    rw [BitVec.getLsbD_ofNat, Nat.testBit_lt_two_pow (lt_of_lt_of_le hn (Nat.pow_le_pow_right (by norm_num) (Finset.mem_Ico.1 hi).1))]
    simp

theorem num_mod (n : Nat) : num (n % 2 ^ 128) = num n := by
  unfold num; congr 1; apply BitVec.eq_of_toNat_eq; simp

theorem num_135 : num 135 = root ^ 128 := by
  rw [root_pow, num_bits 135 8 (by norm_num) (by norm_num)]
  simp only [Finset.sum_range_succ, Finset.sum_range_zero]
  simp [Nat.testBit]
  ring

theorem num_two_mul (a : Nat) : num (2 * a) + (if a.testBit 127 then root ^ 128 else 0) = root * num a := by
  unfold num ev
  rw [Finset.sum_range_succ' _ 127, Finset.sum_range_succ _ 127, mul_add, Finset.mul_sum]
  refine congrArg₂ (· + ·) ?_ ?_
  · rw [BitVec.getLsbD_ofNat]
    simp only [Nat.testBit_zero]
    simp only [Nat.mul_mod_right, show ¬ (0 = 1) by decide, decide_false, Bool.and_false, Bool.false_eq_true, if_false, add_zero]
    apply Finset.sum_congr rfl
    intro i hi
    have := Finset.mem_range.1 hi
    rw [BitVec.getLsbD_ofNat, BitVec.getLsbD_ofNat, Nat.testBit_succ, Nat.mul_div_cancel_left _ (by norm_num)]
    simp only [show i + 1 < 128 by omega, show i < 128 by omega, decide_true, Bool.true_and]
    split <;> ring
  · rw [BitVec.getLsbD_ofNat]
    simp only [show 127 < 128 by omega, decide_true, Bool.true_and]
    split <;> ring

theorem dbl_spec {a : Nat} (h : a < 2 ^ 128) : dbl a < 2 ^ 128 ∧ num (dbl a) = root * num a := by
  unfold dbl
  have h1 := num_two_mul a
  by_cases hb : a < 2 ^ 127
  · have e : Nat.blt a (2 ^ 127) = true := by simpa [Nat.blt_eq] using hb
    rw [e, cond_true]
    rw [Nat.testBit_lt_two_pow hb] at h1
    refine ⟨by omega, ?_⟩
    simpa using h1
  · have e : Nat.blt a (2 ^ 127) = false := by
      rw [Bool.eq_false_iff]; intro hc; exact hb (by simpa [Nat.blt_eq] using hc)
    rw [e, cond_false, num_xor, num_mod, num_135]
    have ht : a.testBit 127 = true := by
      rw [Nat.testBit_eq_decide_div_mod_eq]
      have : a / 2 ^ 127 = 1 := by omega
      rw [this]; rfl
    rw [ht, if_pos rfl] at h1
    refine ⟨Nat.xor_lt_two_pow (Nat.mod_lt _ (by norm_num)) (by norm_num), h1⟩

theorem nmulGo_spec : ∀ (n a b r : Nat), a < 2 ^ 128 → r < 2 ^ 128 →
    nmulGo n a b r < 2 ^ 128 ∧
      num (nmulGo n a b r) = num r + num a * ∑ i ∈ Finset.range n, if b.testBit i then root ^ i else 0
  | 0, a, b, r, _, hr => ⟨hr, by simp [nmulGo]⟩
  | n + 1, a, b, r, ha, hr => by
    unfold nmulGo
    obtain ⟨h1, h2⟩ := dbl_spec ha
    have hs : (∑ i ∈ Finset.range (n + 1), if b.testBit i then root ^ i else 0) =
        root * (∑ i ∈ Finset.range n, if (b / 2).testBit i then root ^ i else 0) + if b.testBit 0 then 1 else 0 := by
      rw [Finset.sum_range_succ', Finset.mul_sum, pow_zero]
      refine congrArg₂ (· + ·) ?_ rfl
      apply Finset.sum_congr rfl
      intro i _
      rw [Nat.testBit_succ]
      split <;> ring
    rw [hs]
    rcases Nat.mod_two_eq_zero_or_one b with hb | hb
    · have e : Nat.beq (b % 2) 1 = false := by rw [hb]; rfl
      obtain ⟨h3, h4⟩ := nmulGo_spec n (dbl a) (b / 2) r h1 hr
      rw [e, cond_false]
      refine ⟨h3, ?_⟩
      rw [h4, h2, Nat.testBit_zero, hb]
      simp
      ring
    · have e : Nat.beq (b % 2) 1 = true := by rw [hb]; rfl
      obtain ⟨h3, h4⟩ := nmulGo_spec n (dbl a) (b / 2) (Nat.xor r a) h1 (Nat.xor_lt_two_pow hr ha)
      rw [e, cond_true]
      refine ⟨h3, ?_⟩
      rw [h4, h2, num_xor, Nat.testBit_zero, hb]
      simp
      ring

theorem nmul_spec {a b : Nat} (ha : a < 2 ^ 128) (hb : b < 2 ^ 128) : nmul a b < 2 ^ 128 ∧ num (nmul a b) = num a * num b := by
  obtain ⟨h1, h2⟩ := nmulGo_spec 128 a b 0 ha (by norm_num)
  refine ⟨h1, ?_⟩
  unfold nmul
  rw [h2, num_zero, zero_add, num_bits b 128 le_rfl hb]

theorem npow_spec : ∀ (f a k r : Nat), k < 2 ^ f → a < 2 ^ 128 → r < 2 ^ 128 →
    npow f a k r < 2 ^ 128 ∧ num (npow f a k r) = num r * num a ^ k
  | 0, a, k, r, h, _, hr => by
    have : k = 0 := by simpa using h
    subst this; exact ⟨hr, by simp [npow]⟩
  | f + 1, a, k, r, h, ha, hr => by
    unfold npow
    obtain ⟨h1, h2⟩ := nmul_spec ha ha
    have e : num a ^ k = num a ^ (k % 2) * (num a * num a) ^ (k / 2) := by
      rw [← pow_two, ← pow_mul, ← pow_add, Nat.mod_add_div]
    have hk : k / 2 < 2 ^ f := by rw [Nat.pow_succ] at h; omega
    rcases Nat.mod_two_eq_zero_or_one k with hb | hb
    · have e2 : Nat.beq (k % 2) 1 = false := by rw [hb]; rfl
      obtain ⟨h3, h4⟩ := npow_spec f (nmul a a) (k / 2) r hk h1 hr
      rw [e2, cond_false]
      exact ⟨h3, by rw [h4, h2, e, hb]; simp⟩
    · have e2 : Nat.beq (k % 2) 1 = true := by rw [hb]; rfl
      obtain ⟨h5, h6⟩ := nmul_spec hr ha
      obtain ⟨h3, h4⟩ := npow_spec f (nmul a a) (k / 2) (nmul r a) hk h1 h5
      rw [e2, cond_true]
      exact ⟨h3, by rw [h4, h2, h6, e, hb]; simp [mul_assoc]⟩

theorem num_one : num 1 = 1 := by
  rw [num_bits 1 1 (by norm_num) (by norm_num)]; simp

theorem num_two : num 2 = root := by
  rw [num_bits 2 2 (by norm_num) (by norm_num)]
  rw [Finset.sum_range_succ, Finset.sum_range_one, if_neg (by decide), if_pos (by decide), zero_add, pow_one]

theorem num_injective {a b : Nat} (ha : a < 2 ^ 128) (hb : b < 2 ^ 128) (h : num a = num b) : a = b := by
  have e : ∀ n, num n = cls (ofU128 (BitVec.ofNat 128 n)) := by
    intro n
    unfold num cls ofU128 val
    exact ev_halves root _
  rw [e, e] at h
  have h2 := cls_injective h
  have h3 : ∀ x : BitVec 128, x = toU128 (ofU128 x) := by
    intro x
    apply BitVec.eq_of_getLsbD_eq
    intro i hi
    unfold toU128 ofU128
    rw [BitVec.getLsbD_append]
    by_cases h64 : i < 64
    · simp [h64]
    · simp only [h64, decide_false, cond_false, BitVec.getLsbD_extractLsb', show i - 64 < 64 by omega, decide_true, Bool.true_and]
      congr 1
      omega
  have h4 := congrArg toU128 h2
  rw [← h3, ← h3] at h4
  have h5 := congrArg BitVec.toNat h4
  rwa [BitVec.toNat_ofNat, BitVec.toNat_ofNat, Nat.mod_eq_of_lt ha, Nat.mod_eq_of_lt hb] at h5

theorem root_pow_eq {k : Nat} (hk : k < 2 ^ 128) : root ^ k = num (npow 128 2 k 1) := by
  rw [(npow_spec 128 2 k 1 hk (by norm_num) (by norm_num)).2, num_one, num_two, one_mul]

theorem root_pow_ne_one {k : Nat} (hk : k < 2 ^ 128) (h : npow 128 2 k 1 ≠ 1) : root ^ k ≠ 1 := by
  rw [root_pow_eq hk, ← num_one]
  intro hc
  exact h (num_injective (npow_spec 128 2 k 1 hk (by norm_num) (by norm_num)).1 (by norm_num) hc)

theorem root_pow_order : root ^ (2 ^ 128 - 1) = 1 := by
  rw [root_pow_eq (by norm_num), show npow 128 2 (2 ^ 128 - 1) 1 = 1 by decide +kernel, num_one]

theorem orderOf_root : orderOf root = 2 ^ 128 - 1 := by
  refine orderOf_eq_of_pow_and_pow_div_prime (by norm_num) root_pow_order ?_
  intro q hq hd
  rcases prime_factors hq hd with rfl | rfl | rfl | rfl | rfl | rfl | rfl | rfl | rfl
  all_goals exact root_pow_ne_one (by norm_num) (by decide +kernel)

end DVO.GF128
