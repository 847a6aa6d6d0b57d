/-
Blocks as a finite type; the words that a generator makes from a random function are independent and uniform.
-/
import Verif.Spec.Ciphers
import Verif.Spec.RNG
import Verif.Proofs.Oracle

namespace DVO

/-- There are finitely many bit vectors. -/
@[reducible] def bitsFintype (n : Nat) : Fintype (BitVec n) := Fintype.ofEquiv (Fin (2 ^ n)) ⟨BitVec.ofFin, BitVec.toFin, fun _ => rfl, fun _ => rfl⟩

attribute [local instance] bitsFintype

theorem card_bits (n : Nat) : Fintype.card (BitVec n) = 2 ^ n := (Fintype.ofEquiv_card _).trans (Fintype.card_fin _)

theorem overCiphers_eq (P : (Block → Block) → Prop) : overCiphers P = Oracle.frac Finset.univ P := by
  classical
  unfold overCiphers
  rw [Oracle.frac_eq, Nat.card_eq_fintype_card, Nat.card_eq_fintype_card, Fintype.card_subtype, Finset.card_univ]

theorem overPermutations_eq (P : (Block → Block) → Prop) : overPermutations P = Oracle.frac (Oracle.perms Block) P := by
  classical
  unfold overPermutations
  rw [Oracle.frac_eq, Nat.card_eq_fintype_card, Nat.card_eq_fintype_card, Fintype.card_subtype, Fintype.card_perm, Oracle.card_perms]
  unfold Oracle.perms
  rw [Finset.filter_map, Finset.card_map]
  congr!

/-- Functions in place of AES such that up to `2^63` values are distributed almost like random ones, up to a factor of `c`. -/
abbrev Family (F : Finset (Block → Block)) (c : ℚ) : Prop := Oracle.Spread F c (2 ^ 63)

theorem family_ciphers : Family Finset.univ 1 := have : Nonempty Block := ⟨0⟩; Oracle.spread_univ _

theorem family_permutations : Family (Oracle.perms Block) (4 / 3) :=
  have : Nonempty Block := ⟨0⟩
  Oracle.spread_perms (by rw [card_bits]; norm_num)

variable {F : Finset (Block → Block)} {c : ℚ}

/-- Blocks at different inputs are almost independent and uniform. -/
theorem blocks_uniform (hF : Family F c) {B : Nat} (hB : B ≤ 2 ^ 63) (q : Fin B → Block) (hq : Function.Injective q) (A : Finset (Fin B → Block)) :
    Oracle.frac F (fun e => (fun i => e (q i)) ∈ A) ≤ c * ((A.card : ℚ) / (2 ^ 128) ^ B) := by
  calc Oracle.frac F (fun e => (fun i => e (q i)) ∈ A) ≤ Oracle.frac F (fun e => ∃ t ∈ A, ∀ i, e (q i) = t i) := Oracle.frac_mono fun e he => ⟨_, he, fun _ => rfl⟩
    _ ≤ ∑ t ∈ A, Oracle.frac F (fun e => ∀ i, e (q i) = t i) := Oracle.frac_exists _ _
    _ ≤ ∑ t ∈ A, c / (2 ^ 128) ^ B := Finset.sum_le_sum fun t _ => by
      have := hF.le q hq t (by rwa [Fintype.card_fin])
      rwa [card_bits, Fintype.card_fin, Nat.cast_pow, Nat.cast_ofNat] at this
    _ = _ := by
      rw [Finset.sum_const, nsmul_eq_mul]
      ring

theorem prod_pairs {M : Type} [CommMonoid M] (h : Nat → M) (B : Nat) : ∏ n ∈ Finset.range (2 * B), h n = ∏ i ∈ Finset.range B, (h (2 * i) * h (2 * i + 1)) := by
  induction B with
  | zero => simp
  | succ B ih => rw [show 2 * (B + 1) = 2 * B + 1 + 1 by ring, Finset.prod_range_succ, Finset.prod_range_succ, ih, Finset.prod_range_succ, mul_assoc]

/-- The two halves of a block. -/
def halves : Block ≃ BitVec 64 × BitVec 64 where
  toFun b := (b.setWidth 64, (b >>> 64).setWidth 64)
  invFun p := p.2 ++ p.1
  left_inv b := by
    apply BitVec.eq_of_getLsbD_eq
    intro i hi
    rw [BitVec.getLsbD_append]
    simp only [BitVec.getLsbD_setWidth, BitVec.getLsbD_ushiftRight]
    by_cases h : i < 64
    · simp [h]
    · simp [h, show i - 64 < 64 by omega, show 64 + (i - 64) = i by omega]
  right_inv p := by
    refine Prod.ext ?_ ?_
    · apply BitVec.eq_of_getLsbD_eq
      intro i hi
      simp only [BitVec.getLsbD_setWidth, BitVec.getLsbD_append]
      simp [hi]
    · apply BitVec.eq_of_getLsbD_eq
      intro i hi
      simp only [BitVec.getLsbD_setWidth, BitVec.getLsbD_ushiftRight, BitVec.getLsbD_append]
      simp [hi]

/-- The words of the stream are almost independent and uniform. -/
theorem words_uniform (hF : Family F c) (key nonce : Block) {B : Nat} (hB : B ≤ 2 ^ 63) (R : Nat → Finset (BitVec 64)) :
    Oracle.frac F (fun e => ∀ n < 2 * B, RNG.stream (fun _ => e) key nonce n ∈ R n) ≤ c * ∏ n ∈ Finset.range (2 * B), ((R n).card : ℚ) / 2 ^ 64 := by
  classical
  let S : Fin B → Finset Block := fun i => (R (2 * i) ×ˢ R (2 * i + 1)).map halves.symm.toEmbedding
  have hS : ∀ i b, b ∈ S i ↔ b.setWidth 64 ∈ R (2 * i) ∧ (b >>> 64).setWidth 64 ∈ R (2 * i + 1) := fun i b => by
    simp only [S, Finset.mem_map_equiv, Equiv.symm_symm, Finset.mem_product]
    rfl
  have h1 := blocks_uniform hF (B := B) hB (fun i => nonce + BitVec.ofNat 128 i) (fun i j h => by
    have h2 : BitVec.ofNat 128 i = BitVec.ofNat 128 j := by
      have := congrArg (fun b => b - nonce) h
      simpa [BitVec.add_comm nonce, BitVec.add_sub_cancel] using this
    have h3 := congrArg BitVec.toNat h2
    rw [BitVec.toNat_ofNat, BitVec.toNat_ofNat, Nat.mod_eq_of_lt (by omega), Nat.mod_eq_of_lt (by omega)] at h3
    exact Fin.ext h3) (Fintype.piFinset S)
  have h2 : ∀ e : Block → Block, (∀ n < 2 * B, RNG.stream (fun _ => e) key nonce n ∈ R n) ↔ (fun i : Fin B => e (nonce + BitVec.ofNat 128 i)) ∈ Fintype.piFinset S := fun e => by
    rw [Fintype.mem_piFinset]
    simp only [hS]
    constructor
    · intro h i
      have a := h (2 * i) (by omega)
      have b := h (2 * i + 1) (by omega)
      unfold RNG.stream at a b
      rw [show 2 * (i : Nat) / 2 = i by omega, if_pos (by omega)] at a
      rw [show (2 * (i : Nat) + 1) / 2 = i by omega, if_neg (by omega)] at b
      exact ⟨a, b⟩
    · intro h n hn
      obtain ⟨a, b⟩ := h ⟨n / 2, by omega⟩
      unfold RNG.stream
      dsimp only at a b ⊢
      split
      · next h0 => rwa [show 2 * (n / 2) = n by omega] at a
      · next h0 => rwa [show 2 * (n / 2) + 1 = n by omega] at b
  simp only [h2]
  refine h1.trans (le_of_eq ?_)
  congr 1
  rw [Fintype.card_piFinset, prod_pairs, Nat.cast_prod, ← Fin.prod_univ_eq_prod_range (fun i => ((R (2 * i)).card : ℚ) / 2 ^ 64 * (((R (2 * i + 1)).card : ℚ) / 2 ^ 64))]
  have e : ((2 ^ 128 : ℚ)) ^ B = ∏ _i : Fin B, (2 ^ 128 : ℚ) := by rw [Finset.prod_const, Finset.card_univ, Fintype.card_fin]
  rw [e, ← Finset.prod_div_distrib]
  refine Finset.prod_congr rfl fun i _ => ?_
  simp only [S, Finset.card_map, Finset.card_product, Nat.cast_mul]
  rw [div_mul_div_comm]
  norm_num

end DVO
