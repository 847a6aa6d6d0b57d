/-
Counting functions and permutations with prescribed values, and hash functions made from a random function or permutation
(for C71 and C76).
-/
import Mathlib.Data.Fintype.CardEmbedding
import Mathlib.Logic.Equiv.Fintype
import Mathlib.Data.Fintype.Perm
import Mathlib.Algebra.Order.Ring.Pow
import Mathlib.Data.Fintype.Pi
import Mathlib.Data.Fintype.BigOperators
import Mathlib.Algebra.Order.BigOperators.Group.Finset
import Mathlib.Algebra.Order.Field.Basic
import Mathlib.Algebra.BigOperators.Field
import Mathlib.Tactic.Ring
import Mathlib.Tactic.FieldSimp
import Mathlib.Tactic.Positivity
import Mathlib.Tactic.Linarith

namespace DVO.Oracle
open Finset Classical

section
variable {D : Type} [Fintype D]

/-- The fraction of the functions in `F` with property `P`. -/
noncomputable def frac (F : Finset (D → D)) (P : (D → D) → Prop) : ℚ := (F.filter P).card / F.card

omit [Fintype D] in
theorem frac_eq (F : Finset (D → D)) (P : (D → D) → Prop) [DecidablePred P] : frac F P = (F.filter P).card / F.card := by
  unfold frac
  congr

omit [Fintype D] in
theorem frac_mono {F : Finset (D → D)} {P Q : (D → D) → Prop} (h : ∀ e, P e → Q e) : frac F P ≤ frac F Q := by
  unfold frac
  refine div_le_div_of_nonneg_right ?_ (Nat.cast_nonneg _)
  exact_mod_cast card_le_card fun e he => by
    rw [mem_filter] at he ⊢
    exact ⟨he.1, h e he.2⟩

omit [Fintype D] in
theorem frac_or (F : Finset (D → D)) (P Q : (D → D) → Prop) : frac F (fun e => P e ∨ Q e) ≤ frac F P + frac F Q := by
  simp only [frac_eq]
  rw [← add_div]
  refine div_le_div_of_nonneg_right ?_ (Nat.cast_nonneg _)
  rw [filter_or]
  exact_mod_cast card_union_le _ _

omit [Fintype D] in
theorem frac_exists {F : Finset (D → D)} {I : Type} (s : Finset I) (P : I → (D → D) → Prop) :
    frac F (fun e => ∃ i ∈ s, P i e) ≤ ∑ i ∈ s, frac F (P i) := by
  simp only [frac_eq]
  rw [← sum_div]
  refine div_le_div_of_nonneg_right ?_ (Nat.cast_nonneg _)
  have : F.filter (fun e => ∃ i ∈ s, P i e) = s.biUnion fun i => F.filter (P i) := by ext; simp; tauto
  rw [this]
  exact_mod_cast card_biUnion_le

omit [Fintype D] in
theorem frac_false {F : Finset (D → D)} (P : (D → D) → Prop) (h : ∀ e, ¬ P e) : frac F P = 0 := by
  unfold frac
  rw [filter_false_of_mem (fun e _ => h e), card_empty]
  simp

/-- Prescribing up to `m` values of a function in `F` is at most `c` times as likely to succeed as for random values. -/
structure Spread (F : Finset (D → D)) (c : ℚ) (m : Nat) : Prop where
  nonneg : 0 ≤ c
  le : ∀ {J : Type} [Fintype J] (Q : J → D), Function.Injective Q → ∀ v : J → D, Fintype.card J ≤ m →
    frac F (fun e => ∀ a, e (Q a) = v a) ≤ c / (Fintype.card D : ℚ) ^ Fintype.card J

theorem count_prescribed {J : Type} [Fintype J] (Q : J → D) (hQ : Function.Injective Q) (v : J → D) :
    (univ.filter (fun e : D → D => ∀ a, e (Q a) = v a)).card * Fintype.card D ^ Fintype.card J = Fintype.card D ^ Fintype.card D := by
  have e1 : univ.filter (fun e : D → D => ∀ a, e (Q a) = v a) = Fintype.piFinset (fun d => if h : ∃ a, Q a = d then {v h.choose} else univ) := by
    ext e
    simp only [mem_filter, mem_univ, true_and, Fintype.mem_piFinset]
    constructor
    · intro h d
      split
      · next hd =>
        rw [mem_singleton]
        conv_lhs => rw [← hd.choose_spec]
        exact h _
      · exact mem_univ _
    · intro h a
      have := h (Q a)
      have hd : ∃ b, Q b = Q a := ⟨a, rfl⟩
      rw [dif_pos hd, mem_singleton, hQ hd.choose_spec] at this
      exact this
  have e2 : ∀ d : D, (if h : ∃ a, Q a = d then {v h.choose} else univ : Finset D).card = if d ∈ univ.image Q then 1 else Fintype.card D := by
    intro d
    by_cases hd : ∃ a, Q a = d
    · rw [dif_pos hd, card_singleton, if_pos (by simpa using hd)]
    · rw [dif_neg hd, card_univ, if_neg (by simpa using hd)]
  rw [e1, Fintype.card_piFinset, prod_congr rfl (fun d _ => e2 d), prod_ite, prod_const_one, one_mul, prod_const, ← pow_add]
  congr 1
  have e3 : (univ.image Q).card = Fintype.card J := by rw [card_image_of_injective _ hQ, card_univ]
  rw [← e3]
  have e4 := card_filter_add_card_filter_not (s := (univ : Finset D)) (fun d => d ∈ univ.image Q)
  rw [filter_mem_eq_inter, univ_inter, card_univ] at e4
  omega

variable [Nonempty D]

/-- All functions. -/
theorem spread_univ [DecidableEq D] (m : Nat) : Spread (univ : Finset (D → D)) 1 m where
  nonneg := zero_le_one
  le {J} _ Q hQ v _ := by
    have h := count_prescribed Q hQ v
    have h0 : (0 : ℚ) < Fintype.card D := by exact_mod_cast Fintype.card_pos
    have h1 : ((univ.filter (fun e : D → D => ∀ a, e (Q a) = v a)).card : ℚ) * (Fintype.card D : ℚ) ^ Fintype.card J = (Fintype.card D : ℚ) ^ Fintype.card D := by
      have h' : (univ.filter (fun e : D → D => ∀ a, e (Q a) = v a)).card * Fintype.card D ^ Fintype.card J = Fintype.card D ^ Fintype.card D := by convert h
      exact_mod_cast h'
    rw [frac_eq, card_univ]
    rw [Fintype.card_fun, Nat.cast_pow, div_le_div_iff₀ (by positivity) (by positivity), h1, one_mul]

omit [Nonempty D] in
/-- One value of a random function. -/
theorem frac_one {F : Finset (D → D)} {c : ℚ} {m : Nat} (hF : Spread F c m) (hm : 1 ≤ m) (q v : D) : frac F (fun e : D → D => e q = v) ≤ c / (Fintype.card D : ℚ) := by
  have := hF.le (J := Unit) (fun _ => q) (fun _ _ _ => rfl) (fun _ => v) (by simpa using hm)
  rw [Fintype.card_unit, pow_one] at this
  exact le_trans (frac_mono fun e he _ => he) this

/-- One value of a random function in terms of another one. -/
theorem frac_two {F : Finset (D → D)} {c : ℚ} {m : Nat} (hF : Spread F c m) (hm : 2 ≤ m) {q q' : D} (hq : q ≠ q') (g : D → D) :
    frac F (fun e : D → D => e q = g (e q')) ≤ c / (Fintype.card D : ℚ) := by
  have h0 : (0 : ℚ) < Fintype.card D := by exact_mod_cast Fintype.card_pos
  have h2 : ∀ v : D, frac F (fun e : D → D => e q = g v ∧ e q' = v) ≤ c / (Fintype.card D : ℚ) ^ 2 := by
    intro v
    have := hF.le (J := Bool) (fun b => if b then q else q') (by
      intro a b h
      cases a <;> cases b <;> simp_all) (fun b => if b then g v else v) (by simpa using hm)
    rw [Fintype.card_bool] at this
    refine le_trans (frac_mono fun e he a => ?_) this
    cases a
    · exact he.2
    · exact he.1
  calc frac F (fun e : D → D => e q = g (e q')) ≤ frac F (fun e : D → D => ∃ v ∈ univ, e q = g v ∧ e q' = v) := frac_mono fun e he => ⟨e q', mem_univ _, he, rfl⟩
    _ ≤ ∑ v : D, frac F (fun e : D → D => e q = g v ∧ e q' = v) := frac_exists _ _
    _ ≤ ∑ v : D, c / (Fintype.card D : ℚ) ^ 2 := sum_le_sum fun v _ => h2 v
    _ = _ := by
      rw [sum_const, card_univ, nsmul_eq_mul]
      field_simp

/-! ### Permutations -/

/-- The functions that are permutations. -/
noncomputable def perms (D : Type) [Fintype D] : Finset (D → D) := univ.map ⟨fun e : Equiv.Perm D => (e : D → D), DFunLike.coe_injective⟩

omit [Nonempty D] in
theorem card_perms : (perms D).card = (Fintype.card D).factorial := by
  unfold perms
  rw [card_map, card_univ, Fintype.card_perm]

omit [Nonempty D] in
/-- Any two embeddings differ by a permutation. -/
theorem exists_perm {J : Type} (v w : J ↪ D) : ∃ s : Equiv.Perm D, ∀ a, s (v a) = w a := by
  let e : {x // x ∈ Set.range v} ≃ {x // x ∈ Set.range w} := (Equiv.ofInjective v v.injective).symm.trans (Equiv.ofInjective w w.injective)
  refine ⟨e.extendSubtype, fun a => ?_⟩
  rw [Equiv.extendSubtype_apply_of_mem _ _ ⟨a, rfl⟩]
  simp [e]

omit [Nonempty D] in
theorem count_perms {J : Type} [Fintype J] (Q v : J ↪ D) :
    (univ.filter (fun e : Equiv.Perm D => ∀ a, e (Q a) = v a)).card * (Fintype.card D).descFactorial (Fintype.card J) = (Fintype.card D).factorial := by
  have h1 : ∀ w : J ↪ D, (univ.filter (fun e : Equiv.Perm D => ∀ a, e (Q a) = w a)).card = (univ.filter (fun e : Equiv.Perm D => ∀ a, e (Q a) = v a)).card := fun w => by
    obtain ⟨s, hs⟩ := exists_perm w v
    refine card_bij' (fun e _ => e.trans s) (fun e _ => e.trans s.symm) (fun e he => ?_) (fun e he => ?_) (fun e _ => ?_) (fun e _ => ?_)
    · rw [mem_filter] at he ⊢
      exact ⟨mem_univ _, fun a => by rw [Equiv.trans_apply, he.2 a, hs]⟩
    · rw [mem_filter] at he ⊢
      exact ⟨mem_univ _, fun a => by rw [Equiv.trans_apply, he.2 a, ← hs, Equiv.symm_apply_apply]⟩
    · ext x; simp
    · ext x; simp
  have h2 : (univ : Finset (Equiv.Perm D)).card = ∑ w : J ↪ D, (univ.filter (fun e : Equiv.Perm D => ∀ a, e (Q a) = w a)).card := by
    rw [card_eq_sum_card_fiberwise (f := fun e : Equiv.Perm D => Q.trans e.toEmbedding) (t := univ) (fun _ _ => mem_univ _)]
    refine sum_congr rfl fun w _ => ?_
    congr 1
    ext e
    rw [mem_filter, mem_filter, DFunLike.ext_iff]
    rfl
  rw [sum_congr rfl fun w _ => h1 w, sum_const, card_univ, card_univ, Fintype.card_perm, Fintype.card_embedding_eq, nsmul_eq_mul, Nat.cast_id, mul_comm] at h2
  exact h2.symm

/-- Permutations, if the square of the number of values is small. -/
theorem spread_perms' {m K : Nat} (hK : 2 ≤ K) (hm : K * m ^ 2 ≤ Fintype.card D) : Spread (perms D) (K / (K - 1)) m where
  nonneg := div_nonneg (Nat.cast_nonneg _) (by
    have : (2 : ℚ) ≤ K := by exact_mod_cast hK
    linarith)
  le {J} _ Q hQ v hJ := by
    have h0 : (0 : ℚ) < Fintype.card D := by exact_mod_cast Fintype.card_pos
    have hK' : (2 : ℚ) ≤ K := by exact_mod_cast hK
    by_cases hv : Function.Injective v
    · have h1 := count_perms ⟨Q, hQ⟩ ⟨v, hv⟩
      dsimp only [Function.Embedding.coeFn_mk] at h1
      have h2 : ((perms D).filter (fun e : D → D => ∀ a, e (Q a) = v a)).card = (univ.filter (fun e : Equiv.Perm D => ∀ a, e (Q a) = v a)).card := by
        unfold perms
        rw [filter_map, card_map]
        rfl
      have h13 : ((K : ℚ) - 1) * (Fintype.card D : ℚ) ^ Fintype.card J ≤ K * ((Fintype.card D).descFactorial (Fintype.card J) : ℚ) := by
        have h4 := Nat.pow_sub_le_descFactorial (Fintype.card D) (Fintype.card J)
        generalize Fintype.card J = j at *
        generalize Fintype.card D = N at *
        have hj : K * j ^ 2 ≤ N := (Nat.mul_le_mul_left K (Nat.pow_le_pow_left hJ 2)).trans hm
        have hjN : j ≤ N := by nlinarith [Nat.mul_le_mul_right (j ^ 2) hK]
        have h5 : (1 : ℚ) - j * (j / N) ≤ (1 - j / N) ^ j := by
          have := one_add_mul_le_pow (a := -((j : ℚ) / N)) (by
            have : (j : ℚ) / N ≤ 1 := (div_le_one h0).2 (by exact_mod_cast hjN)
            linarith) j
          rw [← sub_eq_add_neg] at this
          linarith
        have h6 : (K : ℚ) * ((j : ℚ) * (j / N)) ≤ 1 := by
          rw [← mul_div_assoc, ← mul_div_assoc, div_le_one h0]
          have : ((K * j ^ 2 : Nat) : ℚ) ≤ N := by exact_mod_cast hj
          push_cast at this
          linarith
        have h7 : ((K : ℚ) - 1) * (N : ℚ) ^ j ≤ K * ((N + 1 - j : Nat) : ℚ) ^ j := by
          have h8 : ((N + 1 - j : Nat) : ℚ) ≥ N * (1 - j / N) := by
            rw [Nat.cast_sub (by omega), mul_sub, mul_one, mul_div_cancel₀ _ h0.ne']
            push_cast
            linarith
          have h9 : (0 : ℚ) ≤ N * (1 - j / N) := mul_nonneg h0.le (by
            have : (j : ℚ) / N ≤ 1 := (div_le_one h0).2 (by exact_mod_cast hjN)
            linarith)
          have h10 := pow_le_pow_left₀ h9 h8 j
          rw [mul_pow] at h10
          have h11 : (0 : ℚ) < (N : ℚ) ^ j := by positivity
          calc ((K : ℚ) - 1) * (N : ℚ) ^ j ≤ K * (1 - j * (j / N)) * (N : ℚ) ^ j := mul_le_mul_of_nonneg_right (by linarith) h11.le
            _ ≤ K * (1 - j / N) ^ j * (N : ℚ) ^ j := mul_le_mul_of_nonneg_right (mul_le_mul_of_nonneg_left h5 (by linarith)) h11.le
            _ = K * ((N : ℚ) ^ j * (1 - j / N) ^ j) := by ring
            _ ≤ _ := mul_le_mul_of_nonneg_left h10 (by linarith)
        exact h7.trans (mul_le_mul_of_nonneg_left (by exact_mod_cast h4) (by linarith))
      rw [frac_eq, h2, card_perms, ← h1]
      have h14 : (0 : ℚ) < (univ.filter (fun e : Equiv.Perm D => ∀ a, e (Q a) = v a)).card := by
        have : (univ.filter (fun e : Equiv.Perm D => ∀ a, e (Q a) = v a)).card ≠ 0 := fun h => by
          rw [h, Nat.zero_mul] at h1
          exact (Nat.factorial_pos _).ne h1
        exact_mod_cast Nat.pos_of_ne_zero this
      have h15 : (0 : ℚ) < (Fintype.card D : ℚ) ^ Fintype.card J := by positivity
      push_cast
      have h16 : (0 : ℚ) < (Fintype.card D).descFactorial (Fintype.card J) := by
        have : 0 < ((K : ℚ) - 1) * (Fintype.card D : ℚ) ^ Fintype.card J := mul_pos (by linarith) h15
        exact pos_of_mul_pos_right (this.trans_le h13) (by linarith)
      rw [div_mul_cancel_left₀ h14.ne', ← one_div, div_div, div_le_div_iff₀ h16 (mul_pos (by linarith) h15), one_mul]
      exact h13
    · have h1 : (perms D).filter (fun e : D → D => ∀ a, e (Q a) = v a) = ∅ := filter_false_of_mem fun e he h => hv fun a b hab => by
        obtain ⟨s, -, rfl⟩ := mem_map.1 he
        refine hQ (s.injective ?_)
        exact (h a).trans (hab.trans (h b).symm)
      rw [frac_eq, h1, card_empty, Nat.cast_zero, zero_div]
      exact div_nonneg (div_nonneg (by linarith) (by linarith)) (by positivity)

/-- Permutations, for up to half of the square root of the number of values. -/
theorem spread_perms {m : Nat} (hm : 4 * m ^ 2 ≤ Fintype.card D) : Spread (perms D) (4 / 3) m := by
  have := spread_perms' (K := 4) (by norm_num) hm
  norm_num at this
  exact this

theorem Spread.mono {F : Finset (D → D)} {c c' : ℚ} {m m' : Nat} (h : Spread F c m) (hc : c ≤ c') (hm : m' ≤ m) : Spread F c' m' where
  nonneg := h.nonneg.trans hc
  le Q hQ v hJ := (h.le Q hQ v (hJ.trans hm)).trans (div_le_div_of_nonneg_right hc (by positivity))

omit [Fintype D] [Nonempty D] in
/-- The complementary property. -/
theorem frac_compl {F : Finset (D → D)} (hF : F.Nonempty) (P : (D → D) → Prop) : 1 - frac F (fun e => ¬ P e) ≤ frac F P := by
  have h1 := frac_or F P fun e => ¬ P e
  have h2 : frac F (fun e => P e ∨ ¬ P e) = 1 := by
    rw [frac_eq, filter_true_of_mem fun e _ => Classical.em _]
    exact div_self (by exact_mod_cast hF.card_pos.ne')
  linarith

omit [Nonempty D] in
theorem perms_nonempty : (perms D).Nonempty := ⟨_, mem_map.2 ⟨1, mem_univ _, rfl⟩⟩

/-! ### Several hashes from one random function -/

variable {I K : Type} [Fintype I] [Fintype K]

/-- The arguments at which the random function is evaluated, if the first hashes are `h`: the inputs `x` for the first hash function
    `z`, and values derived from the first hashes for the others. -/
noncomputable def query (x : I → D) (z : K) (τ : K → D → D) (h : I → D) (a : I × K) : D := if a.2 = z then x a.1 else τ a.2 (h a.1)

/-- The hashes: the feed-forward `φ` of the random function `e`. -/
noncomputable def hashes (x : I → D) (z : K) (τ : K → D → D) (φ : D → D → D) (e : D → D) (a : I × K) : D :=
  φ (query x z τ (fun i => φ (x i) (e (x i))) a) (e (query x z τ (fun i => φ (x i) (e (x i))) a))

omit [Fintype D] [Nonempty D] [Fintype I] [Fintype K] in
theorem hashes_eq_iff (x : I → D) (z : K) (τ : K → D → D) (φ ψ : D → D → D) (hφ : ∀ q v t, φ q v = t ↔ v = ψ q t) (e : D → D) (t : I × K → D) :
    hashes x z τ φ e = t ↔ ∀ a, e (query x z τ (fun i => t (i, z)) a) = ψ (query x z τ (fun i => t (i, z)) a) (t a) := by
  constructor
  · intro h
    have h1 : (fun i => φ (x i) (e (x i))) = fun i => t (i, z) := by
      funext i
      rw [← h]
      simp [hashes, query]
    intro a
    rw [← hφ, ← h1]
    exact congrFun h a
  · intro h
    have h1 : (fun i => φ (x i) (e (x i))) = fun i => t (i, z) := by
      funext i
      have := h (i, z)
      simp only [query, if_true] at this
      rw [hφ]
      exact this
    funext a
    unfold hashes
    rw [h1, hφ]
    exact h a

/-- The hashes of different inputs are as good as independent: no set is much more likely than for independent uniform values. -/
theorem hashes_uniform {x : I → D} (hx : Function.Injective x) (z : K) {τ : K → D → D} (hτ : ∀ j, Function.Injective (τ j)) (hτ' : ∀ d j j', τ j d = τ j' d → j = j')
    {φ ψ : D → D → D} (hφ : ∀ q v t, φ q v = t ↔ v = ψ q t) {F : Finset (D → D)} {c : ℚ} {m : Nat} (hF : Spread F c m) (hm : Fintype.card I * Fintype.card K ≤ m)
    (hm2 : 2 ≤ m) (A : Finset (I × K → D)) :
    frac F (fun e => hashes x z τ φ e ∈ A) ≤ c * ((A.card : ℚ) / (Fintype.card D : ℚ) ^ (Fintype.card I * Fintype.card K) +
      ((Fintype.card I * Fintype.card K : Nat) : ℚ) ^ 2 / Fintype.card D) := by
  have h0 : (0 : ℚ) < Fintype.card D := by exact_mod_cast Fintype.card_pos
  have hJ : Fintype.card (I × K) = Fintype.card I * Fintype.card K := Fintype.card_prod I K
  let good : (I × K → D) → Prop := fun t => Function.Injective (query x z τ (fun i => t (i, z)))
  have hfirst : ∀ e : D → D, (fun i => hashes x z τ φ e (i, z)) = fun i => φ (x i) (e (x i)) := by
    intro e; funext i; simp [hashes, query]
  have step1 : frac F (fun e => hashes x z τ φ e ∈ A) ≤ frac F (fun e => (∃ t ∈ A.filter good, hashes x z τ φ e = t) ∨
      ∃ p ∈ (univ : Finset ((I × K) × (I × K))), p.1 ≠ p.2 ∧ query x z τ (fun i => φ (x i) (e (x i))) p.1 = query x z τ (fun i => φ (x i) (e (x i))) p.2) := by
    refine frac_mono fun e he => ?_
    by_cases hg : good (hashes x z τ φ e)
    · exact .inl ⟨_, mem_filter.2 ⟨he, hg⟩, rfl⟩
    · right
      have hg' : ¬ Function.Injective (query x z τ (fun i => φ (x i) (e (x i)))) := by
        rw [← hfirst e]; exact hg
      unfold Function.Injective at hg'
      push Not at hg'
      obtain ⟨a, b, h1, h2⟩ := hg'
      exact ⟨(a, b), mem_univ _, h2, h1⟩
  have step2 : frac F (fun e => ∃ t ∈ A.filter good, hashes x z τ φ e = t) ≤ c * ((A.card : ℚ) / (Fintype.card D : ℚ) ^ (Fintype.card I * Fintype.card K)) := by
    calc _ ≤ ∑ t ∈ A.filter good, frac F (fun e => hashes x z τ φ e = t) := frac_exists _ _
      _ ≤ ∑ t ∈ A.filter good, c / (Fintype.card D : ℚ) ^ (Fintype.card I * Fintype.card K) := by
        refine sum_le_sum fun t ht => ?_
        have h1 := hF.le (query x z τ (fun i => t (i, z))) (mem_filter.1 ht).2 (fun a => ψ (query x z τ (fun i => t (i, z)) a) (t a)) (by rwa [hJ])
        rw [hJ] at h1
        exact le_trans (frac_mono fun e he => (hashes_eq_iff x z τ φ ψ hφ e t).1 he) h1
      _ ≤ _ := by
        rw [sum_const, nsmul_eq_mul, ← mul_div_assoc, ← mul_div_assoc, mul_comm c]
        refine div_le_div_of_nonneg_right (mul_le_mul_of_nonneg_right ?_ hF.nonneg) (by positivity)
        exact_mod_cast card_filter_le _ _
  have step3 : ∀ p : (I × K) × (I × K), frac F (fun e : D → D => p.1 ≠ p.2 ∧
      query x z τ (fun i => φ (x i) (e (x i))) p.1 = query x z τ (fun i => φ (x i) (e (x i))) p.2) ≤ c / (Fintype.card D : ℚ) := by
    have hpos : (0 : ℚ) ≤ c / (Fintype.card D : ℚ) := div_nonneg hF.nonneg h0.le
    -- an input and a derived value
    have mixed : ∀ (i i' : I) (j : K), frac F (fun e : D → D => τ j (φ (x i') (e (x i'))) = x i) ≤ c / (Fintype.card D : ℚ) := by
      intro i i' j
      by_cases hv : ∃ v, τ j v = x i
      · obtain ⟨v, hv⟩ := hv
        refine le_trans (frac_mono fun e he => ?_) (frac_one hF (by omega) (x i') (ψ (x i') v))
        rw [← hφ]
        exact hτ j (he.trans hv.symm)
      · rw [frac_false _ (fun e he => hv ⟨_, he⟩)]
        exact hpos
    rintro ⟨⟨i, j⟩, ⟨i', j'⟩⟩
    dsimp only [query]
    by_cases hj : j = z <;> by_cases hj' : j' = z
    · rw [frac_false]
      · exact hpos
      · rintro e ⟨h1, h2⟩
        rw [if_pos hj, if_pos hj'] at h2
        exact h1 (Prod.ext (hx h2) (hj.trans hj'.symm))
    · refine le_trans (frac_mono fun e he => ?_) (mixed i i' j')
      have := he.2
      rw [if_pos hj, if_neg hj'] at this
      exact this.symm
    · refine le_trans (frac_mono fun e he => ?_) (mixed i' i j)
      have := he.2
      rw [if_neg hj, if_pos hj'] at this
      exact this
    · by_cases hi : i = i'
      · rw [frac_false]
        · exact hpos
        · rintro e ⟨h1, h2⟩
          rw [if_neg hj, if_neg hj', hi] at h2
          exact h1 (Prod.ext hi (hτ' _ _ _ h2))
      · let g : D → D := fun v => if hv : ∃ w, τ j w = τ j' (φ (x i') v) then ψ (x i) hv.choose else v
        refine le_trans (frac_mono fun e he => ?_) (frac_two hF hm2 (fun h => hi (hx h)) g)
        have h2 := he.2
        rw [if_neg hj, if_neg hj'] at h2
        have hv : ∃ w, τ j w = τ j' (φ (x i') (e (x i'))) := ⟨_, h2⟩
        show e (x i) = if hv : ∃ w, τ j w = τ j' (φ (x i') (e (x i'))) then ψ (x i) hv.choose else e (x i')
        rw [dif_pos hv, ← hφ]
        exact hτ j (h2.trans hv.choose_spec.symm)
  calc _ ≤ _ := step1
    _ ≤ _ := frac_or _ _ _
    _ ≤ c * ((A.card : ℚ) / (Fintype.card D : ℚ) ^ (Fintype.card I * Fintype.card K)) + ∑ p : (I × K) × (I × K), c / (Fintype.card D : ℚ) :=
      add_le_add step2 ((frac_exists _ _).trans (sum_le_sum fun p _ => step3 p))
    _ = _ := by
      rw [sum_const, card_univ, Fintype.card_prod, hJ, nsmul_eq_mul]
      push_cast
      ring

end
end DVO.Oracle
