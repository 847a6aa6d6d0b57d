/-
C77: how often cuckoo hashing fails, with a random function or permutation in place of AES.
-/
import Verif.Proofs.Collide
import Verif.Props.RandomTests
import Verif.Props.Errors

namespace DVO.Cuckoo
open Finset Real

attribute [local instance] bitsFintype

theorem _root_.DVO.Often.mono {P Q : (Block → Block) → Prop} (h : Often P) (hpq : ∀ e, P e → Q e) : Often Q := by
  obtain ⟨h1, h2⟩ := h
  rw [overCiphers_eq] at h1
  rw [overPermutations_eq] at h2
  constructor
  · rw [overCiphers_eq]
    exact h1.trans_le (Oracle.frac_mono hpq)
  · rw [overPermutations_eq]
    exact h2.trans_le (Oracle.frac_mono hpq)

/-- If two inputs have only one bucket between them, hashing fails. -/
theorem not_same (h : Hasher) (hh : 0 < h.numHash) {inputs : List Block} {N : Int} (h0 : 0 < N) (hN : N < 2 ^ 63) {buckets : List Int} (hok : hashCuckoo h inputs N = .ok buckets)
    {i i' : Nat} (hi : i < inputs.length) (hi' : i' < inputs.length) (hne : i ≠ i') :
    ¬ ∃ b, ∀ j < h.numHash, bucketOf h.enc N.toNat inputs[i] j = b ∧ bucketOf h.enc N.toNat inputs[i'] j = b := by
  rintro ⟨b, hb⟩
  obtain ⟨rows, b1, b2, b3, b4⟩ := C16_hashCuckoo h hh inputs N hN buckets hok
  rw [hash_eq h h0 hN, Out.ok.injEq] at b1
  have key : ∀ (l : Nat) (hl : l < inputs.length), (∀ j < h.numHash, bucketOf h.enc N.toNat inputs[l] j = b) → buckets[b]? = some (l : Int) := by
    intro l hl hb
    obtain ⟨p, hp, _⟩ := b4 l hl
    rcases b3 p _ hp with h3 | ⟨l', row, h3, h4, h5⟩
    · omega
    · obtain rfl : l = l' := by exact_mod_cast h3
      rw [← b1, List.getElem?_map, List.getElem?_eq_getElem hl, Option.map_some, Option.some.injEq] at h4
      subst h4
      unfold bucketsOf at h5
      obtain ⟨j, h6, h7⟩ := List.mem_map.1 h5
      rw [hb j (List.mem_range.1 h6)] at h7
      exact h7 ▸ hp
  have e1 := key i hi fun j hj => (hb j hj).1
  have e2 := key i' hi' fun j hj => (hb j hj).2
  rw [e1, Option.some.injEq] at e2
  exact hne (by exact_mod_cast e2)

/-- How often hashing fails at least, for functions from a family in place of AES. -/
theorem lower_le {F : Finset (Block → Block)} (hne : F.Nonempty) {c : ℚ} {m : Nat} (hF : Oracle.Spread F c m) {f : ℚ} (hf : 1 ≤ f) {k : Nat} (hk : 2 ≤ k) (hk' : k < 2 ^ 31) (tooMany : Nat → Nat → Bool) (optimal : Nat → Int)
    {inputs : List Block} (hm : inputs.length * k ≤ m) (hm2 : 2 ≤ m) (hd : inputs.Nodup) (hn : 2 ≤ inputs.length) {N : Int} (hle : inputs.length ≤ N) (hN : N < 2 ^ 63)
    (hb : tooMany inputs.length N.toNat = false) (hs : f * inputs.length * k * N.toNat ≤ 3 * 2 ^ 126) :
    1 - c * (1 - ((inputs.length.choose 2 : ℚ) / (N.toNat : ℚ) ^ (2 * k - 1) - ((inputs.length.choose 2).choose 2 : ℚ) / (N.toNat : ℚ) ^ (3 * k - 1) - 1 / (2 * f) -
        ((inputs.length * k : Nat) : ℚ) ^ 2 / 2 ^ 128)) ≤
      Oracle.frac F (fun enc => hashCuckoo ⟨enc, k, tooMany, optimal⟩ inputs N = .err .internal "Failed to insert element, maximum number of tries exhausted") := by
  classical
  have h0 : 0 < N := by omega
  have hnz : NeZero N.toNat := ⟨by omega⟩
  have hne' : Nonempty Block := ⟨0⟩
  let U : Finset (Fin inputs.length × Fin k → ZMod N.toNat) := univ.filter fun t => ∃ e : Finset (Fin inputs.length), e.card = 2 ∧ Collide.Same e t
  have h1 := table_le hF exactBits_faithful hf (show 0 < k by omega) hk' optimal hm hm2 hd h0 hN
    (by rw [C68_accepted exactBits_faithful hf (by omega) (by omega) hs]; exact Bool.false_ne_true) Uᶜ
  have hcard : Fintype.card (ZMod N.toNat) = N.toNat := ZMod.card _
  have h2 := Collide.card_collide (V := ZMod N.toNat) (show 0 < k by omega) hn (by rw [hcard]; omega) U fun t ht e he hsame =>
    ht (mem_filter.2 ⟨mem_univ _, e, he, hsame⟩)
  rw [hcard] at h2
  have h3 : ((Uᶜ).card : ℚ) / (N.toNat : ℚ) ^ (inputs.length * k) = 1 - (U.card : ℚ) / (N.toNat : ℚ) ^ (inputs.length * k) := by
    have hq : (0 : ℚ) < (N.toNat : ℚ) ^ (inputs.length * k) := pow_pos (by exact_mod_cast (by omega : 0 < N.toNat)) _
    have h4 : U.card + (Uᶜ).card = N.toNat ^ (inputs.length * k) := by
      rw [card_add_card_compl, Fintype.card_fun, hcard, Fintype.card_prod, Fintype.card_fin, Fintype.card_fin]
    have h5 : (U.card : ℚ) + (Uᶜ).card = (N.toNat : ℚ) ^ (inputs.length * k) := by exact_mod_cast h4
    rw [eq_sub_iff_add_eq, ← add_div, add_comm ((Uᶜ).card : ℚ), h5, div_self hq.ne']
  rw [h3] at h1
  refine le_trans ?_ (Oracle.frac_compl hne _)
  have h6 : Oracle.frac F (fun enc => ¬ hashCuckoo ⟨enc, k, tooMany, optimal⟩ inputs N = .err .internal "Failed to insert element, maximum number of tries exhausted") ≤
      c * (1 - (U.card : ℚ) / (N.toNat : ℚ) ^ (inputs.length * k) + 1 / (2 * f) + ((inputs.length * k : Nat) : ℚ) ^ 2 / 2 ^ 128) := by
    refine le_trans (Oracle.frac_mono fun enc h => ?_) h1
    obtain ⟨a1, a2⟩ := C17_outcomes ⟨enc, k, tooMany, optimal⟩ (by dsimp only; omega) inputs N hN
    obtain ⟨buckets, hok⟩ : ∃ buckets, hashCuckoo ⟨enc, k, tooMany, optimal⟩ inputs N = .ok buckets := by
      rcases a2 with a2 | a2 | a2
      · exact a2
      · rcases a1.1 a2 with a3 | a3 | a3 | a3
        · dsimp only at a3; omega
        · omega
        · omega
        · dsimp only at a3
          rw [hb] at a3
          cases a3
      · exact absurd a2 h
    refine ⟨_, fun a => ((bucketOf enc N.toNat inputs[a.1] a.2 : Nat) : ZMod _), hash_eq _ h0 hN _, ?_, fun a => ⟨bucketsOf enc k N.toNat inputs[a.1], _, ?_, ?_, rfl⟩⟩
    · rw [mem_compl, mem_filter]
      rintro ⟨-, e, he, hsame⟩
      obtain ⟨i, i', hii, rfl⟩ := card_eq_two.1 he
      refine not_same ⟨enc, k, tooMany, optimal⟩ (by dsimp only; omega) h0 hN hok i.isLt i'.isLt (fun h => hii (Fin.ext h)) ⟨bucketOf enc N.toNat inputs[i] 0, fun j hj => ?_⟩
      have lt : ∀ x j, bucketOf enc N.toNat x j < N.toNat := fun x j => by unfold bucketOf; exact Nat.mod_lt _ (by omega)
      have val : ∀ a b : Nat, a < N.toNat → b < N.toNat → (a : ZMod N.toNat) = b → a = b := fun a b ha hb hab => by
        have := (ZMod.natCast_eq_natCast_iff' a b N.toNat).1 hab
        rwa [Nat.mod_eq_of_lt ha, Nat.mod_eq_of_lt hb] at this
      exact ⟨val _ _ (lt _ _) (lt _ _) (hsame i (by simp) i (by simp) ⟨j, hj⟩ ⟨0, by omega⟩),
        val _ _ (lt _ _) (lt _ _) (hsame i' (by simp) i (by simp) ⟨j, hj⟩ ⟨0, by omega⟩)⟩
    · rw [List.getElem?_map, List.getElem?_eq_getElem a.1.isLt]
      rfl
    · unfold bucketsOf
      rw [List.getElem?_map, List.getElem?_range a.2.isLt]
      rfl
  refine sub_le_sub_left (h6.trans (mul_le_mul_of_nonneg_left ?_ hF.nonneg)) _
  linarith

/-- C77: how often hashing fails at least, because two inputs have only one bucket between them: about the number of pairs of inputs,
    divided by `N^(2k-1)` for `k` hash functions and `N` buckets. The other terms are small; in `f` there is a choice. -/
theorem C77_lower {f : ℚ} (hf : 1 ≤ f) {k : Nat} (hk : 2 ≤ k) (hk' : k < 2 ^ 31) (tooMany : Nat → Nat → Bool) (optimal : Nat → Int)
    {inputs : List Block} (hd : inputs.Nodup) (hn : 2 ≤ inputs.length) {N : Int} (hle : inputs.length ≤ N) (hN : N < 2 ^ 63)
    (hb : tooMany inputs.length N.toNat = false) (hs : f * inputs.length * k * N.toNat ≤ 3 * 2 ^ 126) :
    (inputs.length.choose 2 : ℚ) / (N.toNat : ℚ) ^ (2 * k - 1) - ((inputs.length.choose 2).choose 2 : ℚ) / (N.toNat : ℚ) ^ (3 * k - 1) - 1 / (2 * f) -
        ((inputs.length * k : Nat) : ℚ) ^ 2 / 2 ^ 128 ≤
      overCiphers (fun enc => hashCuckoo ⟨enc, k, tooMany, optimal⟩ inputs N = .err .internal "Failed to insert element, maximum number of tries exhausted") := by
  classical
  have hne' : Nonempty Block := ⟨0⟩
  have h := lower_le univ_nonempty (Oracle.spread_univ (inputs.length * k + 2)) hf hk hk' tooMany optimal (Nat.le_add_right _ _) (by omega) hd hn hle hN hb hs
  rw [one_mul, sub_sub_cancel] at h
  rw [overCiphers_eq]
  exact h

/-- C77: the chance of two inputs with the same first bucket is all that there is to fear. -/
theorem C77_birthday_partial {bits : Sec → Nat → Nat → Nat → Bool} (H : FaithfulBits bits) {f : ℚ} (hf : 1 ≤ f) {k : Nat} (hk : 2 ≤ k) (hk' : k < 2 ^ 31) (optimal : Nat → Int)
    {inputs : List Block} (hd : inputs.Nodup) {N : Int} (h0 : 0 < N) (hle : inputs.length ≤ N) (hN : N < 2 ^ 63) (hb : bits (some f) k inputs.length N.toNat = false) :
    overCiphers (fun enc => ¬ ∃ buckets, hashCuckoo ⟨enc, k, bits (some f) k, optimal⟩ inputs N = .ok buckets) ≤
      (inputs.length.choose 2 : ℚ) / N.toNat + 1 / (2 * f) + ((inputs.length * k : Nat) : ℚ) ^ 2 / 2 ^ 128 := by
  classical
  have hne : NeZero N.toNat := ⟨by omega⟩
  have hne' : Nonempty Block := ⟨0⟩
  let z : Fin k := ⟨0, by omega⟩
  let B : Finset (Fin inputs.length) → Finset (Fin inputs.length × Fin k → ZMod N.toNat) := fun e => univ.filter fun t => ∀ i ∈ e, ∀ i' ∈ e, t (i, z) = t (i', z)
  let U := (powersetCard 2 univ).biUnion B
  have h1 := table_le (Oracle.spread_univ (inputs.length * k + 2)) H hf (show 0 < k by omega) hk' optimal (Nat.le_add_right _ _) (by omega) hd h0 hN (by rw [hb]; exact Bool.false_ne_true) U
  have hcard : Fintype.card (ZMod N.toNat) = N.toNat := ZMod.card _
  have hNq : (0 : ℚ) < N.toNat := by exact_mod_cast (by omega : 0 < N.toNat)
  have h2 : (U.card : ℚ) / (N.toNat : ℚ) ^ (inputs.length * k) ≤ (inputs.length.choose 2 : ℚ) / N.toNat := by
    have h3 : U.card ≤ inputs.length.choose 2 * N.toNat ^ (inputs.length * k - 1) := by
      refine card_biUnion_le.trans ((sum_le_card_nsmul _ _ (N.toNat ^ (inputs.length * k - 1)) fun e he => ?_).trans_eq ?_)
      · obtain ⟨i, i', hii, rfl⟩ := card_eq_two.1 (mem_powersetCard.1 he).2
        have := Collide.card_glued (V := ZMod N.toNat) ({(i', z)} : Finset (Fin inputs.length × Fin k)) (fun _ => (i, z)) (fun _ _ h => hii (congrArg Prod.fst (mem_singleton.1 h)))
        rw [hcard, Fintype.card_prod, Fintype.card_fin, Fintype.card_fin, card_singleton] at this
        rw [← this]
        refine card_le_card fun t ht => ?_
        rw [mem_filter] at ht ⊢
        refine ⟨mem_univ _, fun x hx => ?_⟩
        rw [mem_singleton.1 hx]
        exact ht.2 i' (by simp) i (by simp)
      · rw [nsmul_eq_mul, Nat.cast_id, card_powersetCard, card_univ, Fintype.card_fin]
    rcases Nat.eq_zero_or_pos inputs.length with hz | hp
    · have : U.card = 0 := by
        have h5 : inputs.length.choose 2 = 0 := by rw [hz]; rfl
        rw [h5, zero_mul] at h3
        omega
      rw [this, Nat.cast_zero, zero_div]
      positivity
    · have h4 : 1 ≤ inputs.length * k := Nat.mul_pos hp (by omega)
      rw [div_le_div_iff₀ (by positivity) hNq]
      calc (U.card : ℚ) * N.toNat ≤ (inputs.length.choose 2 * N.toNat ^ (inputs.length * k - 1) : Nat) * N.toNat := by
            refine mul_le_mul_of_nonneg_right ?_ hNq.le
            exact_mod_cast h3
        _ = (inputs.length.choose 2 : ℚ) * (N.toNat : ℚ) ^ (inputs.length * k) := by
            push_cast
            rw [mul_assoc, ← pow_succ, Nat.sub_add_cancel h4]
  rw [overCiphers_eq]
  refine le_trans (Oracle.frac_mono fun enc h => ?_) (h1.trans ((one_mul _).le.trans (add_le_add (add_le_add h2 le_rfl) le_rfl)))
  have hdup : ¬ (inputs.map (fun x => bucketOf enc N.toNat x 0)).Nodup := fun hnd =>
    h (C17_distinct_first_choices ⟨enc, k, bits (some f) k, optimal⟩ hk inputs N h0 hN hle hb hnd)
  refine ⟨_, fun a => ((bucketOf enc N.toNat inputs[a.1] a.2 : Nat) : ZMod _), hash_eq _ h0 hN _, ?_, fun a => ⟨bucketsOf enc k N.toNat inputs[a.1], _, ?_, ?_, rfl⟩⟩
  · rw [List.nodup_iff_injective_getElem] at hdup
    simp only [Function.Injective, not_forall] at hdup
    obtain ⟨i, i', h5, h6⟩ := hdup
    have hl : (inputs.map (fun x => bucketOf enc N.toNat x 0)).length = inputs.length := List.length_map _
    rw [List.getElem_map, List.getElem_map] at h5
    refine mem_biUnion.2 ⟨{⟨i, hl ▸ i.isLt⟩, ⟨i', hl ▸ i'.isLt⟩}, mem_powersetCard.2 ⟨subset_univ _, card_pair fun h => h6 (Fin.ext (Fin.mk.inj h))⟩, mem_filter.2 ⟨mem_univ _, ?_⟩⟩
    intro r hr r' hr'
    rw [mem_insert, mem_singleton] at hr hr'
    rcases hr with rfl | rfl <;> rcases hr' with rfl | rfl <;> first | rfl | exact congrArg _ h5 | exact congrArg _ h5.symm
  · rw [List.getElem?_map, List.getElem?_eq_getElem a.1.isLt]
    rfl
  · unfold bucketsOf
    rw [List.getElem?_map, List.getElem?_range a.2.isLt]
    rfl

/-! ### The number of buckets that the library uses -/

/-- The numbers of noise indices of the parameters. -/
theorem C77_buckets {optimal : Sec → Nat → Nat → Int} (H : Faithful optimal) {f : ℚ} (h1 : 1 ≤ f) (h2 : f ≤ 6 * 2 ^ 40) :
    optimal (some f) 3 98 ≤ 286 ∧ optimal (some f) 3 198 ≤ 408 ∧ optimal (some f) 3 382 ≤ 682 ∧ optimal (some f) 3 1254 ≤ 2136 ∧
    optimal (some f) 3 1324 ≤ 2256 := by
  have hs := sec_nonneg h1
  have hs' : logb 2 f ≤ 42.6 := by
    have h4 : (f : ℝ) ≤ 6 * 2 ^ 40 := by exact_mod_cast h2
    have h5 := Real.logb_le_logb_of_le (b := 2) (by norm_num) (by exact_mod_cast (lt_of_lt_of_le zero_lt_one h1)) h4
    rw [Real.logb_mul (by norm_num) (by norm_num), Real.logb_pow, Real.logb_self_eq_one (by norm_num)] at h5
    have h6 := log_le_of_pow (x := 6) (by norm_num) (p := 13) (q := 5) (by norm_num)
    norm_num at h5 h6 ⊢
    linarith
  have key : ∀ n : Nat, 0 < n → ∀ (x l a : ℝ) (c : Int), 0 ≤ x → x ≤ 1 → 6.3 + 3.2545 * x ≤ logb 2 n → logb 2 n ≤ l → 0 < a →
      a ≤ 61.75 * (1 + 1.12 * (x - x ^ 3 / 3)) → (42.6 + 130 + l) / a * n * (1 + 1 / 2 ^ 40) ≤ c → optimal (some f) 3 n ≤ c := by
    intro n hn x l a c hx hx1 hl hl' ha hax hc
    apply (H f h1 n hn).le
    refine le_trans (mul_le_mul_of_nonneg_right ?_ (by norm_num)) hc
    refine (estimate_le hn hs ha (hax.trans (slope_ge' hx hx1 hl))).trans ?_
    apply mul_le_mul_of_nonneg_right _ (Nat.cast_nonneg n)
    exact div_le_div_of_nonneg_right (by linarith) ha.le
  have hi : ∀ n k : Nat, 0 < n → n ≤ 2 ^ k → logb 2 n ≤ k := fun n k hn h => by have := log_le hn h; exact_mod_cast this
  have lo : ∀ n p q : Nat, 0 < q → 2 ^ p ≤ n ^ q → (p : ℝ) / q ≤ logb 2 n := by
    intro n p q hq h
    have := log_ge_of_pow (x := n) (p := p) (q := q) (by exact_mod_cast h)
    rw [div_le_iff₀ (by exact_mod_cast hq)]
    linarith
  refine ⟨?_, ?_, ?_, ?_, ?_⟩
  · exact key 98 (by norm_num) 0 7 61.75 286 le_rfl zero_le_one (le_trans (by norm_num) (lo 98 63 10 (by norm_num) (by norm_num))) (by exact_mod_cast hi 98 7 (by norm_num) (by norm_num))
      (by norm_num) (by norm_num) (by norm_num)
  · exact key 198 (by norm_num) 0.399 8 87.7 408 (by norm_num) (by norm_num) (le_trans (by norm_num) (lo 198 38 5 (by norm_num) (by norm_num)))
      (by exact_mod_cast hi 198 8 (by norm_num) (by norm_num)) (by norm_num) (by norm_num) (by norm_num)
  · exact key 382 (by norm_num) 0.69 9 101.8 682 (by norm_num) (by norm_num) (le_trans (by norm_num) (lo 382 60 7 (by norm_num) (by norm_num)))
      (by exact_mod_cast hi 382 9 (by norm_num) (by norm_num)) (by norm_num) (by norm_num) (by norm_num)
  · exact key 1254 (by norm_num) 1 11 107.8 2136 (by norm_num) (by norm_num) (le_trans (by norm_num) (lo 1254 10 1 (by norm_num) (by norm_num)))
      (by exact_mod_cast hi 1254 11 (by norm_num) (by norm_num)) (by norm_num) (by norm_num) (by norm_num)
  · exact key 1324 (by norm_num) 1 11 107.8 2256 (by norm_num) (by norm_num) (le_trans (by norm_num) (lo 1324 10 1 (by norm_num) (by norm_num)))
      (by exact_mod_cast hi 1324 11 (by norm_num) (by norm_num)) (by norm_num) (by norm_num) (by norm_num)

theorem optimal_bounds {optimal : Sec → Nat → Nat → Int} (H : Faithful optimal) {f : ℚ} (h1 : 2 ^ 12 ≤ f) (h2 : f ≤ 6 * 2 ^ 40) {n : Nat}
    (hn : n ∈ [98, 198, 382, 1254, 1324]) : n ≤ optimal (some f) 3 n ∧ optimal (some f) 3 n < 2 ^ 12 ∧
    ∃ c : Nat, optimal (some f) 3 n ≤ c ∧ 1 / 2 ^ 36 < (n.choose 2 : ℚ) / (c : ℚ) ^ 5 - ((n.choose 2).choose 2 : ℚ) / (n : ℚ) ^ 8 - 1 / 2 ^ 89 - ((n * 3 : Nat) : ℚ) ^ 2 / 2 ^ 128 := by
  have hlo : 0 < n := by
    simp only [List.mem_cons, List.not_mem_nil, or_false] at hn
    omega
  have b := C77_buckets H (le_trans (by norm_num) h1) h2
  refine ⟨C67_enough H h1 hlo, ?_⟩
  simp only [List.mem_cons, List.not_mem_nil, or_false] at hn
  rcases hn with rfl | rfl | rfl | rfl | rfl
  · exact ⟨by omega, 286, b.1, by norm_num [Nat.choose_two_right]⟩
  · exact ⟨by omega, 408, b.2.1, by norm_num [Nat.choose_two_right]⟩
  · exact ⟨by omega, 682, b.2.2.1, by norm_num [Nat.choose_two_right]⟩
  · exact ⟨by omega, 2136, b.2.2.2.1, by norm_num [Nat.choose_two_right]⟩
  · exact ⟨by omega, 2256, b.2.2.2.2, by norm_num [Nat.choose_two_right]⟩

/-- How often hashing the noise indices fails, for functions from a family in place of AES. -/
theorem noise_fails {F : Finset (Block → Block)} (hne : F.Nonempty) (hF : Oracle.Spread F (1 + 1 / 2 ^ 90) 4096) {bits : Sec → Nat → Nat → Nat → Bool} {optimal : Sec → Nat → Nat → Int} (Hb : FaithfulBits bits) (H : Faithful optimal) {f : ℚ} (h1 : 2 ^ 12 ≤ f)
    (h2 : f ≤ 6 * 2 ^ 40) {inputs : List Block} (hd : inputs.Nodup) (hn : inputs.length ∈ [98, 198, 382, 1254, 1324]) :
    1 / 2 ^ 36 < Oracle.frac F (fun enc => hashCuckoo ⟨enc, 3, bits (some f) 3, optimal (some f) 3⟩ inputs (optimal (some f) 3 inputs.length) =
      .err .internal "Failed to insert element, maximum number of tries exhausted") := by
  obtain ⟨b1, b2, c, b3, b4⟩ := optimal_bounds H h1 h2 hn
  have hl : 98 ≤ inputs.length ∧ inputs.length ≤ 1324 := by
    simp only [List.mem_cons, List.not_mem_nil, or_false] at hn
    omega
  obtain ⟨n, hn'⟩ : ∃ n, n = inputs.length := ⟨_, rfl⟩
  obtain ⟨N, hN⟩ : ∃ N, N = optimal (some f) 3 inputs.length := ⟨_, rfl⟩
  rw [← hN] at b1 b2 b3 ⊢
  have hNt : N.toNat < 2 ^ 12 := by omega
  have hq : (N.toNat : ℚ) ≤ 2 ^ 12 := by exact_mod_cast hNt.le
  have hm : (inputs.length : ℚ) ≤ 1324 := by exact_mod_cast hl.2
  have h0 : (0 : ℚ) ≤ inputs.length := Nat.cast_nonneg _
  have hp : (inputs.length : ℚ) * N.toNat ≤ 1324 * 2 ^ 12 := mul_le_mul hm hq (Nat.cast_nonneg _) (by norm_num)
  have small : ∀ g : ℚ, 0 ≤ g → g ≤ 2 ^ 100 → g * inputs.length * (3 : Nat) * N.toNat ≤ 3 * 2 ^ 126 := fun g hg hg' => by
    calc g * inputs.length * (3 : Nat) * N.toNat = g * (inputs.length * N.toNat) * 3 := by push_cast; ring
      _ ≤ 2 ^ 100 * (1324 * 2 ^ 12) * 3 := mul_le_mul_of_nonneg_right (mul_le_mul hg' hp (by positivity) (by norm_num)) (by norm_num)
      _ ≤ 3 * 2 ^ 126 := by norm_num
  have h := lower_le hne hF (f := 2 ^ 100) (by norm_num) (k := 3) (by norm_num) (by norm_num) (bits (some f) 3) (optimal (some f) 3) (by omega) (by norm_num) hd (by omega) b1 (by omega)
    (C68_accepted Hb (le_trans (by norm_num) h1) (by norm_num) (by omega) (small f (le_trans (by norm_num) h1) (h2.trans (by norm_num)))) (small _ (by norm_num) le_rfl)
  have e1 : (inputs.length.choose 2 : ℚ) / (c : ℚ) ^ 5 ≤ (inputs.length.choose 2 : ℚ) / (N.toNat : ℚ) ^ 5 :=
    div_le_div_of_nonneg_left (Nat.cast_nonneg _) (pow_pos (by exact_mod_cast (by omega : 0 < N.toNat)) _)
      (pow_le_pow_left₀ (Nat.cast_nonneg _) (by exact_mod_cast (by omega : N.toNat ≤ c)) _)
  have e2 : ((inputs.length.choose 2).choose 2 : ℚ) / (N.toNat : ℚ) ^ 8 ≤ ((inputs.length.choose 2).choose 2 : ℚ) / (inputs.length : ℚ) ^ 8 :=
    div_le_div_of_nonneg_left (Nat.cast_nonneg _) (pow_pos (by exact_mod_cast (by omega : 0 < inputs.length)) _)
      (pow_le_pow_left₀ (Nat.cast_nonneg _) (by exact_mod_cast (by omega : inputs.length ≤ N.toNat)) _)
  refine lt_of_lt_of_le ?_ h
  norm_num at e1 e2 b4 ⊢
  linarith

/-- C77: with up to 40 bits of statistical security of `DistributedVectorOLE` (the hasher gets `log2(6)` more), hashing the noise indices into the
    advertised number of buckets fails for more than `2^-36` of the functions and of the permutations in place of AES, for each of the parameters. -/
theorem C77_noise {bits : Sec → Nat → Nat → Nat → Bool} {optimal : Sec → Nat → Nat → Int} (Hb : FaithfulBits bits) (H : Faithful optimal) {f : ℚ} (h1 : 2 ^ 12 ≤ f)
    (h2 : f ≤ 6 * 2 ^ 40) {inputs : List Block} (hd : inputs.Nodup) (hn : inputs.length ∈ [98, 198, 382, 1254, 1324]) :
    Often (fun enc => hashCuckoo ⟨enc, 3, bits (some f) 3, optimal (some f) 3⟩ inputs (optimal (some f) 3 inputs.length) =
      .err .internal "Failed to insert element, maximum number of tries exhausted") := by
  classical
  have hne : Nonempty Block := ⟨0⟩
  refine ⟨?_, ?_⟩
  · rw [overCiphers_eq]
    exact noise_fails univ_nonempty ((Oracle.spread_univ 4096).mono (by norm_num) le_rfl) Hb H h1 h2 hd hn
  · rw [overPermutations_eq]
    have hsp := Oracle.spread_perms' (D := Block) (m := 4096) (K := 2 ^ 100) (by norm_num) (by rw [card_bits]; norm_num)
    exact noise_fails Oracle.perms_nonempty (hsp.mono (by norm_num) le_rfl) Hb H h1 h2 hd hn

/-- The promise (cuckoo_hasher.h:84-85): inserting `n` inputs into the advertised number of buckets fails with probability at most `2^-s`,
    where `f` is `2^s`. `over` is `overCiphers` or `overPermutations`. -/
def Promise (over : ((Block → Block) → Prop) → ℚ) (bits : Sec → Nat → Nat → Nat → Bool) (optimal : Sec → Nat → Nat → Int) (f : ℚ) (k n : Nat) : Prop :=
  ∀ inputs : List Block, inputs.Nodup → inputs.length = n →
    over (fun enc => ¬ ∃ buckets, hashCuckoo ⟨enc, k, bits (some f) k, optimal (some f) k⟩ inputs (optimal (some f) k n) = .ok buckets) ≤ 1 / f

/-- C77 is false: the promise is not kept for the numbers of noise indices, three hash functions and 36 to 42 bits. -/
theorem C77_negation {bits : Sec → Nat → Nat → Nat → Bool} {optimal : Sec → Nat → Nat → Int} (Hb : FaithfulBits bits) (H : Faithful optimal) {f : ℚ} (h1 : 2 ^ 36 ≤ f)
    (h2 : f ≤ 6 * 2 ^ 40) {n : Nat} (hn : n ∈ [98, 198, 382, 1254, 1324]) : ¬ Promise overCiphers bits optimal f 3 n ∧ ¬ Promise overPermutations bits optimal f 3 n := by
  have hlen : ((List.range n).map fun i => BitVec.ofNat 128 i).length = n := by rw [List.length_map, List.length_range]
  have hn' : n < 2 ^ 64 := by
    simp only [List.mem_cons, List.not_mem_nil, or_false] at hn
    omega
  have hd : ((List.range n).map fun i => BitVec.ofNat 128 i).Nodup := by
    refine List.Nodup.map_on (fun x hx y hy h => ?_) List.nodup_range
    rw [List.mem_range] at hx hy
    have h2 := congrArg BitVec.toNat h
    rwa [BitVec.toNat_ofNat, BitVec.toNat_ofNat, Nat.mod_eq_of_lt (by omega), Nat.mod_eq_of_lt (by omega)] at h2
  have a1 := C77_noise Hb H (le_trans (by norm_num) h1) h2 hd (by rw [hlen]; exact hn)
  rw [hlen] at a1
  obtain ⟨a2, a3⟩ := a1.mono (Q := fun enc => ¬ ∃ buckets, hashCuckoo ⟨enc, 3, bits (some f) 3, optimal (some f) 3⟩ ((List.range n).map fun i => BitVec.ofNat 128 i)
    (optimal (some f) 3 n) = .ok buckets) fun enc h => by
      rintro ⟨b, hb⟩
      rw [h] at hb
      cases hb
  have a4 : 1 / f ≤ 1 / 2 ^ 36 := one_div_le_one_div_of_le (by norm_num) h1
  exact ⟨fun hp => absurd (hp _ hd hlen) (by linarith), fun hp => absurd (hp _ hd hlen) (by linarith)⟩

end DVO.Cuckoo

namespace DVO.MPFSS
open Net Cuckoo ROT
set_option linter.unusedSectionVars false

/-- The hasher that `CuckooHasher::Create` returns for three hash functions, with `enc` in place of AES with the seed as key
    (cuckoo_hasher.cpp:32-46, mpfss_known_indices.cpp:60-62). `f` is 2 to the power of the statistical security. -/
def hasherFor (bits : Sec → Nat → Nat → Nat → Bool) (optimal : Sec → Nat → Nat → Int) (f : ℚ) (enc : Block → Block) : Hasher :=
  ⟨enc, 3, bits (some f) 3, optimal (some f) 3⟩

theorem indexBlock_nodup {m : Nat} (hm : m ≤ 2 ^ 31) {indices : List Int} (hr : InRange m indices) (hd : indices.Nodup) : (indices.map indexBlock).Nodup := by
  refine List.Nodup.map_on (fun x hx y hy h => ?_) hd
  have h1 := hr x hx
  have h2 := hr y hy
  unfold indexBlock at h
  have h3 := congrArg BitVec.toInt h
  rwa [BitVec.toInt_ofInt, BitVec.toInt_ofInt, Int.bmod_eq_of_le (by omega) (by omega), Int.bmod_eq_of_le (by omega) (by omega)] at h3

variable {T : Type} [Scalar T]

/-- C77: for each of the numbers of noise indices and all different indices, the MPFSS fails and leaves the value provider waiting for more than
    `2^-36` of the functions and of the permutations in place of AES in the hasher, if the statistical security (`f` is 2 to the power of it) is 12 to 42 bits. -/
theorem C77_hangs {bits : Sec → Nat → Nat → Nat → Bool} {optimal : Sec → Nat → Nat → Int} {fl : Nat → Nat → Nat} (Hb : FaithfulBits bits) (H : Faithful optimal)
    (Hd : GGM.FaithfulDepth fl) {f : ℚ} (h1 : 2 ^ 12 ≤ f) (h2 : f ≤ 6 * 2 ^ 40) {t m : Nat} (ht : t ∈ [98, 198, 382, 1254, 1324]) (htm : t ≤ m) (hm : m ≤ 10616092)
    (aes : Cipher) (c : Chans) (sec : Sec) (key seed : Nat → Block) {thrV thrI : Nat → List Nat} (htV : Threads thrV) (htI : Threads thrI) {x : T} {w outV y : List T}
    {indices : List Int} {u v outI : List T} (A : ∀ enc, Args (hasherFor bits optimal f enc) t m x w outV y indices u v outI) (hr : InRange m indices) (hd : indices.Nodup) :
    Often (fun enc => ∃ r : Res T, (∀ a, r.status ≠ .ok a) ∧
      Hangs (runIndexProviderVectorOLE aes fl c thrI (State.new (hasherFor bits optimal f enc)) y indices u v outI)
        (runValueProviderVectorOLE aes fl c sec key seed thrV (State.new (hasherFor bits optimal f enc)) x t w outV) r) := by
  have hlen : (indices.map indexBlock).length = t := by rw [List.length_map, (A id).len_indices]
  obtain ⟨b1, b2, -⟩ := optimal_bounds H h1 h2 ht
  have ht0 : 98 ≤ t := by
    simp only [List.mem_cons, List.not_mem_nil, or_false] at ht
    omega
  have hs : ∀ enc, Sized (hasherFor bits optimal f enc) fl t m := fun enc =>
    { numHash := Or.inr rfl
      pos := by omega
      le := htm
      buckets_pos := by show 0 < optimal (some f) 3 t; omega
      buckets_lt := by show optimal (some f) 3 t < _; omega
      bits := by
        refine C68_accepted Hb (f := f) (le_trans (by norm_num) h1) (by norm_num) (by show 0 < (optimal (some f) 3 t).toNat; omega) ?_
        show f * m * (3 : Nat) * ((optimal (some f) 3 t).toNat : ℚ) ≤ 3 * 2 ^ 126
        have e1 : (m : ℚ) ≤ 10616092 := by exact_mod_cast hm
        have e2 : ((optimal (some f) 3 t).toNat : ℚ) ≤ 2 ^ 12 := by exact_mod_cast (by omega : (optimal (some f) 3 t).toNat ≤ 2 ^ 12)
        have e0 : 0 ≤ f := le_trans (by norm_num) h1
        calc f * m * (3 : Nat) * ((optimal (some f) 3 t).toNat : ℚ) ≤ 6 * 2 ^ 40 * 10616092 * (3 : Nat) * 2 ^ 12 := by gcongr
          _ ≤ 3 * 2 ^ 126 := by norm_num
      size := by show 3 * m < _; omega
      trees := fun n hn => GGM.C68_good Hd (by
        have : n ≤ 3 * m := hn
        omega) }
  have h3 := C77_noise Hb H h1 h2 (indexBlock_nodup (by omega) hr hd) (by rw [hlen]; exact ht)
  rw [hlen] at h3
  refine Often.mono h3 fun enc he => ?_
  exact C50_mpfss_index_false aes fl c sec key seed (hasherFor bits optimal f enc) t m (hs enc) thrV thrI htV htI _ _ (Coherent.new _) (Coherent.new _) x w outV y indices u v outI
    (A enc) hr (by
      rintro ⟨b, hb⟩
      have : hashCuckoo (hasherFor bits optimal f enc) (indices.map indexBlock) ((hasherFor bits optimal f enc).optimal t) =
        .err .internal "Failed to insert element, maximum number of tries exhausted" := he
      rw [hb] at this
      cases this)

end DVO.MPFSS

namespace DVO.Cuckoo
/-! Examples: three inputs; the noise indices 0, 1, 2, ... with the default of 40 bits; twenty inputs, ten thousand buckets. -/
section Examples

example (o : Nat → Int) : (3 : ℚ) / 10 ^ 5 - 3 / 10 ^ 8 - 1 / 2 ^ 101 - 9 ^ 2 / 2 ^ 128 ≤
    overCiphers (fun enc => hashCuckoo ⟨enc, 3, fun _ _ => false, o⟩ [4, 5, 6] 10 = .err .internal "Failed to insert element, maximum number of tries exhausted") := by
  have := C77_lower (f := 2 ^ 100) (by norm_num) (k := 3) (by norm_num) (by norm_num) (fun _ _ => false) o (inputs := [4, 5, 6]) (by decide) (by decide) (N := 10)
    (by decide) (by norm_num) rfl (by rw [show (10 : Int).toNat = 10 from rfl]; norm_num)
  rw [show (10 : Int).toNat = 10 from rfl, show [4, 5, (6 : Block)].length = 3 from rfl] at this
  refine le_trans ?_ this
  norm_num [Nat.choose_two_right]

example : ¬ Promise overCiphers exactBits exact3 (2 ^ 40) 3 98 ∧ ¬ Promise overPermutations exactBits exact3 (2 ^ 40) 3 98 := C77_negation exactBits_faithful exact3_faithful (by norm_num) (by norm_num) (by decide)
example : ¬ Promise overPermutations exactBits exact3 (6 * 2 ^ 40) 3 1324 := (C77_negation exactBits_faithful exact3_faithful (by norm_num) le_rfl (by decide)).2

example (optimal : Nat → Int) : overCiphers (fun enc => ¬ ∃ buckets, hashCuckoo ⟨enc, 3, exactBits (some (2 ^ 40)) 3, optimal⟩ ((List.range 20).map fun i => BitVec.ofNat 128 i) 10000 = .ok buckets) ≤ 1 / 50 := by
  have := C77_birthday_partial exactBits_faithful (f := 2 ^ 40) (by norm_num) (k := 3) (by norm_num) (by norm_num) optimal
    (inputs := (List.range 20).map fun i => BitVec.ofNat 128 i) (by decide) (N := 10000) (by norm_num) (by decide) (by norm_num)
    (C68_accepted exactBits_faithful (by norm_num) (by norm_num) (by decide) (by rw [show (10000 : Int).toNat = 10000 from rfl]; norm_num))
  rw [show (10000 : Int).toNat = 10000 from rfl] at this
  refine this.trans ?_
  norm_num [Nat.choose_two_right]

open MPFSS in
/-- The noise indices 0, 1, 2, ... 97 in a vector of 4096 elements; all values are 0. -/
example (aes : Cipher) (c : Chans) (sec : Sec) (key seed : Nat → Block) :=
  C77_hangs (T := BitVec 64) exactBits_faithful exact3_faithful GGM.exactDepth_faithful (f := 2 ^ 40) (by norm_num) (by norm_num) (t := 98) (m := 4096) (by decide) (by norm_num)
    (by norm_num) aes c sec key seed exThr_threads exThr_threads (x := 0) (w := List.replicate (exact3 (some (2 ^ 40)) 3 98).toNat 0) (outV := List.replicate 4096 0)
    (y := List.replicate 98 0) (indices := (List.range 98).map fun i : Nat => (i : Int)) (u := List.replicate (exact3 (some (2 ^ 40)) 3 98).toNat 0)
    (v := List.replicate (exact3 (some (2 ^ 40)) 3 98).toNat 0) (outI := List.replicate 4096 0)
    (fun enc => by
      have h : (((exact3 (some (2 ^ 40)) 3 98).toNat : Nat) : Int) = exact3 (some (2 ^ 40)) 3 98 := by
        have := (optimal_bounds exact3_faithful (f := 2 ^ 40) (by norm_num) (by norm_num) (n := 98) (by decide)).1
        omega
      refine ⟨List.length_replicate, by simp, List.length_replicate, List.length_replicate, ?_, ?_, ?_, ?_⟩
      · rw [List.length_replicate]; exact h
      · rw [List.length_replicate]; exact h
      · rw [List.length_replicate]; exact h
      · intro j a b d ha hb hd
        rw [(List.mem_replicate.1 (List.mem_of_getElem? ha)).2, (List.mem_replicate.1 (List.mem_of_getElem? hb)).2, (List.mem_replicate.1 (List.mem_of_getElem? hd)).2]
        rfl)
    (by
      intro i hi
      obtain ⟨k, hk, rfl⟩ := List.mem_map.1 hi
      have := List.mem_range.1 hk
      constructor <;> push_cast <;> omega)
    (List.Nodup.map (fun a b h => by exact_mod_cast h) List.nodup_range)

end Examples
end DVO.Cuckoo
