/-
C71: what the check of the hash length in the cuckoo hasher is good for.
-/
import Verif.Proofs.Words
import Verif.Props.Security
import Verif.Props.Formulas

namespace DVO

/-- Reducing modulo `p` adds at most `p / 2^(h+2)` to the probability of any set. -/
theorem nearUniform_quarter (p h : Nat) [NeZero p] (f : ℚ) (hf : 0 < f) (hr : (p : ℚ) * f ≤ 2 ^ (h + 2)) :
    NearUniform (fun x : Nat => ((x : Nat) : ZMod p)) h p f := by
  intro A
  unfold hashProb
  rw [count_set]
  have hp : (0 : ℚ) < p := by exact_mod_cast Nat.pos_of_ne_zero (NeZero.ne p)
  have hN : (0 : ℚ) < 2 ^ h := by positivity
  have hlt := Nat.mod_lt (2 ^ h) (Nat.pos_of_ne_zero (NeZero.ne p))
  have hle : (A.filter (fun a => a.val < 2 ^ h % p)).card ≤ 2 ^ h % p := by
    calc _ ≤ ((Finset.univ : Finset (ZMod p)).filter (fun a => a.val < 2 ^ h % p)).card :=
          Finset.card_le_card (Finset.filter_subset_filter _ (Finset.subset_univ A))
      _ = 2 ^ h % p := card_val_lt hlt.le
  have hA : (A.filter (fun a => a.val < 2 ^ h % p)).card ≤ A.card := Finset.card_filter_le _ _
  have hq : ((2 ^ h / p : Nat) : ℚ) * p + ((2 ^ h % p : Nat) : ℚ) = 2 ^ h := by
    have := Nat.div_add_mod' (2 ^ h) p
    exact_mod_cast this
  generalize (A.filter (fun a => a.val < 2 ^ h % p)).card = c at hle hA
  generalize 2 ^ h % p = r at hle hlt hq
  generalize 2 ^ h / p = q at hq
  generalize A.card = a at hA
  have h1 : (c : ℚ) ≤ r := by exact_mod_cast hle
  have h2 : (c : ℚ) ≤ a := by exact_mod_cast hA
  have h3 : (r : ℚ) ≤ p := by exact_mod_cast hlt.le
  have h4 : (0 : ℚ) ≤ r := Nat.cast_nonneg r
  have h5 : (0 : ℚ) ≤ c := Nat.cast_nonneg c
  rw [pow_add] at hr
  generalize (2 : ℚ) ^ h = N at hN hq hr
  push_cast
  rw [div_add_div _ _ hp.ne' hf.ne', div_le_div_iff₀ hN (by positivity)]
  have e1 : ((a : ℚ) * q + c) * (p * f) = a * f * (N - r) + c * p * f := by rw [← hq]; ring
  have e2 : (a : ℚ) * f * (N - r) + c * p * f = a * f * N + f * (c * p - a * r) := by ring
  rw [mul_one, e1, e2]
  have e3 : (c : ℚ) * p - a * r ≤ p * p / 4 := by
    have : (c : ℚ) * r ≤ a * r := mul_le_mul_of_nonneg_right h2 h4
    have : (c : ℚ) * (p - r) ≤ r * (p - r) := mul_le_mul_of_nonneg_right h1 (by linarith)
    nlinarith [sq_nonneg ((p : ℚ) - 2 * r)]
  have e4 : f * ((c : ℚ) * p - a * r) ≤ f * (p * p / 4) := mul_le_mul_of_nonneg_left e3 hf.le
  have e5 : f * ((p : ℚ) * p / 4) ≤ p * N := by
    have : (p : ℚ) * f * p ≤ N * 2 ^ 2 * p := mul_le_mul_of_nonneg_right hr hp.le
    linarith
  linarith

namespace Cuckoo

/-- The first hash function is a reduction modulo the number of buckets. -/
theorem bucket_mod (h : Hasher) {N : Int} (h0 : 0 < N) (hN : N < 2 ^ 63) {x : Nat} (hx : x < 2 ^ 128) :
    hashToBucket h (BitVec.ofNat 128 x) N 0 = x % N.toNat := by
  obtain ⟨n, rfl⟩ := Int.eq_ofNat_of_zero_le h0.le
  have h1 : n < 2 ^ 63 := by exact_mod_cast hN
  have h2 : x % n < n := Nat.mod_lt _ (by omega)
  unfold hashToBucket
  simp only [gt_iff_lt, lt_self_iff_false, if_false, BitVec.ofInt_natCast, Int.toNat_natCast]
  rw [BitVec.toNat_setWidth, BitVec.toNat_umod, BitVec.toNat_ofNat, BitVec.toNat_ofNat, Nat.mod_eq_of_lt hx, Nat.mod_eq_of_lt (a := n) (by omega),
    Nat.mod_eq_of_lt (by omega)]

/-- The other hash functions are the first one, on another hash. -/
theorem bucket_again (h : Hasher) (x : Block) (N : Int) {j : Nat} (hj : 0 < j) :
    hashToBucket h x N j = hashToBucket h (hashToU128 h (x ^^^ BitVec.ofNat 128 j)) N 0 := by
  unfold hashToBucket
  simp [hj]

theorem accepted {bits : Sec → Nat → Nat → Nat → Bool} (H : FaithfulBits bits) {f : ℚ} (hf : 1 ≤ f) (h : Hasher) {k m : Nat} {N : Int} (hk : 0 < k) (h0 : 0 < N)
    (hN : N < 2 ^ 63) (ha : ¬ bits (some f) k m N.toNat = true) :
    NearUniformTuples (fun x => (hashToBucket h (BitVec.ofNat 128 x) N 0 : ZMod N.toNat)) 128 N.toNat (m * k) (2 * f) := by
  have hne : NeZero N.toNat := ⟨by omega⟩
  have hf0 : 0 < f := lt_of_lt_of_le zero_lt_one hf
  refine nearUniform_tuples (ZMod.card _) (by omega) (by linarith) (fun hn => ?_)
  have hm : 0 < m := Nat.pos_of_mul_pos_right hn
  have h1 : f * m * k * N.toNat < 2 ^ 129 := by
    by_contra hc
    exact ha (C68_rejected H hf hk hm (by omega) (not_lt.1 hc))
  have hmk : (0 : ℚ) < ((m * k : Nat) : ℚ) := by exact_mod_cast hn
  have key := nearUniform_quarter N.toNat 128 (2 * f * ((m * k : Nat) : ℚ)) (by positivity) (by
    have e : (2 : ℚ) ^ (128 + 2) = 2 ^ 129 * 2 := by norm_num
    rw [e]
    push_cast
    linarith)
  intro A
  refine le_trans (le_of_eq ?_) (key A)
  refine hashProb_congr A fun x hx => ?_
  rw [bucket_mod h h0 hN hx, ZMod.natCast_mod]

/-- C71: if `HashCuckoo` accepts the numbers of inputs and buckets, then its hashes are long enough: were the 128-bit hashes
    independent and uniform, one for each input and hash function, the bucket numbers would be uniform up to a statistical
    distance of half of `2^-s`. -/
theorem C71_cuckoo {bits : Sec → Nat → Nat → Nat → Bool} (H : FaithfulBits bits) {aes : Cipher} {optimal : Nat → Nat → Int} {seed : Block} {k : Int} {f : ℚ} (hf : 1 ≤ f)
    {h : Hasher} (hc : create aes (bits (some f)) optimal seed k = .ok h) {inputs : List Block} {N : Int} (hN : N < 2 ^ 63) {r : List Int}
    (hr : hashCuckoo h inputs N = .ok r) :
    NearUniformTuples (fun x => (hashToBucket h (BitVec.ofNat 128 x) N 0 : ZMod N.toNat)) 128 N.toNat (inputs.length * h.numHash) (2 * f) := by
  unfold create at hc
  split at hc
  · cases hc
  · cases hc
    unfold hashCuckoo at hr
    dsimp only at hr ⊢
    split at hr
    · cases hr
    split at hr
    · cases hr
    split at hr
    · cases hr
    split at hr
    · cases hr
    exact accepted H hf _ (by omega) (by omega) hN (by assumption)

/-- C71: the same for `HashSimple`. -/
theorem C71_simple {bits : Sec → Nat → Nat → Nat → Bool} (H : FaithfulBits bits) {aes : Cipher} {optimal : Nat → Nat → Int} {seed : Block} {k : Int} {f : ℚ} (hf : 1 ≤ f)
    {h : Hasher} (hc : create aes (bits (some f)) optimal seed k = .ok h) {inputs : List Block} {N : Int} (hN : N < 2 ^ 63) {chunks : List Nat} {r : List (List Nat)}
    (hr : hashSimple h chunks inputs N = .ok r) :
    NearUniformTuples (fun x => (hashToBucket h (BitVec.ofNat 128 x) N 0 : ZMod N.toNat)) 128 N.toNat (inputs.length * h.numHash) (2 * f) := by
  unfold create at hc
  split at hc
  · cases hc
  · cases hc
    unfold hashSimple at hr
    dsimp only at hr ⊢
    split at hr
    · cases hr
    split at hr
    · cases hr
    exact accepted H hf _ (by omega) (by omega) hN (by assumption)

/-! ### With a random function in place of AES -/

attribute [local instance] bitsFintype

/-- Tables of bucket numbers, for functions from a family in place of AES. -/
theorem table_le {F : Finset (Block → Block)} {c : ℚ} {m : Nat} (hF : Oracle.Spread F c m) {bits : Sec → Nat → Nat → Nat → Bool} (H : FaithfulBits bits) {f : ℚ} (hf : 1 ≤ f)
    {k : Nat} (hk : 0 < k) (hk' : k < 2 ^ 31) (optimal : Nat → Int) {inputs : List Block} (hm : inputs.length * k ≤ m) (hm2 : 2 ≤ m)
    (hd : inputs.Nodup) {N : Int} (h0 : 0 < N) (hN : N < 2 ^ 63) (ha : ¬ bits (some f) k inputs.length N.toNat = true)
    (A : Finset (Fin inputs.length × Fin k → ZMod N.toNat)) :
    Oracle.frac F (fun enc => ∃ (rows : List (List Nat)) (t : Fin inputs.length × Fin k → ZMod N.toNat), hash ⟨enc, k, bits (some f) k, optimal⟩ inputs N = .ok rows ∧ t ∈ A ∧
        ∀ a, ∃ (row : List Nat) (b : Nat), rows[a.1.val]? = some row ∧ row[a.2.val]? = some b ∧ t a = (b : ZMod N.toNat)) ≤
      c * ((A.card : ℚ) / (N.toNat : ℚ) ^ (inputs.length * k) + 1 / (2 * f) + ((inputs.length * k : Nat) : ℚ) ^ 2 / 2 ^ 128) := by
  classical
  have hne : NeZero N.toNat := ⟨by omega⟩
  have hne' : Nonempty Block := ⟨0⟩
  let x : Fin inputs.length → Block := fun i => inputs[i]
  have hx : Function.Injective x := fun i j hij => Fin.ext ((List.Nodup.getElem_inj_iff hd).1 hij)
  let τ : Fin k → Block → Block := fun j d => d ^^^ BitVec.ofNat 128 j
  have hτ : ∀ j, Function.Injective (τ j) := fun j a b hab => by
    have := congrArg (· ^^^ BitVec.ofNat 128 j) hab
    simpa [τ, BitVec.xor_assoc] using this
  have hτ' : ∀ d j j', τ j d = τ j' d → j = j' := fun d j j' h => by
    have h1 := congrArg (d ^^^ ·) h
    simp only [τ, ← BitVec.xor_assoc, BitVec.xor_self, BitVec.zero_xor] at h1
    have h2 := congrArg BitVec.toNat h1
    rw [BitVec.toNat_ofNat, BitVec.toNat_ofNat, Nat.mod_eq_of_lt (by omega), Nat.mod_eq_of_lt (by omega)] at h2
    exact Fin.ext h2
  have hφ : ∀ q v t : Block, v ^^^ q = t ↔ v = t ^^^ q := fun q v t => by
    constructor
    · rintro rfl; rw [BitVec.xor_assoc, BitVec.xor_self, BitVec.xor_zero]
    · rintro rfl; rw [BitVec.xor_assoc, BitVec.xor_self, BitVec.xor_zero]
  let red : Nat → ZMod N.toNat := fun y => (hashToBucket ⟨fun _ => 0, k, bits (some f) k, optimal⟩ (BitVec.ofNat 128 y) N 0 : ZMod N.toNat)
  have hred : ∀ b : Block, red b.toNat = ((b.toNat % N.toNat : Nat) : ZMod N.toNat) := fun b => by
    simp only [red]
    rw [bucket_mod _ h0 hN b.isLt]
  let A' : Finset (Fin inputs.length × Fin k → Block) := Finset.univ.filter (fun t => (fun a => red (t a).toNat) ∈ A)
  have h1 := Oracle.hashes_uniform hx (⟨0, hk⟩ : Fin k) hτ hτ' (φ := fun q v => v ^^^ q) (ψ := fun q t => t ^^^ q) hφ hF (by rwa [Fintype.card_fin, Fintype.card_fin]) hm2 A'
  rw [card_bits, Fintype.card_fin, Fintype.card_fin] at h1
  -- the events
  have h2 : ∀ enc : Block → Block, (∃ rows t, hash ⟨enc, k, bits (some f) k, optimal⟩ inputs N = .ok rows ∧ t ∈ A ∧
        ∀ a : Fin inputs.length × Fin k, ∃ (row : List Nat) (b : Nat), rows[a.1.val]? = some row ∧ row[a.2.val]? = some b ∧ t a = (b : ZMod N.toNat)) →
      Oracle.hashes x (⟨0, hk⟩ : Fin k) τ (fun q v => v ^^^ q) enc ∈ A' := by
    rintro enc ⟨rows, t, e1, e2, e3⟩
    rw [hash_eq _ h0 hN, Out.ok.injEq] at e1
    subst e1
    rw [Finset.mem_filter]
    refine ⟨Finset.mem_univ _, ?_⟩
    convert e2 using 1
    funext a
    obtain ⟨row, b, e4, e5, e6⟩ := e3 a
    rw [e6, hred]
    simp only [List.getElem?_map, Option.map_eq_some_iff] at e4
    obtain ⟨y, e7, rfl⟩ := e4
    have hy : x a.1 = y := by
      have := List.getElem?_eq_getElem (l := inputs) a.1.isLt
      rw [this] at e7
      exact Option.some.inj e7
    unfold bucketsOf at e5
    simp only [List.getElem?_map, Option.map_eq_some_iff] at e5
    obtain ⟨j, e8, rfl⟩ := e5
    rw [List.getElem?_range a.2.isLt] at e8
    obtain rfl := Option.some.inj e8
    unfold bucketOf
    congr 3
    unfold Oracle.hashes Oracle.query digest
    rw [← hy]
    by_cases hz : a.2 = ⟨0, hk⟩
    · have hz' : (a.2 : Nat) = 0 := congrArg Fin.val hz
      simp [hz]
    · have hz' : (a.2 : Nat) ≠ 0 := fun h => hz (Fin.ext h)
      simp [hz, hz', τ]
  -- the sizes
  have h3 : (A'.card : ℚ) / ((2 ^ 128 : Nat) : ℚ) ^ (inputs.length * k) ≤ (A.card : ℚ) / (N.toNat : ℚ) ^ (inputs.length * k) + 1 / (2 * f) := by
    let g : Fin (inputs.length * k) ≃ Fin inputs.length × Fin k := finProdFinEquiv.symm
    let A2 : Finset (Fin (inputs.length * k) → ZMod N.toNat) := A.image (fun t => t ∘ g)
    have h4 := accepted H hf ⟨fun _ => 0, k, bits (some f) k, optimal⟩ hk h0 hN ha A2
    have h5 : A2.card ≤ A.card := Finset.card_image_le
    have h6 : A'.card ≤ ((Finset.univ : Finset (Fin (inputs.length * k) → Fin (2 ^ 128))).filter (fun y => (fun i => red (y i).val) ∈ A2)).card := by
      refine Finset.card_le_card_of_injOn (fun t i => (t (g i)).toFin) ?_ ?_
      · intro t ht
        have ht' := (Finset.mem_filter.1 (Finset.mem_coe.1 ht)).2
        exact Finset.mem_coe.2 (Finset.mem_filter.2 ⟨Finset.mem_univ _, Finset.mem_image.2 ⟨_, ht', rfl⟩⟩)
      · intro t _ t' _ htt
        funext a
        have := congrFun htt (g.symm a)
        simp only [Equiv.apply_symm_apply] at this
        exact BitVec.toFin_inj.1 this
    have h7 : (A2.card : ℚ) / (N.toNat : ℚ) ^ (inputs.length * k) ≤ (A.card : ℚ) / (N.toNat : ℚ) ^ (inputs.length * k) :=
      div_le_div_of_nonneg_right (by exact_mod_cast h5) (by positivity)
    unfold tupleProb at h4
    have h8 : (A'.card : ℚ) / ((2 ^ 128 : Nat) : ℚ) ^ (inputs.length * k) ≤
        (((Finset.univ : Finset (Fin (inputs.length * k) → Fin (2 ^ 128))).filter (fun y => (fun i => red (y i).val) ∈ A2)).card : ℚ) / ((2 : ℚ) ^ 128) ^ (inputs.length * k) := by
      rw [Nat.cast_pow, Nat.cast_ofNat]
      exact div_le_div_of_nonneg_right (by exact_mod_cast h6) (by positivity)
    have h9 := h8.trans (le_trans (le_of_eq (by congr)) h4)
    linarith
  have h10 := (Oracle.frac_mono h2).trans h1
  rw [Nat.cast_pow, Nat.cast_ofNat] at h10 h3
  exact h10.trans (mul_le_mul_of_nonneg_left (by linarith) hF.nonneg)

/-- C71: with a uniformly random function in place of AES, the bucket numbers of different inputs under all hash functions are nearly
    independent and uniform: the probability of any set `A` of tables is at most that under the uniform distribution, plus half of
    `2^-s` (for the reduction of hashes to buckets), plus `(m * k)^2 / 2^128` (for collisions). -/
theorem C71_ideal {bits : Sec → Nat → Nat → Nat → Bool} (H : FaithfulBits bits) {f : ℚ} (hf : 1 ≤ f) {k : Nat} (hk : 0 < k) (hk' : k < 2 ^ 31) (optimal : Nat → Int)
    {inputs : List Block} (hd : inputs.Nodup) {N : Int} (h0 : 0 < N) (hN : N < 2 ^ 63) (ha : ¬ bits (some f) k inputs.length N.toNat = true)
    (A : Finset (Fin inputs.length × Fin k → ZMod N.toNat)) :
    overCiphers (fun enc => ∃ (rows : List (List Nat)) (t : Fin inputs.length × Fin k → ZMod N.toNat), hash ⟨enc, k, bits (some f) k, optimal⟩ inputs N = .ok rows ∧ t ∈ A ∧
        ∀ a, ∃ (row : List Nat) (b : Nat), rows[a.1.val]? = some row ∧ row[a.2.val]? = some b ∧ t a = (b : ZMod N.toNat)) ≤
      (A.card : ℚ) / (N.toNat : ℚ) ^ (inputs.length * k) + 1 / (2 * f) + ((inputs.length * k : Nat) : ℚ) ^ 2 / 2 ^ 128 := by
  rw [overCiphers_eq]
  have hne : Nonempty Block := ⟨0⟩
  have := table_le (Oracle.spread_univ (inputs.length * k + 2)) H hf hk hk' optimal (by omega) (by omega) hd h0 hN ha A
  rwa [one_mul] at this

/-! Examples: three inputs are placed into ten buckets at 40 bits of security; the tables of a thousand inputs under three hash
functions, in 2000 buckets, are close to uniform. -/
section Examples

theorem ex_bits : exactBits (some (2 ^ 40)) 3 3 10 = false := C68_accepted exactBits_faithful (by norm_num) (by norm_num) (by norm_num) (by norm_num)

example : ∃ h r, create (fun _ b => b + 1) (exactBits (some (2 ^ 40))) (fun _ _ => 10) 0 3 = .ok h ∧ hashCuckoo h [5, 16, 3] 10 = .ok r ∧
    NearUniformTuples (fun x => (hashToBucket h (BitVec.ofNat 128 x) 10 0 : ZMod 10)) 128 10 (3 * h.numHash) (2 * 2 ^ 40) := by
  have hc : create (fun _ b => b + 1) (exactBits (some (2 ^ 40))) (fun _ _ => 10) 0 3 = .ok ⟨fun b => b + 1, 3, exactBits (some (2 ^ 40)) 3, fun _ => 10⟩ := rfl
  obtain ⟨r, hr⟩ := C17_distinct_first_choices ⟨fun b => b + 1, 3, exactBits (some (2 ^ 40)) 3, fun _ => 10⟩ (by norm_num) [5, 16, 3] 10 (by norm_num) (by norm_num) (by decide) ex_bits
    (by decide +kernel)
  exact ⟨_, _, hc, hr, C71_cuckoo exactBits_faithful (by norm_num) hc (by norm_num) hr⟩

theorem ex_nodup : ((List.range 1000).map (BitVec.ofNat 128)).Nodup := by
  refine List.Nodup.map_on (fun x hx y hy h => ?_) List.nodup_range
  rw [List.mem_range] at hx hy
  have h2 := congrArg BitVec.toNat h
  rwa [BitVec.toNat_ofNat, BitVec.toNat_ofNat, Nat.mod_eq_of_lt (by omega), Nat.mod_eq_of_lt (by omega)] at h2

example := C71_ideal exactBits_faithful (f := 2 ^ 40) (by norm_num) (k := 3) (by norm_num) (by norm_num) (fun _ => 0) ex_nodup (N := 2000) (by norm_num) (by norm_num)
  (by
    rw [List.length_map, List.length_range, Bool.not_eq_true, show (2000 : Int).toNat = 2000 from rfl]
    exact C68_accepted exactBits_faithful (by norm_num) (by norm_num) (by norm_num) (by norm_num))

end Examples
end Cuckoo
end DVO
