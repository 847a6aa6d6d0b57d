/-
C72: sampling of the noise indices and of the code generator comes to an end.
-/
import Verif.Proofs.Words
import Verif.Proofs.Dist2
import Mathlib.Data.Finset.Option
import Mathlib.Data.Nat.Choose.Bounds
import Mathlib.Analysis.SpecialFunctions.Exp
import Mathlib.Analysis.Complex.ExponentialBounds

namespace DVO.Dist
open VOLE RNG

attribute [local instance] bitsFintype

/-! ### One number -/

theorem divisionLoop_fine (aes : Cipher) {n : Nat} (s : Nat) (fuel : Nat) : ∀ {g : Gen}, Usable g →
    Fine (fun r => r.1 < n ∧ Usable r.2) (divisionLoop aes s (n * s) fuel g) := by
  induction fuel with
  | zero => intros; trivial
  | succ fuel ih =>
    intro g hg
    unfold divisionLoop
    refine Fine.bind (word_fine aes hg) ?_
    rintro ⟨w, g⟩ h
    dsimp only at h ⊢
    split
    · exact ih h
    · next hlt =>
      rw [ge_iff_le, not_le] at hlt
      have hs : 0 < s := Nat.pos_of_ne_zero fun h => by rw [h] at hlt; omega
      exact ⟨(Nat.div_lt_iff_lt_mul hs).2 hlt, h⟩

theorem high_lt {n : Nat} (hn : 0 < n) (w : BitVec 64) : w.toNat * n / 2 ^ 64 < n := by
  rw [Nat.div_lt_iff_lt_mul (by norm_num), Nat.mul_comm n]
  exact Nat.mul_lt_mul_of_pos_right w.isLt hn

theorem productLoop_fine (aes : Cipher) {n : Nat} (hn : 0 < n) (t : Nat) (fuel : Nat) : ∀ {g : Gen} {p : Nat}, p / 2 ^ 64 < n → Usable g →
    Fine (fun r => r.1 < n ∧ Usable r.2) (productLoop aes n t fuel p g) := by
  induction fuel with
  | zero => intros; trivial
  | succ fuel ih =>
    intro g p hp hg
    unfold productLoop
    split
    · refine Fine.bind (word_fine aes hg) ?_
      rintro ⟨w, g⟩ h
      exact ih (high_lt hn w) h
    · exact ⟨hp, hg⟩

/-- C72: libstdc++ is what the protocol relies on. -/
theorem C72_conforms (hiFirst new : Bool) (fuel : Nat) (aes : Cipher) : (stdLib hiFirst new fuel).Conforms aes := by
  intro g lo hi hg hle
  have key : Fine (fun r => lo ≤ r.1 ∧ r.1 ≤ hi ∧ Usable r.2) (unif new fuel aes g lo hi) := by
    unfold unif
    dsimp only
    have h1 := Int.emod_nonneg (hi - lo) (b := 2 ^ 64) (by norm_num)
    have h2 : (hi - lo) % 2 ^ 64 ≤ hi - lo := by
      have := Int.emod_add_mul_ediv (hi - lo) (2 ^ 64)
      have := Int.ediv_nonneg (show 0 ≤ hi - lo by omega) (show (0 : Int) ≤ 2 ^ 64 by norm_num)
      omega
    generalize (hi - lo) % 2 ^ 64 = d at h1 h2
    split
    · have h5 : ∀ r : Nat × Gen, r.1 < d.toNat + 1 ∧ Usable r.2 → Fine (fun r => lo ≤ r.1 ∧ r.1 ≤ hi ∧ Usable r.2) (Out.ok (lo + (r.1 : Int), r.2)) := by
        rintro ⟨r, g⟩ ⟨h3, h4⟩
        dsimp only at h3
        exact ⟨by dsimp only; omega, by dsimp only; omega, h4⟩
      cases new with
      | true =>
        rw [if_pos rfl]
        refine Fine.bind (Q := fun r : Nat × Gen => r.1 < d.toNat + 1 ∧ Usable r.2) ?_ h5
        unfold product
        refine Fine.bind (word_fine aes hg) ?_
        rintro ⟨w, g⟩ h
        dsimp only at h ⊢
        split
        · exact productLoop_fine aes (by omega) _ fuel (high_lt (by omega) w) h
        · exact ⟨high_lt (by omega) w, h⟩
      | false =>
        simp only [Bool.false_eq_true, if_false]
        exact Fine.bind (Q := fun r : Nat × Gen => r.1 < d.toNat + 1 ∧ Usable r.2) (divisionLoop_fine aes _ fuel hg) h5
    · refine Fine.bind (word_fine aes hg) ?_
      rintro ⟨w, g⟩ h
      have := w.isLt
      exact ⟨by dsimp only; omega, by dsimp only; omega, h⟩
  rw [show (stdLib hiFirst new fuel).unif aes g lo hi = unif new fuel aes g lo hi from rfl]
  revert key
  cases unif new fuel aes g lo hi with
  | ok r => exact fun h => h
  | _ => exact fun h => h

theorem share_ge (new : Bool) {n : Nat} (hn : 0 < n) : 2 ^ 64 ≤ n * share new n + n := by
  unfold share
  cases new with
  | true =>
    have h1 := Nat.div_add_mod (2 ^ 64) n
    have h2 := Nat.mod_lt (2 ^ 64) hn
    rw [if_pos rfl]
    omega
  | false =>
    have h1 := Nat.div_add_mod (2 ^ 64 - 1) n
    have h2 := Nat.mod_lt (2 ^ 64 - 1) hn
    simp only [Bool.false_eq_true, if_false]
    omega

theorem count_none (new : Bool) {n : Nat} (hn : 0 < n) (hn' : n < 2 ^ 64) : ((Finset.range (2 ^ 64)).filter (fun w => decode new n w = none)).card ≤ n := by
  have h1 := count_bad new hn' (Finset.empty_subset (Finset.range n))
  have h2 : (Finset.range (2 ^ 64)).filter (fun w => ∀ v, decode new n w = some v → v ∈ (∅ : Finset Nat)) = (Finset.range (2 ^ 64)).filter (fun w => decode new n w = none) := by
    refine Finset.filter_congr fun w _ => ?_
    rw [Option.eq_none_iff_forall_ne_some]
    simp only [Finset.notMem_empty, imp_false, ne_eq]
  rw [h2, Finset.card_empty, Nat.sub_zero] at h1
  have h3 := share_ge new hn
  omega

theorem card_words (P : Nat → Prop) [DecidablePred P] : ((Finset.univ : Finset (BitVec 64)).filter (fun w => P w.toNat)).card = ((Finset.range (2 ^ 64)).filter P).card := by
  refine Finset.card_bij (fun w _ => w.toNat) (fun w h => ?_) (fun a _ b _ h => BitVec.eq_of_toNat_eq h) (fun x h => ?_)
  · rw [Finset.mem_filter] at h ⊢
    exact ⟨Finset.mem_range.2 w.isLt, h.2⟩
  · rw [Finset.mem_filter, Finset.mem_range] at h
    have e : (BitVec.ofNat 64 x).toNat = x := by rw [BitVec.toNat_ofNat, Nat.mod_eq_of_lt h.1]
    exact ⟨BitVec.ofNat 64 x, Finset.mem_filter.2 ⟨Finset.mem_univ _, by rw [e]; exact h.2⟩, e⟩

/-- C72: what a call of the distribution returns depends on the words of the generator: the meaning of the first one that has a
    meaning. All numbers in the range are the meanings of equally many words, and at most `n` words have none. -/
theorem C72_draw (new : Bool) {n : Nat} (hn : 0 < n) (hn' : n < 2 ^ 64) :
    (∀ (aes : Cipher) (junk : Gen) (s : List (BitVec 8)) (b : Int) (g : Gen) (p k v fuel : Nat), size b % 2 = 0 → create junk s b = .ok g → k < fuel →
      p + k < size b * (2 ^ 48 / (size b / 2)) →
      (∀ i < k, decode new n (stream aes (load128 s) (load128 (s.drop 16)) (p + i)).toNat = none) →
      decode new n (stream aes (load128 s) (load128 (s.drop 16)) (p + k)).toNat = some v →
      unif new fuel aes (after aes g p) 0 ((n : Int) - 1) = .ok ((v : Int), after aes g (p + k + 1))) ∧
    (∀ v < n, Nat.card {w : BitVec 64 // decode new n w.toNat = some v} = share new n) ∧
    (∀ w : BitVec 64, ∀ v, decode new n w.toNat = some v → v < n) ∧
    Nat.card {w : BitVec 64 // decode new n w.toNat = none} ≤ n := by
  classical
  refine ⟨fun aes junk s b g p k v fuel he hg hk hp hr hv => unif_eq (tape_create aes he hg) new hn hn' hk hp hr hv, fun v hv => ?_,
    fun w v h => decode_lt w.isLt h, ?_⟩
  · rw [Nat.card_eq_fintype_card, Fintype.card_subtype, card_words (fun w => decode new n w = some v), count_decode new hv hn']
  · rw [Nat.card_eq_fintype_card, Fintype.card_subtype, card_words (fun w => decode new n w = none)]
    exact count_none new hn hn'

/-! ### The noise indices -/

/-- The words that mean a number in `S`, or nothing. -/
noncomputable def badWords (new : Bool) (n : Nat) (S : Finset Nat) : Finset (BitVec 64) :=
  open Classical in Finset.univ.filter (fun w => ∀ v, decode new n w.toNat = some v → v ∈ S)

theorem card_badWords (new : Bool) {n : Nat} (hn : 0 < n) (hn' : n < 2 ^ 32) {S : Finset Nat} (hS : S ⊆ Finset.range n) :
    n * (badWords new n S).card ≤ (S.card + 1) * 2 ^ 64 := by
  classical
  have h1 := count_bad new (show n < 2 ^ 64 by omega) hS
  have h2 := share_ge new hn
  have h3 : (badWords new n S).card = ((Finset.range (2 ^ 64)).filter (fun w => ∀ v, decode new n w = some v → v ∈ S)).card := by
    unfold badWords
    rw [card_words (fun w => ∀ v, decode new n w = some v → v ∈ S)]
  rw [h3]
  have h4 := Finset.card_le_card hS
  rw [Finset.card_range] at h4
  generalize ((Finset.range (2 ^ 64)).filter (fun w => ∀ v, decode new n w = some v → v ∈ S)).card = R at *
  generalize share new n = a at *
  obtain ⟨d, hd⟩ := Nat.exists_eq_add_of_le h4
  rw [show n - S.card = d by omega] at h1
  rw [hd] at hn' h2 ⊢
  generalize S.card = c at *
  have h5 : (c + d) * (c + d) < 2 ^ 32 * 2 ^ 32 := Nat.mul_lt_mul'' hn' hn'
  have h6 : d * 2 ^ 64 ≤ d * ((c + d) * a + (c + d)) := Nat.mul_le_mul_left _ h2
  have h7 : d * (c + d) ≤ (c + d) * (c + d) := Nat.mul_le_mul_right _ (by omega)
  nlinarith

/-- The noise indices, for functions from a family in place of AES. -/
theorem indices_le {F : Finset (Block → Block)} {c : ℚ} (hF : Family F c) (hiFirst new : Bool) {n t B fuel dfuel : Nat} (h1 : 1 ≤ t) (he : t % 2 = 0) (htn : t ≤ n) (hn : n < 2 ^ 32) (hB : 2 * B ≤ 2 ^ 48)
    (hf : 2 * B < fuel) (hd : 2 * B ≤ dfuel) {junk : Gen} {s : List (BitVec 8)} {g : Gen} (hg : create junk s t = .ok g) :
    Oracle.frac F (fun enc => ¬ ∃ l, sampleIndices (stdLib hiFirst new dfuel) (fun _ => enc) n t fuel g [] = .ok l) ≤
      c * ((n.choose (t - 1) : ℚ) * ((t : ℚ) / n) ^ (2 * B)) := by
  classical
  have hs : size (t : Int) = t := by unfold size; rw [if_neg (by omega), Int.toNat_natCast]
  have hcap : 2 * B ≤ size (t : Int) * (2 ^ 48 / (size (t : Int) / 2)) := by
    rw [hs]
    have h2 := Nat.div_add_mod (2 ^ 48) (t / 2)
    have h3 := Nat.mod_lt (2 ^ 48) (show 0 < t / 2 by omega)
    have h4 : t = 2 * (t / 2) := by omega
    generalize 2 ^ 48 / (t / 2) = q at *
    generalize t / 2 = u at *
    subst h4
    have h5 : 2 * u * q = 2 * (u * q) := by ring
    omega
  have hle : ∀ enc, (¬ ∃ l, sampleIndices (stdLib hiFirst new dfuel) (fun _ => enc) n t fuel g [] = .ok l) →
      ∃ S ∈ (Finset.range n).powersetCard (t - 1), ∀ i < 2 * B, stream (fun _ => enc) (load128 s) (load128 (s.drop 16)) i ∈ badWords new n S := by
    intro enc h
    let f := stream (fun _ => enc) (load128 s) (load128 (s.drop 16))
    let V : Finset Nat := (Finset.range (2 * B)).biUnion fun i => (decode new n (f i).toNat).toFinset
    have hV : ∀ v, v ∈ V ↔ ∃ i < 2 * B, decode new n (f i).toNat = some v := fun v => by
      simp only [V, Finset.mem_biUnion, Finset.mem_range, Option.mem_toFinset, Option.mem_def]
    have hV1 : V ⊆ Finset.range n := fun v hv => by
      obtain ⟨i, -, h2⟩ := (hV v).1 hv
      exact Finset.mem_range.2 (decode_lt (f i).isLt h2)
    have hV2 : V.card ≤ t - 1 := by
      by_contra hc
      refine h (sampleIndices_eq (tape_create (fun _ => enc) (by rw [hs]; exact he) hg) hiFirst new (by omega) (by omega) hcap hd (V.map Nat.castEmbedding)
        (by rw [Finset.card_map]; omega) fuel 0 [] (by omega) fun v hv => ?_)
      obtain ⟨x, hx, rfl⟩ := Finset.mem_map.1 hv
      obtain ⟨i, hi, h2⟩ := (hV x).1 hx
      exact .inr ⟨i, by omega, hi, by rw [show stream (fun _ => enc) (load128 s) (load128 (s.drop 16)) i = f i from rfl, h2]; rfl⟩
    obtain ⟨S, h2, h3, h4⟩ := Finset.exists_subsuperset_card_eq hV1 hV2 (by rw [Finset.card_range]; omega)
    refine ⟨S, Finset.mem_powersetCard.2 ⟨h3, h4⟩, fun i hi => ?_⟩
    unfold badWords
    rw [Finset.mem_filter]
    exact ⟨Finset.mem_univ _, fun v hv => h2 ((hV v).2 ⟨i, hi, hv⟩)⟩
  refine (Oracle.frac_mono hle).trans ((Oracle.frac_exists _ _).trans ?_)
  refine (Finset.sum_le_card_nsmul _ _ (c * ((t : ℚ) / n) ^ (2 * B)) fun S hS => ?_).trans (le_of_eq ?_)
  · rw [Finset.mem_powersetCard] at hS
    refine (words_uniform hF _ _ (by omega) (fun _ => badWords new n S)).trans (mul_le_mul_of_nonneg_left ?_ hF.nonneg)
    rw [Finset.prod_const, Finset.card_range]
    refine pow_le_pow_left₀ (div_nonneg (Nat.cast_nonneg _) (by norm_num)) ?_ _
    have h2 := card_badWords new (by omega) hn hS.1
    rw [hS.2, Nat.sub_add_cancel h1] at h2
    rw [div_le_div_iff₀ (by positivity) (by exact_mod_cast (show 0 < n by omega)), mul_comm]
    exact_mod_cast h2
  · rw [Finset.card_powersetCard, Finset.card_range, nsmul_eq_mul]
    ring

/-- C72: with a random function in place of AES, the chance that the noise indices have not been found after `2 * B` words of
    the generator is at most `C(n, t - 1) * (t / n)^(2 B)`, where `n` is the size of the vector and `t` the number of
    indices. -/
theorem C72_indices (hiFirst new : Bool) {n t B fuel dfuel : Nat} (h1 : 1 ≤ t) (he : t % 2 = 0) (htn : t ≤ n) (hn : n < 2 ^ 32) (hB : 2 * B ≤ 2 ^ 48)
    (hf : 2 * B < fuel) (hd : 2 * B ≤ dfuel) {junk : Gen} {s : List (BitVec 8)} {g : Gen} (hg : create junk s t = .ok g) :
    overCiphers (fun enc => ¬ ∃ l, sampleIndices (stdLib hiFirst new dfuel) (fun _ => enc) n t fuel g [] = .ok l) ≤
      (n.choose (t - 1) : ℚ) * ((t : ℚ) / n) ^ (2 * B) := by
  rw [overCiphers_eq]
  have := indices_le family_ciphers hiFirst new h1 he htn hn hB hf hd hg
  rwa [one_mul] at this

theorem choose_bound {n t : Nat} (h1 : 1 ≤ t) (h8 : 8 * t ≤ n) : (n.choose (t - 1) : ℚ) * ((t : ℚ) / n) ^ (2 * t) ≤ (3 / 8) ^ t := by
  have hn : (0 : ℝ) < n := by exact_mod_cast (show 0 < n by omega)
  have key : (n.choose (t - 1) : ℝ) * ((t : ℝ) / n) ^ (2 * t) ≤ (3 / 8) ^ t := by
    have hx : (t : ℝ) / n ≤ 1 / 8 := by
      rw [div_le_div_iff₀ hn (by norm_num), one_mul]
      exact_mod_cast (by omega : t * 8 ≤ n)
    have hx0 : 0 ≤ (t : ℝ) / n := by positivity
    have a1 : (n.choose (t - 1) : ℝ) ≤ (n : ℝ) ^ (t - 1) / (t - 1).factorial := Nat.choose_le_pow_div _ _
    have a2 : (t : ℝ) ^ (t - 1) / (t - 1).factorial ≤ 3 ^ t := by
      refine (Real.pow_div_factorial_le_exp (t : ℝ) (by positivity) (t - 1)).trans ?_
      rw [← mul_one (t : ℝ), Real.exp_nat_mul]
      exact pow_le_pow_left₀ (Real.exp_pos 1).le (Real.exp_one_lt_d9.le.trans (by norm_num)) t
    have a3 : (n : ℝ) ^ (t - 1) * ((t : ℝ) / n) ^ (2 * t) = (t : ℝ) ^ (t - 1) * ((t : ℝ) / n) ^ (t + 1) := by
      rw [show 2 * t = (t - 1) + (t + 1) by omega, pow_add, ← mul_assoc, ← mul_pow, mul_div_cancel₀ _ hn.ne']
    calc (n.choose (t - 1) : ℝ) * ((t : ℝ) / n) ^ (2 * t) ≤ (n : ℝ) ^ (t - 1) / (t - 1).factorial * ((t : ℝ) / n) ^ (2 * t) :=
          mul_le_mul_of_nonneg_right a1 (by positivity)
      _ = (t : ℝ) ^ (t - 1) / (t - 1).factorial * ((t : ℝ) / n) ^ (t + 1) := by rw [div_mul_eq_mul_div, a3, div_mul_eq_mul_div]
      _ ≤ 3 ^ t * (1 / 8) ^ (t + 1) := mul_le_mul a2 (pow_le_pow_left₀ hx0 hx _) (by positivity) (by positivity)
      _ ≤ (3 / 8) ^ t := by
          rw [pow_succ, ← mul_assoc, ← mul_pow]
          have : (3 * (1 / 8) : ℝ) ^ t = (3 / 8) ^ t := by norm_num
          rw [this]
          have : (0 : ℝ) ≤ (3 / 8) ^ t := by positivity
          linarith
  have : (((n.choose (t - 1) : ℚ) * ((t : ℚ) / n) ^ (2 * t) : ℚ) : ℝ) ≤ (((3 / 8) ^ t : ℚ) : ℝ) := by
    push_cast
    exact key
  exact Rat.cast_le.1 this

/-- The parameters of the library. -/
theorem noise_le {F : Finset (Block → Block)} {c : ℚ} (hF : Family F c) (hiFirst new : Bool) {i n t m fuel dfuel : Nat} (ht : noiseSizes[i]? = some (t : Int)) (hm : seedSizes[i]? = some (m : Int)) (hn : m ≤ n)
    (hn' : n ≤ 10616092) (hf : 2 * t < fuel) (hd : 2 * t ≤ dfuel) {junk : Gen} {s : List (BitVec 8)} {g : Gen} (hg : create junk s t = .ok g) :
    Oracle.frac F (fun enc => ¬ ∃ l, sampleIndices (stdLib hiFirst new dfuel) (fun _ => enc) n t fuel g [] = .ok l) ≤ c * (3 / 8) ^ 98 := by
  have hi : i < 5 := (List.getElem?_eq_some_iff.1 ht).1
  have h : 98 ≤ t ∧ t ≤ 2000 ∧ t % 2 = 0 ∧ 8 * t ≤ m := by
    have h5 : i = 0 ∨ i = 1 ∨ i = 2 ∨ i = 3 ∨ i = 4 := by omega
    unfold noiseSizes at ht
    unfold seedSizes at hm
    rcases h5 with rfl | rfl | rfl | rfl | rfl <;>
      · simp only [List.getElem?_cons_zero, List.getElem?_cons_succ, Option.some.injEq] at ht hm
        omega
  refine (indices_le hF hiFirst new (B := t) (by omega) h.2.2.1 (by omega) (by omega) (by omega) hf hd hg).trans (mul_le_mul_of_nonneg_left ?_ hF.nonneg)
  exact (choose_bound (by omega) (by omega)).trans (pow_le_pow_of_le_one (by norm_num) (by norm_num) h.1)

/-- C72: for the parameters of the library, sampling the noise indices takes more than two words per index with a chance of less
    than `2^-138`, with a random function in place of AES. -/
theorem C72_noise (hiFirst new : Bool) {i n t m fuel dfuel : Nat} (ht : noiseSizes[i]? = some (t : Int)) (hm : seedSizes[i]? = some (m : Int)) (hn : m ≤ n)
    (hn' : n ≤ 10616092) (hf : 2 * t < fuel) (hd : 2 * t ≤ dfuel) {junk : Gen} {s : List (BitVec 8)} {g : Gen} (hg : create junk s t = .ok g) :
    overCiphers (fun enc => ¬ ∃ l, sampleIndices (stdLib hiFirst new dfuel) (fun _ => enc) n t fuel g [] = .ok l) < 1 / 2 ^ 138 := by
  rw [overCiphers_eq]
  exact (noise_le family_ciphers hiFirst new ht hm hn hn' hf hd hg).trans_lt (by norm_num)

/-! ### The code generator -/

/-- The code generator, for functions from a family in place of AES. -/
theorem code_le {G : Finset (Block → Block)} {c : ℚ} (hG : Family G c) {T : Type} [Scalar T] (hiFirst new : Bool) {rows cols F dfuel : Nat} (hr : 1 ≤ rows) (hr' : rows < 2 ^ 64) (hc : cols ≤ 10616092) (hF : 1 ≤ F) (hF' : F ≤ 2 ^ 16)
    (hd : F ≤ dfuel) {junk : Gen} {s : List (BitVec 8)} {g : Gen} (hg : create junk s (nonzeros * cols) = .ok g) :
    Oracle.frac G (fun enc => ¬ ∃ c : Sparse T, sampleCode (stdLib hiFirst new dfuel) (fun _ => enc) rows cols g = .ok c) ≤
      c * (10 * cols * (F + 2) * ((rows : ℚ) / 2 ^ 64) ^ F) := by
  classical
  have hz : nonzeros = 10 := rfl
  have hs : size ((nonzeros : Int) * cols) % 2 = 0 ∧ 2 ≤ size ((nonzeros : Int) * cols) ∧ size ((nonzeros : Int) * cols) ≤ 2 ^ 40 := by
    unfold size
    rw [hz]
    split <;> omega
  have hW : 2 * (nonzeros * cols) + nonzeros * cols * F = 2 * (5 * cols * (F + 2)) := by rw [hz]; ring
  have hW2 : 5 * cols * (F + 2) ≤ 5 * 10616092 * (2 ^ 16 + 2) := Nat.mul_le_mul (by omega) (by omega)
  have hcap : 2 * (nonzeros * cols) + nonzeros * cols * F ≤ size ((nonzeros : Int) * cols) * (2 ^ 48 / (size ((nonzeros : Int) * cols) / 2)) := by
    rw [hW]
    generalize size ((nonzeros : Int) * cols) = S at *
    have h2 := Nat.div_add_mod (2 ^ 48) (S / 2)
    have h3 := Nat.mod_lt (2 ^ 48) (show 0 < S / 2 by omega)
    have h4 : S = 2 * (S / 2) := by omega
    generalize 2 ^ 48 / (S / 2) = q at *
    generalize S / 2 = u at *
    subst h4
    have h5 : 2 * u * q = 2 * (u * q) := by ring
    omega
  let N : Finset (BitVec 64) := Finset.univ.filter (fun w => decode new rows w.toNat = none)
  have hN : (N.card : ℚ) ≤ rows := by
    have := card_words (fun w => decode new rows w = none)
    have h2 := count_none new (show 0 < rows by omega) hr'
    rw [← this] at h2
    exact_mod_cast h2
  have hle : ∀ enc, (¬ ∃ c : Sparse T, sampleCode (stdLib hiFirst new dfuel) (fun _ => enc) rows cols g = .ok c) →
      ∃ p ∈ Finset.range (2 * (5 * cols * (F + 2)) + 1 - F), ∀ i < 2 * (5 * cols * (F + 2)), stream (fun _ => enc) (load128 s) (load128 (s.drop 16)) i ∈
        (if p ≤ i ∧ i < p + F then N else Finset.univ) := by
    intro enc h
    by_contra hc
    refine h (sampleCode_eq (tape_create (fun _ => enc) hs.1 hg) hiFirst new (by omega) hr' hd hcap fun p hp => ?_)
    by_contra hk
    push Not at hk
    refine hc ⟨p, Finset.mem_range.2 (by omega), fun i hi => ?_⟩
    split
    · next h2 =>
      have := hk (i - p) (by omega)
      rw [show p + (i - p) = i by omega] at this
      exact Finset.mem_filter.2 ⟨Finset.mem_univ _, this⟩
    · exact Finset.mem_univ _
  refine (Oracle.frac_mono hle).trans ((Oracle.frac_exists _ _).trans ?_)
  refine (Finset.sum_le_card_nsmul _ _ (c * ((rows : ℚ) / 2 ^ 64) ^ F) fun p hp => ?_).trans ?_
  · rw [Finset.mem_range] at hp
    refine (words_uniform hG _ _ (by omega) (fun i => if p ≤ i ∧ i < p + F then N else Finset.univ)).trans (mul_le_mul_of_nonneg_left ?_ hG.nonneg)
    have h2 : ∀ i, (((if p ≤ i ∧ i < p + F then N else Finset.univ : Finset (BitVec 64)).card : ℚ) / 2 ^ 64) = if p ≤ i ∧ i < p + F then (N.card : ℚ) / 2 ^ 64 else 1 := fun i => by
      split
      · rfl
      · rw [Finset.card_univ, card_bits]; norm_num
    rw [Finset.prod_congr rfl fun i _ => h2 i, Finset.prod_ite, Finset.prod_const, Finset.prod_const_one, mul_one]
    have h3 : (Finset.range (2 * (5 * cols * (F + 2)))).filter (fun i => p ≤ i ∧ i < p + F) = Finset.Ico p (p + F) := by
      ext i
      rw [Finset.mem_filter, Finset.mem_range, Finset.mem_Ico]
      omega
    rw [h3, Nat.card_Ico, Nat.add_sub_cancel_left]
    refine pow_le_pow_left₀ (div_nonneg (Nat.cast_nonneg _) (by norm_num)) ?_ _
    exact div_le_div_of_nonneg_right hN (by norm_num)
  · rw [nsmul_eq_mul, Finset.card_range, mul_left_comm]
    refine mul_le_mul_of_nonneg_left ?_ hG.nonneg
    refine mul_le_mul_of_nonneg_right ?_ (by positivity)
    have h2 : 2 * (5 * cols * (F + 2)) + 1 - F ≤ 10 * cols * (F + 2) := by
      have : 10 * cols * (F + 2) = 2 * (5 * cols * (F + 2)) := by ring
      omega
    exact_mod_cast h2

/-- C72: with a random function in place of AES, the chance that sampling the code generator fails is at most
    `10 * cols * (F + 2) * (rows / 2^64)^F`, if `F` words are allowed for each row number. -/
theorem C72_code {T : Type} [Scalar T] (hiFirst new : Bool) {rows cols F dfuel : Nat} (hr : 1 ≤ rows) (hr' : rows < 2 ^ 64) (hc : cols ≤ 10616092) (hF : 1 ≤ F) (hF' : F ≤ 2 ^ 16)
    (hd : F ≤ dfuel) {junk : Gen} {s : List (BitVec 8)} {g : Gen} (hg : create junk s (nonzeros * cols) = .ok g) :
    overCiphers (fun enc => ¬ ∃ c : Sparse T, sampleCode (stdLib hiFirst new dfuel) (fun _ => enc) rows cols g = .ok c) ≤
      10 * cols * (F + 2) * ((rows : ℚ) / 2 ^ 64) ^ F := by
  rw [overCiphers_eq]
  have := code_le family_ciphers (T := T) hiFirst new hr hr' hc hF hF' hd hg
  rwa [one_mul] at this

/-! Examples: the smallest and the largest parameters; five words for each row. Generators exist. -/

example (b : Int) : ∃ g, create ⟨[], 0, 0, 0, 0⟩ (List.replicate 32 7) b = .ok g := ⟨_, rfl⟩

example (new : Bool) (junk g : Gen) (s : List (BitVec 8)) (hg : create junk s 98 = .ok g) :
    overCiphers (fun enc => ¬ ∃ l, sampleIndices (stdLib true new 1000) (fun _ => enc) 4096 98 1000 g [] = .ok l) < 1 / 2 ^ 138 :=
  C72_noise true new (i := 0) (t := 98) (m := 1589) rfl rfl (by norm_num) (by norm_num) (by norm_num) (by norm_num) hg

example (new : Bool) (junk g : Gen) (s : List (BitVec 8)) (hg : create junk s ((nonzeros : Int) * (10616092 : Nat)) = .ok g) :
    overCiphers (fun enc => ¬ ∃ c : Sparse (BitVec 64), @sampleCode _ (scalarUInt 64) (stdLib true new 5) (fun _ => enc) (588160 : Nat) 10616092 g = .ok c) < 1 / 2 ^ 190 := by
  refine (@C72_code _ (scalarUInt 64) true new 588160 10616092 5 5 (by norm_num) (by norm_num) (by norm_num) (by norm_num) (by norm_num) (by norm_num) _ _ _ hg).trans_lt ?_
  norm_num

/-- Words that mean nothing, for the range of three numbers, and all numbers, in both versions. -/
example : decode true 3 0 = none ∧ decode true 3 1 = some 0 ∧ decode true 3 (2 ^ 64 - 1) = some 2 ∧ decode false 3 (2 ^ 64 - 1) = none ∧ decode false 3 0 = some 0 ∧
    decode false 3 (2 ^ 63) = some 1 ∧ decode true 3 (2 ^ 63) = some 1 ∧ share true 3 = share false 3 ∧ share true 4 = share false 4 + 1 := by decide +kernel

end DVO.Dist
