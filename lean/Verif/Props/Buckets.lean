/-
C67: the number of buckets.
-/
import Verif.Proofs.Buckets
import Verif.Props.Accepted
import Verif.Props.VOLELocal2

set_option linter.unusedSectionVars false

namespace DVO.Cuckoo
open Real

/-- A `double` computation of `x` with a relative error of at most 2^-40, rounded up. (Each of the dozen
    operations has an error of 2^-52 or so, and the only subtraction that loses digits is `1 + erf(..)`, by
    a factor of less than 2^8.) -/
def Rounded (x : ℝ) (k : Int) : Prop := ∃ y : ℝ, |y - x| ≤ x / 2 ^ 40 ∧ k = ⌈y⌉

/-- `optimal` computes the estimate for three hash functions, for every statistical security that is a
    non-negative number. `f` is 2 to the power of it. -/
def Faithful (optimal : Sec → Nat → Nat → Int) : Prop :=
  ∀ f : ℚ, 1 ≤ f → ∀ n, 0 < n → Rounded (estimate3 (logb 2 f) n) (optimal (some f) 3 n)

/-- Exact computation is faithful. -/
noncomputable def exact3 : Sec → Nat → Nat → Int
  | none, _, _ => 2 ^ 63
  | some f, _, n => ⌈estimate3 (logb 2 f) n⌉

theorem sec_nonneg {f : ℚ} (h : 1 ≤ f) : 0 ≤ logb 2 f := Real.logb_nonneg (by norm_num) (by exact_mod_cast h)

theorem one_add_erf_pos (x : ℝ) : 0 < 1 + erf x := by
  rcases le_total 0 x with h | h
  · linarith [erf_nonneg h]
  · have := erf_gap (x := -x) (by linarith)
    rw [neg_neg] at this
    exact lt_of_lt_of_le (mul_pos coef_pos (exp_pos _)) this

theorem estimate_pos {s : ℝ} {n : Nat} (hn : 0 < n) (hs : 0 ≤ s) : 0 < estimate3 s n := by
  unfold estimate3
  have h1 : intercept n < 0 := by
    unfold intercept
    have := one_add_erf_pos ((logb 2 n - 6.45) / (2.18 * √2))
    have := log_nonneg hn
    linarith
  have h2 := slope_ge hn
  exact mul_pos (div_pos (by linarith) (by linarith)) (by exact_mod_cast hn)

theorem estimate_nonneg {s : ℝ} {n : Nat} (hn : 0 < n) (hs : 0 ≤ s) : 0 ≤ estimate3 s n := (estimate_pos hn hs).le

theorem exact3_faithful : Faithful exact3 := fun f hf n hn =>
  ⟨estimate3 (logb 2 f) n, by
    rw [sub_self, abs_zero]
    exact div_nonneg (estimate_nonneg hn (sec_nonneg hf)) (by norm_num), rfl⟩

theorem Rounded.le {x : ℝ} {k c : Int} (h : Rounded x k) (hx : x * (1 + 1 / 2 ^ 40) ≤ c) : k ≤ c := by
  obtain ⟨y, h1, rfl⟩ := h
  rw [Int.ceil_le]
  have := (abs_le.1 h1).2
  linarith

theorem Rounded.ge {x : ℝ} {k c : Int} (h : Rounded x k) (hx : c - 1 < x * (1 - 1 / 2 ^ 40)) : c ≤ k := by
  obtain ⟨y, h1, rfl⟩ := h
  have := (abs_le.1 h1).1
  have h2 : ((c - 1 : Int) : ℝ) < y := by push_cast; linarith
  have := Int.lt_ceil.2 h2
  omega

/-- C67: with at least 12 bits of statistical security there are at least as many buckets as elements. -/
theorem C67_enough {optimal : Sec → Nat → Nat → Int} (H : Faithful optimal) {f : ℚ} (hf : 2 ^ 12 ≤ f) {n : Nat} (hn : 0 < n) :
    (n : Int) ≤ optimal (some f) 3 n := by
  have hs : 12 ≤ logb 2 f := by
    rw [Real.le_logb_iff_rpow_le (by norm_num) (by exact_mod_cast (show (0 : ℚ) < f by linarith [show (0 : ℚ) < 2 ^ 12 by norm_num]))]
    have : ((2 ^ 12 : ℚ) : ℝ) ≤ f := by exact_mod_cast hf
    norm_num at this ⊢
    exact this
  apply (H f (le_trans (by norm_num) hf) n hn).ge
  have h1 := estimate_enough hn hs
  have h2 : (0 : ℝ) < n := by exact_mod_cast hn
  rw [Int.cast_natCast]
  have h3 := mul_le_mul_of_nonneg_right h1 (show (0 : ℝ) ≤ 1 - 1 / 2 ^ 40 by norm_num)
  have h4 : (n : ℝ) ≤ (1 + 1 / 2 ^ 10) * n * (1 - 1 / 2 ^ 40) := by
    rw [mul_assoc, mul_comm (n : ℝ), ← mul_assoc]
    exact le_mul_of_one_le_left h2.le (by norm_num)
  linarith

theorem log_le {n : Nat} (hn : 0 < n) {k : Nat} (h : n ≤ 2 ^ k) : logb 2 n ≤ k := by
  rw [Real.logb_le_iff_le_rpow (by norm_num) (by exact_mod_cast hn), Real.rpow_natCast]
  exact_mod_cast h

theorem sec_le {f : ℚ} (h1 : 1 ≤ f) {c : ℝ} (h : (f : ℝ) ≤ 2 ^ c) : logb 2 f ≤ c := by
  rwa [Real.logb_le_iff_le_rpow (by norm_num) (by exact_mod_cast (lt_of_lt_of_le zero_lt_one h1))]

/-- C67: the conversion to `int64_t` is defined, and there is at least one bucket, for up to 1000 bits of
    statistical security and 2^40 elements. -/
theorem C67_range {optimal : Sec → Nat → Nat → Int} (H : Faithful optimal) {f : ℚ} (h1 : 1 ≤ f) (h2 : f ≤ 2 ^ 1000) {n : Nat} (hn : 0 < n)
    (hn' : n ≤ 2 ^ 40) : Create.IsInt64 (optimal (some f) 3 n) ∧ 0 < optimal (some f) 3 n := by
  have hs := sec_nonneg h1
  have hs' : logb 2 f ≤ 1000 := sec_le h1 (by
    rw [show (1000 : ℝ) = (1000 : ℕ) by norm_num, Real.rpow_natCast]
    exact_mod_cast h2)
  have hl : logb 2 n ≤ 40 := by have := log_le hn hn'; exact_mod_cast this
  have e1 := estimate_le hn hs (by norm_num) (slope_ge hn)
  have hn2 : (n : ℝ) ≤ 2 ^ 40 := by exact_mod_cast hn'
  have e2 : estimate3 (logb 2 f) n ≤ 1170 / 0.008 * 2 ^ 40 := by
    refine e1.trans (mul_le_mul ?_ hn2 (Nat.cast_nonneg n) (by norm_num))
    exact div_le_div_of_nonneg_right (by linarith) (by norm_num)
  have hr := H f h1 n hn
  have up : optimal (some f) 3 n ≤ 2 ^ 62 := hr.le (by
    have := mul_le_mul_of_nonneg_right e2 (show (0 : ℝ) ≤ 1 + 1 / 2 ^ 40 by norm_num)
    refine this.trans ?_
    push_cast
    norm_num)
  have lo : 1 ≤ optimal (some f) 3 n := hr.ge (by
    have := mul_pos (estimate_pos hn hs) (show (0 : ℝ) < 1 - 1 / 2 ^ 40 by norm_num)
    push_cast
    linarith)
  exact ⟨⟨by omega, by omega⟩, by omega⟩

theorem log_ge_of_pow {x : ℝ} {p q : Nat} (h : (2 : ℝ) ^ p ≤ x ^ q) : (p : ℝ) ≤ q * logb 2 x := by
  have := Real.logb_le_logb_of_le (b := 2) (by norm_num) (by positivity) h
  rwa [Real.logb_pow, Real.logb_pow, Real.logb_self_eq_one (by norm_num), mul_one] at this

theorem log_le_of_pow {x : ℝ} (hx : 0 < x) {p q : Nat} (h : x ^ q ≤ (2 : ℝ) ^ p) : q * logb 2 x ≤ p := by
  have := Real.logb_le_logb_of_le (b := 2) (by norm_num) (by positivity) h
  rwa [Real.logb_pow, Real.logb_pow, Real.logb_self_eq_one (by norm_num), mul_one] at this

/-- C67: for the numbers of noise indices of the parameters and up to 128 bits of statistical security (of
    `DistributedVectorOLE`, so that the hasher gets `log2(6)` more), the numbers of buckets. -/
theorem C67_noise {optimal : Sec → Nat → Nat → Int} (H : Faithful optimal) {f : ℚ} (h1 : 1 ≤ f) (h2 : f ≤ 6 * 2 ^ 128) :
    optimal (some f) 3 98 ≤ 500 ∧ optimal (some f) 3 198 ≤ 614 ∧ optimal (some f) 3 382 ≤ 1700 ∧ optimal (some f) 3 1254 ≤ 5600 ∧
    optimal (some f) 3 1324 ≤ 5900 := by
  have hs := sec_nonneg h1
  have hs' : logb 2 f ≤ 130.6 := by
    have h4 : (f : ℝ) ≤ 6 * 2 ^ 128 := by exact_mod_cast h2
    have h5 := Real.logb_le_logb_of_le (b := 2) (by norm_num) (by exact_mod_cast (lt_of_lt_of_le zero_lt_one h1)) h4
    rw [Real.logb_mul (by norm_num) (by norm_num), Real.logb_pow, Real.logb_self_eq_one (by norm_num)] at h5
    have h6 := log_le_of_pow (x := 6) (by norm_num) (p := 13) (q := 5) (by norm_num)
    norm_num at h5 h6 ⊢
    linarith
  have key : ∀ n : Nat, 0 < n → ∀ (x l a : ℝ) (c : Int), 0 ≤ x → x ≤ 1 → 6.3 + 3.2545 * x ≤ logb 2 n → logb 2 n ≤ l → 0 < a →
      a ≤ 61.75 * (1 + 1.12 * (x - x ^ 3 / 3)) → (130.6 + 130 + l) / a * n * (1 + 1 / 2 ^ 40) ≤ c → optimal (some f) 3 n ≤ c := by
    intro n hn x l a c hx hx1 hl hl' ha hax hc
    apply (H f h1 n hn).le
    refine le_trans (mul_le_mul_of_nonneg_right ?_ (by norm_num)) hc
    refine (estimate_le hn hs ha (hax.trans (slope_ge' hx hx1 hl))).trans ?_
    apply mul_le_mul_of_nonneg_right _ (Nat.cast_nonneg n)
    exact div_le_div_of_nonneg_right (by linarith) ha.le
  have lo : ∀ n : Nat, 98 ≤ n → 6.3 + 3.2545 * 0 ≤ logb 2 n := by
    intro n hn
    have hn' : (98 : ℝ) ≤ n := by exact_mod_cast hn
    have := log_ge_of_pow (x := n) (p := 63) (q := 10) (le_trans (by norm_num) (pow_le_pow_left₀ (by norm_num) hn' 10))
    norm_num at this ⊢
    linarith
  have hi : ∀ n : Nat, 0 < n → n ≤ 2 ^ 11 → logb 2 n ≤ 11 := fun n hn h => by have := log_le hn h; exact_mod_cast this
  refine ⟨?_, ?_, ?_, ?_, ?_⟩
  · refine key 98 (by norm_num) 0 7 61.75 500 le_rfl zero_le_one (lo 98 (by norm_num)) ?_ (by norm_num) (by norm_num) (by norm_num)
    have := log_le (n := 98) (by norm_num) (k := 7) (by norm_num)
    exact_mod_cast this
  · refine key 198 (by norm_num) 0.399 8 87.7 614 (by norm_num) (by norm_num) ?_ ?_ (by norm_num) (by norm_num) (by norm_num)
    · have := log_ge_of_pow (x := (198 : Nat)) (p := 38) (q := 5) (by norm_num)
      norm_num at this ⊢
      linarith
    · have := log_le (n := 198) (by norm_num) (k := 8) (by norm_num)
      exact_mod_cast this
  · exact key 382 (by norm_num) 0 11 61.75 1700 le_rfl zero_le_one (lo 382 (by norm_num)) (hi _ (by norm_num) (by norm_num)) (by norm_num)
      (by norm_num) (by norm_num)
  · exact key 1254 (by norm_num) 0 11 61.75 5600 le_rfl zero_le_one (lo 1254 (by norm_num)) (hi _ (by norm_num) (by norm_num)) (by norm_num)
      (by norm_num) (by norm_num)
  · exact key 1324 (by norm_num) 0 11 61.75 5900 le_rfl zero_le_one (lo 1324 (by norm_num)) (hi _ (by norm_num) (by norm_num)) (by norm_num)
      (by norm_num) (by norm_num)

/-- C67: more security never means fewer buckets (before rounding). -/
theorem C67_mono {s s' : ℝ} (h : s ≤ s') {n : Nat} (hn : 0 < n) : estimate3 s n ≤ estimate3 s' n := by
  unfold estimate3
  apply mul_le_mul_of_nonneg_right _ (Nat.cast_nonneg n)
  exact div_le_div_of_nonneg_right (by linarith) (by linarith [slope_ge hn])

/-- C67, C65: from 2^71 bits on, the estimate is not an `int64_t`. -/
theorem C67_huge {optimal : Sec → Nat → Nat → Int} (H : Faithful optimal) {f : ℚ} (h1 : 1 ≤ f) (h2 : (2 : ℝ) ^ 71 ≤ logb 2 f) {n : Nat} (hn : 0 < n) :
    ¬ Create.IsInt64 (optimal (some f) 3 n) := by
  rintro ⟨-, h3⟩
  have h4 : (2 ^ 63 : Int) ≤ optimal (some f) 3 n := (H f h1 n hn).ge (by
    have hn1 : (1 : ℝ) ≤ n := by exact_mod_cast hn
    have e := le_estimate hn (sec_nonneg h1)
    have e2 : (2 : ℝ) ^ 71 / 123.5 * 1 ≤ (logb 2 f + logb 2 n) / 123.5 * n := by
      refine mul_le_mul ?_ hn1 zero_le_one (div_nonneg (by linarith [log_nonneg hn, sec_nonneg h1]) (by norm_num))
      exact div_le_div_of_nonneg_right (by linarith [log_nonneg hn]) (by norm_num)
    have e3 := mul_le_mul_of_nonneg_right (e2.trans e) (show (0 : ℝ) ≤ 1 - 1 / 2 ^ 40 by norm_num)
    refine lt_of_lt_of_le ?_ e3
    push_cast
    norm_num)
  omega

/-! ### Two hash functions -/

theorem sec2_ge {n : Nat} (hn : 0 < n) {e : ℝ} (he : 1 ≤ e) : 3.3 * logb 2 e - 14.8 - 4 * logb 2 n ≤ sec2 n e := by
  unfold sec2
  have h1 : e ^ (-2.5 : ℝ) ≤ 1 := Real.rpow_le_one_of_one_le_of_nonpos he (by norm_num)
  have h2 := log_nonneg hn
  have h3 := mul_le_mul_of_nonneg_left h1 (show 0 ≤ 5 * logb 2 n + 14 by linarith)
  norm_num at h3 ⊢
  linarith

theorem sec2_large (sec : ℝ) {n : Nat} (hn : 0 < n) : ∃ e : Nat, 1 < e ∧ sec ≤ sec2 n e := by
  obtain ⟨k, hk⟩ := exists_nat_ge ((sec + 14.8 + 4 * logb 2 n) / 3.3)
  refine ⟨2 ^ (k + 1), Nat.one_lt_two_pow (by omega), ?_⟩
  have h1 : (1 : ℝ) ≤ ((2 ^ (k + 1) : Nat) : ℝ) := by exact_mod_cast Nat.one_le_two_pow
  have h2 := sec2_ge hn h1
  have h3 : logb 2 ((2 ^ (k + 1) : Nat) : ℝ) = k + 1 := by
    push_cast
    rw [Real.logb_pow, Real.logb_self_eq_one (by norm_num)]
    push_cast
    ring
  rw [h3] at h2
  rw [div_le_iff₀ (by norm_num)] at hk
  linarith

theorem search2_run (sec : ℝ) (n : Nat) (k : Nat) : ∀ (e fuel : Nat), k < fuel → (∀ j, e < j → j < e + k → sec2 n j < sec) → sec ≤ sec2 n (e + k : Nat) →
    ∀ s : ℝ, (k ≠ 0 → s < sec) → (k = 0 → sec ≤ s) → search2 sec n fuel e s = .ok ((e + k : Nat) : ℝ) := by
  induction k with
  | zero =>
    intro e fuel hf _ _ s _ h0
    obtain ⟨fuel, rfl⟩ : ∃ f, fuel = f + 1 := ⟨fuel - 1, by omega⟩
    unfold search2
    rw [if_neg (not_lt.2 (h0 rfl))]
    rfl
  | succ k ih =>
    intro e fuel hf hj hl s hs _
    obtain ⟨fuel, rfl⟩ : ∃ f, fuel = f + 1 := ⟨fuel - 1, by omega⟩
    unfold search2
    rw [if_pos (hs (by omega))]
    have e1 : (e : ℝ) + 1 = ((e + 1 : Nat) : ℝ) := by push_cast; rfl
    rw [e1, ih (e + 1) fuel (by omega) (fun j h1 h2 => hj j (by omega) (by omega)) (by rwa [show e + 1 + k = e + (k + 1) by omega]) _
      (fun hk => hj (e + 1) (by omega) (by omega)) (fun hk => by subst hk; exact hl), show e + 1 + k = e + (k + 1) by omega]

/-- C67: for two hash functions and every number as the statistical security the search ends, with
    factor 1 if there is nothing to achieve and otherwise with the smallest factor above 1 that achieves it;
    so there are at least as many buckets as elements, if the conversion is defined. -/
theorem C67_search (sec : ℝ) {n : Nat} (hn : 0 < n) : ∃ (e N : Nat), 1 ≤ e ∧
    (∀ fuel ≥ N, search2 sec n fuel 1 0 = .ok e ∧ (e * n < 2 ^ 63 → buckets2 sec n fuel = .ok (e * n : Nat))) ∧
    (sec ≤ 0 → e = 1) ∧ (0 < sec → 1 < e ∧ sec ≤ sec2 n e ∧ ∀ j, 1 < j → j < e → sec2 n j < sec) ∧ n ≤ e * n := by
  classical
  have fin : ∀ (e N : Nat), 1 ≤ e → (∀ fuel ≥ N, search2 sec n fuel 1 0 = .ok e) →
      ∀ fuel ≥ N, search2 sec n fuel 1 0 = .ok e ∧ (e * n < 2 ^ 63 → buckets2 sec n fuel = .ok (e * n : Nat)) := by
    intro e N _ h fuel hf
    refine ⟨h fuel hf, fun hlt => ?_⟩
    unfold buckets2
    rw [h fuel hf, Out.ok_bind, show (e : ℝ) * n = ((e * n : Nat) : ℝ) by push_cast; rfl, Int.ceil_natCast]
    exact if_pos ⟨by omega, by exact_mod_cast hlt⟩
  rcases le_or_gt sec 0 with h | h
  · refine ⟨1, 1, le_refl _, fin 1 1 (le_refl _) ?_, fun _ => rfl, fun h' => absurd h (not_le.2 h'), by omega⟩
    intro fuel hf
    obtain ⟨fuel, rfl⟩ : ∃ f, fuel = f + 1 := ⟨fuel - 1, by omega⟩
    unfold search2
    rw [if_neg (not_lt.2 h), Nat.cast_one]
  · have hex := sec2_large sec hn
    obtain ⟨h1, h2⟩ := Nat.find_spec hex
    have hmin : ∀ j, 1 < j → j < Nat.find hex → sec2 n j < sec := fun j hj hj' => by
      by_contra hc
      exact Nat.find_min hex hj' ⟨hj, not_lt.1 hc⟩
    generalize Nat.find hex = e at h1 h2 hmin
    refine ⟨e, e, by omega, fin e e (by omega) ?_, fun h' => absurd h (not_lt.2 h'), fun _ => ⟨h1, h2, hmin⟩, Nat.le_mul_of_pos_left n (by omega)⟩
    intro fuel hf
    have := search2_run sec n (e - 1) 1 fuel (by omega) (fun j a b => hmin j a (by omega)) (by rwa [show 1 + (e - 1) = e by omega]) 0
      (fun _ => h) (fun h' => by omega)
    rw [show 1 + (e - 1) = e by omega, Nat.cast_one] at this
    exact this

theorem sec2_mono {n : Nat} (hn : 0 < n) {d e : ℝ} (hd : 0 < d) (h : d < e) : sec2 n d < sec2 n e := by
  have h1 : logb 2 d < logb 2 e := Real.logb_lt_logb (by norm_num) hd h
  have h2 : e ^ (-2.5 : ℝ) < d ^ (-2.5 : ℝ) := Real.rpow_lt_rpow_of_neg hd h (by norm_num)
  have h3 := mul_lt_mul_of_pos_left h2 (show 0 < 5 * logb 2 n + 14 by linarith [log_nonneg hn])
  unfold sec2
  linarith

theorem log_1024 : logb 2 ((1024 : Nat) : ℝ) = 10 := by
  rw [show ((1024 : Nat) : ℝ) = 2 ^ (10 : ℕ) by norm_num, Real.logb_pow, Real.logb_self_eq_one (by norm_num)]
  norm_num

/-- C67: the factor found for two hash functions is the only one at which the estimate passes the wanted security. -/
theorem C67_search_unique {sec : ℝ} {n : Nat} (hn : 0 < n) (hs : 0 < sec) {e : Nat} (he : 1 < e) (h1 : e = 2 ∨ sec2 n (e - 1 : Nat) < sec)
    (h2 : sec ≤ sec2 n e) (hlt : e * n < 2 ^ 63) : ∃ N, ∀ fuel ≥ N, buckets2 sec n fuel = .ok (e * n : Nat) := by
  obtain ⟨e', N, -, h3, -, h4, -⟩ := C67_search sec hn
  obtain ⟨h5, h6, h7⟩ := h4 hs
  have : e' = e := by
    rcases lt_trichotomy e' e with h | h | h
    · exfalso
      rcases h1 with rfl | h1
      · omega
      · rcases Nat.lt_or_ge e' (e - 1) with hh | hh
        · have := sec2_mono hn (d := e') (e := ((e - 1 : Nat) : ℝ)) (by exact_mod_cast (by omega : 0 < e')) (by exact_mod_cast hh)
          linarith
        · rw [show e' = e - 1 by omega] at h6
          linarith
    · exact h
    · exact absurd (h7 e he h) (not_lt.2 h2)
  subst this
  exact ⟨N, fun fuel hf => (h3 fuel hf).2 hlt⟩

/-- 1024 elements, two hash functions: 3 buckets for each element for 2 bits of security, -/
example : ∃ N, ∀ fuel ≥ N, buckets2 2 1024 fuel = .ok 3072 := by
  refine C67_search_unique (e := 3) (n := 1024) (by omega) (by norm_num) (by omega) (.inr ?_) ?_ (by norm_num)
  · unfold sec2
    rw [log_1024]
    have h : (2 : ℝ) ^ (-2.5 : ℝ) > 0.17 := by
      rw [gt_iff_lt, show (-2.5 : ℝ) = -3 + 1 / 2 by norm_num, Real.rpow_add (by norm_num), ← Real.sqrt_eq_rpow]
      have : (1.4 : ℝ) < √2 := Real.lt_sqrt_of_sq_lt (by norm_num)
      norm_num at this ⊢
      linarith
    norm_num at h ⊢
    linarith
  · unfold sec2
    rw [log_1024]
    have h : (3 : ℝ) ^ (-2.5 : ℝ) ≤ 3 ^ (-2 : ℝ) := Real.rpow_le_rpow_of_exponent_le (by norm_num) (by norm_num)
    have h1 : (1 : ℝ) ≤ logb 2 3 := by
      rw [Real.le_logb_iff_rpow_le (by norm_num) (by norm_num)]; norm_num
    norm_num at h h1 ⊢
    linarith

/-- and 646 buckets for each element for 40 bits. -/
example : ∃ N, ∀ fuel ≥ N, buckets2 40 1024 fuel = .ok 661504 := by
  refine C67_search_unique (e := 646) (n := 1024) (by omega) (by norm_num) (by omega) (.inr ?_) ?_ (by norm_num)
  · unfold sec2
    rw [log_1024]
    have h : (0 : ℝ) < ((646 - 1 : Nat) : ℝ) ^ (-2.5 : ℝ) := Real.rpow_pos_of_pos (by norm_num) _
    have h1 : 3 * logb 2 ((646 - 1 : Nat) : ℝ) < 28 := by
      have : (3 : ℝ) * logb 2 ((646 - 1 : Nat) : ℝ) = logb 2 (((646 - 1 : Nat) : ℝ) ^ (3 : ℕ)) := by rw [Real.logb_pow]; norm_num
      rw [this, Real.logb_lt_iff_lt_rpow (by norm_num) (by norm_num)]
      norm_num
    norm_num at h h1 ⊢
    linarith
  · unfold sec2
    rw [log_1024]
    have h : ((646 : Nat) : ℝ) ^ (-2.5 : ℝ) ≤ ((646 : Nat) : ℝ) ^ (-2 : ℝ) := Real.rpow_le_rpow_of_exponent_le (by norm_num) (by norm_num)
    have h1 : 2791 ≤ 299 * logb 2 ((646 : Nat) : ℝ) := by
      have : (299 : ℝ) * logb 2 ((646 : Nat) : ℝ) = logb 2 (((646 : Nat) : ℝ) ^ (299 : ℕ)) := by rw [Real.logb_pow]; norm_num
      rw [this, Real.le_logb_iff_rpow_le (by norm_num) (by norm_num), show (2791 : ℝ) = ((2791 : ℕ) : ℝ) by norm_num, Real.rpow_natCast]
      have e : (2 : Nat) ^ 2791 ≤ 646 ^ 299 := by decide +kernel
      exact_mod_cast e
    have h2 : ((646 : Nat) : ℝ) ^ (-2 : ℝ) = 1 / 417316 := by
      rw [show (-2 : ℝ) = ((-2 : ℤ) : ℝ) by norm_num, Real.rpow_intCast]; norm_num
    rw [h2] at h
    norm_num at h h1 ⊢
    linarith
end DVO.Cuckoo

namespace DVO.Create
open Net Cuckoo MPFSS
variable {T : Type} [Scalar T]

theorem int_of_range {x : Int} (h1 : 0 ≤ x) (h2 : x < 2 ^ 31) : (BitVec.ofInt 32 x).toInt = x := by
  rw [BitVec.toInt_ofInt, Int.bmod_def]
  have : x % ((2 ^ 32 : Nat) : Int) = x := Int.emod_eq_of_lt (by omega) (by push_cast; omega)
  rw [this, if_pos (by push_cast; omega)]

/-- C67: both parties' `Create` for a statistical security of at most 128 bits returns objects for which the
    numbers of buckets fit the parameters: the hypothesis of the theorems about C36, and those of
    the theorems about whole histories that concern the number of buckets. -/
theorem C67_created (aes : Cipher) (bits : Sec → Nat → Nat → Nat → Bool) {optimal : Sec → Nat → Nat → Int} (H : Faithful optimal) {P Q : Party}
    (hPQ : Peers P Q) (seed seed' : Block) (ch : Chans) {f : ℚ} (h1 : 1 ≤ f) (h2 : f ≤ 2 ^ 128) :
    ∃ o va vb, Computes (voleCreate aes bits optimal P seed (some ch) (some f) : PM (Msg T) _)
        (voleCreate aes bits optimal Q seed' (some ch) (some f) : PM (Msg T) _) (.ok o) (.ok o) va vb ∧
      VOLE.FewBuckets o.mpfss.hasher ∧ (∀ n ∈ VOLE.noiseSizes, 0 < o.mpfss.hasher.optimal n.toNat ∧ o.mpfss.hasher.optimal n.toNat < 10027932) ∧
      (2 ^ 12 ≤ f → ∀ n ∈ VOLE.noiseSizes, n ≤ o.mpfss.hasher.optimal n.toNat) := by
  obtain ⟨va, vb, j⟩ := vole_joint (T := T) aes bits optimal hPQ seed seed' ch (sec := some f) (by rintro _ ⟨⟩; exact h1)
  have hp : ∀ n : Nat, 0 < n → n ≤ 2 ^ 40 → 0 < optimal (some (f * 3 * 2)) 3 n := fun n hn hn' =>
    (C67_range H (f := f * 3 * 2) (by linarith) (by
      refine le_trans (mul_le_mul_of_nonneg_right (mul_le_mul_of_nonneg_right h2 (by norm_num)) (by norm_num)) ?_
      calc (2 ^ 128 * 3 * 2 : ℚ) ≤ 2 ^ 131 := by norm_num
        _ ≤ 2 ^ 1000 := pow_le_pow_right₀ (by norm_num) (by norm_num)) hn hn').2
  refine ⟨_, va, vb, j.computes, ?_, ?_, ?_⟩
  all_goals
    obtain ⟨a1, a2, a3, a4, a5⟩ := C67_noise H (f := f * 3 * 2) (by linarith) (by linarith)
  · have key : ∀ (n : Nat) (c m : Int), 0 < n → n ≤ 2 ^ 40 → c < 2 ^ 31 → optimal (some (f * 3 * 2)) 3 n ≤ c →
        numBuckets (agreed aes bits optimal (if P.lower then seed else seed') ((some f : Sec).map (· * 3))).hasher n = .ok m → m ≤ c := by
      intro n c m hn hn' hc31 hc hm
      unfold numBuckets getOptimalNumberOfBuckets at hm
      rw [if_neg (by omega), if_neg (by omega), if_pos (.inl rfl), Int.toNat_natCast] at hm
      have hp := hp n hn hn'
      change (toInt64 (optimal (some (f * 3 * 2)) 3 n) >>= fun n => Out.ok (BitVec.ofInt 32 n).toInt) = _ at hm
      rw [show toInt64 (optimal (some (f * 3 * 2)) 3 n) = .ok _ from if_pos ⟨by omega, by omega⟩, Out.ok_bind, int_of_range (by omega) (by omega)] at hm
      cases hm
      exact hc
    exact ⟨fun m hm => key 198 614 m (by omega) (by omega) (by omega) a2 hm, fun m hm => (key 382 1700 m (by omega) (by omega) (by omega) a3 hm).trans (by norm_num),
      fun m hm => (key 1254 5600 m (by omega) (by omega) (by omega) a4 hm).trans (by norm_num), fun m hm => (key 1324 5900 m (by omega) (by omega) (by omega) a5 hm).trans (by norm_num)⟩
  · intro n hn
    simp only [VOLE.noiseSizes, List.mem_cons, List.not_mem_nil, or_false] at hn
    show 0 < optimal (some (f * 3 * 2)) 3 n.toNat ∧ optimal (some (f * 3 * 2)) 3 n.toNat < 10027932
    refine ⟨hp n.toNat (by rcases hn with rfl | rfl | rfl | rfl | rfl <;> norm_num) (by rcases hn with rfl | rfl | rfl | rfl | rfl <;> norm_num), ?_⟩
    rcases hn with rfl | rfl | rfl | rfl | rfl
    · exact lt_of_le_of_lt a1 (by norm_num)
    · exact lt_of_le_of_lt a2 (by norm_num)
    · exact lt_of_le_of_lt a3 (by norm_num)
    · exact lt_of_le_of_lt a4 (by norm_num)
    · exact lt_of_le_of_lt a5 (by norm_num)
  · intro h12 n hn
    have hpos : 0 < n := by
      simp only [VOLE.noiseSizes, List.mem_cons, List.not_mem_nil, or_false] at hn
      omega
    have := C67_enough H (f := f * 3 * 2) (by linarith) (n := n.toNat) (by omega)
    show n ≤ optimal (some (f * 3 * 2)) 3 n.toNat
    omega

/-- C36 for objects made by `Create` with at most 128 bits of statistical security: every expansion fits its
    row, in the whole life of an object that is always the sender, or always the receiver. -/
theorem C36_created (aes : Cipher) (bits : Sec → Nat → Nat → Nat → Bool) {optimal : Sec → Nat → Nat → Int} (H : Faithful optimal) {P Q : Party}
    (hPQ : Peers P Q) (seed seed' : Block) (ch : Chans) {f : ℚ} (h1 : 1 ≤ f) (h2 : f ≤ 2 ^ 128) :
    ∃ o va vb, Computes (voleCreate aes bits optimal P seed (some ch) (some f) : PM (Msg T) _)
        (voleCreate aes bits optimal Q seed' (some ch) (some f) : PM (Msg T) _) (.ok o) (.ok o) va vb ∧
      ∀ (E : VOLE.Env T) (junk : T) (role : Bool) (l : List (VOLE.Op T × Out (VOLE.Answer T))) (s : VOLE.VState T),
        VOLE.Lives E (VOLE.created o.mpfss.hasher junk) l s → (∀ x ∈ l, x.1.fwd = role) →
        (∀ x ∈ l, (∃ f n, x.1 = .run f n) ∨ ∃ a, x.2 = .ok a) → ∀ x ∈ s.log, VOLE.FitsRow x := by
  obtain ⟨o, va, vb, h, hf, -⟩ := C67_created (T := T) aes bits H hPQ seed seed' ch h1 h2
  refine ⟨o, va, vb, h, fun E junk role l s hl hr hp => ?_⟩
  cases role with
  | true => exact VOLE.C36_fits_sender_partial hl hr hp hf
  | false => exact VOLE.C36_fits_receiver_partial hl hr hp hf

/-- Forty bits of statistical security, computed exactly. -/
example (seed seed' : Block) :=
  @C67_created _ (scalarUInt 64) GGM.exCipher (fun _ _ _ _ => false) exact3 exact3_faithful ⟨true, false, .ok (), .ok ()⟩ ⟨false, false, .ok (), .ok ()⟩
    ⟨rfl, rfl, rfl, rfl, rfl, rfl⟩ seed seed' ⟨0, 1, 2⟩ (2 ^ 40) (by norm_num) (by norm_num)

/-- For 40 bits, ten elements get at least ten buckets, and the conversion is defined. -/
example : (10 : Int) ≤ exact3 (some (2 ^ 40)) 3 10 ∧ IsInt64 (exact3 (some (2 ^ 40)) 3 10) :=
  ⟨C67_enough exact3_faithful (by norm_num) (by norm_num), (C67_range exact3_faithful (by norm_num) (pow_le_pow_right₀ (by norm_num) (by norm_num)) (by norm_num) (by norm_num)).1⟩

/-- There are numbers as in `C67_huge`. -/
example : ∃ f : ℚ, 1 ≤ f ∧ (2 : ℝ) ^ 71 ≤ Real.logb 2 f := by
  obtain ⟨m, hm⟩ := exists_nat_ge ((2 : ℝ) ^ ((2 : ℝ) ^ 71))
  have h1 : (1 : ℝ) ≤ m := le_trans (Real.one_le_rpow (by norm_num) (by positivity)) hm
  refine ⟨m, by exact_mod_cast h1, ?_⟩
  rw [Real.le_logb_iff_rpow_le (by norm_num) (by push_cast; linarith)]
  push_cast
  exact hm

/-- C65, C67: so `Create` accepts numbers (not only NaN) for which the first precomputation has undefined
    behaviour, if the estimate is computed faithfully. -/
theorem C67_huge_false (aes : Cipher) (bits : Sec → Nat → Nat → Nat → Bool) {optimal : Sec → Nat → Nat → Int} (H : Faithful optimal) {P Q : Party}
    (hPQ : Peers P Q) (seed seed' : Block) (ch : Chans) {f : ℚ} (h1 : 1 ≤ f) (h2 : (2 : ℝ) ^ 71 ≤ Real.logb 2 f) (E : VOLE.Env T) (junk d : T) :
    ∃ o va vb, Computes (voleCreate aes bits optimal P seed (some ch) (some f) : PM (Msg T) _)
        (voleCreate aes bits optimal Q seed' (some ch) (some f) : PM (Msg T) _) (.ok o) (.ok o) va vb ∧ ∀ batch : Int, 1 ≤ batch →
      Undefined Prod.fst (VOLE.precomputeSender E batch (VOLE.VState.new (State.new o.mpfss.hasher) junk)) ∧
      Undefined Prod.fst (VOLE.precomputeReceiver E batch d (VOLE.VState.new (State.new o.mpfss.hasher) junk)) := by
  refine C65_false aes bits optimal hPQ seed seed' ch (some f) (by rintro _ ⟨⟩; exact h1) ?_ E junk d
  refine C67_huge H (f := f * 3 * 2) (by linarith) (h2.trans ?_) (by norm_num)
  have h3 : (1 : ℝ) ≤ f := by exact_mod_cast h1
  apply Real.logb_le_logb_of_le (by norm_num) (by linarith)
  push_cast
  linarith

end DVO.Create
