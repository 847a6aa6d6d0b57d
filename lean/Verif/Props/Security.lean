/-
C61: the statistical security of all outputs together.
-/
import Verif.Proofs.Hybrid
import Verif.Props.Scalar
import Verif.Props.ROT
import Verif.Props.VOLELocal4

namespace DVO
open Net

/-- The probability that `n` independent uniform `h`-bit hashes, reduced with `reduce`, form a tuple in
    `A`. -/
def tupleProb {T : Type} [DecidableEq T] (reduce : Nat → T) (h n : Nat) (A : Finset (Fin n → T)) : ℚ :=
  ((Finset.univ : Finset (Fin n → Fin (2 ^ h))).filter (fun x => (fun i => reduce (x i).val) ∈ A)).card / ((2 : ℚ) ^ h) ^ n

/-- Every set of `n`-tuples is at most `1/f` more likely than under the uniform distribution on tuples
    of elements of a type with `m` elements. -/
def NearUniformTuples {T : Type} [DecidableEq T] (reduce : Nat → T) (h m n : Nat) (f : ℚ) : Prop :=
  ∀ A : Finset (Fin n → T), tupleProb reduce h n A ≤ (A.card : ℚ) / (m : ℚ) ^ n + 1 / f

theorem tupleProb_eq {T : Type} [Fintype T] [DecidableEq T] (reduce : Nat → T) (h n : Nat) (A : Finset (Fin n → T)) :
    tupleProb reduce h n A = tuples (fun d : Fin (2 ^ h) => reduce d.val) n A / ((2 : ℚ) ^ h) ^ n := by
  unfold tupleProb tuples
  congr 1
  rw [Finset.sum_boole]

theorem hashProb_sum {T : Type} [Fintype T] [DecidableEq T] (reduce : Nat → T) (h : Nat) (A : Finset T) :
    hashProb reduce h A = (∑ d : Fin (2 ^ h), if reduce d.val ∈ A then (1 : ℚ) else 0) / 2 ^ h := by
  unfold hashProb
  congr 1
  rw [← Finset.sum_boole, Finset.sum_range]

/-- From single values to tuples: the biases add up. -/
theorem nearUniform_tuples {T : Type} [Fintype T] [DecidableEq T] {reduce : Nat → T} {h m n : Nat} {f : ℚ} (hm : Fintype.card T = m) (h0 : 0 < m)
    (hf : 0 < f) (H : 0 < n → NearUniform reduce h m (f * n)) : NearUniformTuples reduce h m n f := by
  intro A
  rw [tupleProb_eq]
  have hpos : (0 : ℚ) < ((2 : ℚ) ^ h) ^ n := by positivity
  have hm' : (0 : ℚ) < m := by exact_mod_cast h0
  rcases Nat.eq_zero_or_pos n with rfl | hn
  · have := tuples_le (fun d : Fin (2 ^ h) => reduce d.val) 1 (fun S => by
      calc _ ≤ ∑ d : Fin (2 ^ h), (1 : ℚ) := Finset.sum_le_sum fun d _ => by split <;> norm_num
        _ ≤ _ := by
          rw [Finset.sum_const, nsmul_eq_mul, Finset.card_univ]
          gcongr
          have : (0 : ℚ) ≤ (S.card : ℚ) / (Fintype.card T) := by positivity
          linarith) (by omega) 0 A
    have h1 : 0 < 1 / f := by positivity
    simp only [pow_zero, div_one, one_mul] at this ⊢
    simp only [Nat.cast_zero, zero_mul, add_zero] at this
    linarith
  · have hn' : (0 : ℚ) < n := by exact_mod_cast hn
    have := tuples_le (fun d : Fin (2 ^ h) => reduce d.val) (1 / (f * n)) (fun S => by
      have h1 := H hn S
      rw [hashProb_sum, div_le_iff₀ (by positivity)] at h1
      rw [Fintype.card_fin, hm]
      push_cast
      linarith) (by omega) n A
    rw [Fintype.card_fin, hm] at this
    push_cast at this
    rw [div_le_iff₀ hpos]
    refine le_trans this (le_of_eq ?_)
    rw [mul_comm]
    congr 2
    field_simp

/-- The first component of nearly uniform tuples is nearly uniform. -/
theorem nearUniform_head {T : Type} [Fintype T] [DecidableEq T] {reduce : Nat → T} {h m n : Nat} {f : ℚ} (hm : Fintype.card T = m) (h0 : 0 < m)
    (H : NearUniformTuples reduce h m (n + 1) f) : NearUniform reduce h m f := by
  intro S
  have hm' : (0 : ℚ) < m := by exact_mod_cast h0
  have h1 := H (Finset.univ.filter (fun x => x 0 ∈ S))
  rw [tupleProb_eq, tuples_succ] at h1
  have e1 : ∀ d : Fin (2 ^ h), tuples (fun d : Fin (2 ^ h) => reduce d.val) n
      (Finset.univ.filter (fun x => (Fin.cons (reduce d.val) x : Fin (n + 1) → T) ∈ Finset.univ.filter (fun x : Fin (n + 1) → T => x 0 ∈ S))) =
      (if reduce d.val ∈ S then (1 : ℚ) else 0) * ((2 : ℚ) ^ h) ^ n := by
    intro d
    unfold tuples
    simp only [Finset.mem_filter, Finset.mem_univ, true_and, Fin.cons_zero]
    rw [Finset.sum_const, Finset.card_univ, Fintype.card_fun, Fintype.card_fin, Fintype.card_fin, nsmul_eq_mul]
    push_cast
    ring
  have e2 : ((Finset.univ.filter (fun x : Fin (n + 1) → T => x 0 ∈ S)).card : ℚ) = S.card * (m : ℚ) ^ n := by
    rw [card_succ]
    simp only [Finset.mem_filter, Finset.mem_univ, true_and, Fin.cons_zero]
    rw [Finset.sum_const, Finset.card_univ, Fintype.card_fun, Fintype.card_fin, nsmul_eq_mul, hm]
    have : (Finset.univ.filter (fun t => t ∈ S)) = S := by ext; simp
    rw [this]
    push_cast
    ring
  rw [Finset.sum_congr rfl (fun d _ => e1 d), ← Finset.sum_mul, e2] at h1
  rw [hashProb_sum]
  refine le_trans (le_of_eq ?_) (le_trans h1 (le_of_eq ?_))
  · rw [pow_succ]
    field_simp
  · rw [pow_succ]
    field_simp

namespace ROT

/-- A cipher. -/
def toyAes' : Cipher := fun k p => k ^^^ (p * 5 + 1)

/-- A sender that returns OK made the check. -/
theorem sender_checked {T : Type} [Scalar T] {aes : Cipher} {fl : Nat → Nat → Nat} {c : Chans} {sec : Sec} {key seed : Nat → Block} {So S : List (List T)}
    (h : Returns (runSenderBatched aes fl c sec key seed So : PM (Msg T) _) (.ok S)) :
    Scalar.canHash T (secPerLeaf sec (accumulateInt (So.map List.length))) 128 = true := by
  cases hc : Scalar.canHash T (secPerLeaf sec (accumulateInt (So.map List.length))) 128 with
  | true => rfl
  | false =>
    unfold runSenderBatched sendTrees at h
    rw [hc] at h
    cases h

/-- C61 for `ZZ_p` with a modulus below `2^128` and security `s` (`f = 2^s`): if `RunSenderBatched`
    returns OK, against any peer, then all outputs together, with truly random leaves, are within
    `2^-s` of uniform. Missing: more than `2^31` leaves (false, see `C61_false`), larger moduli
    (false already for one leaf, see C28). -/
theorem C61_ZZ_p_partial {p : Nat} (h1 : 0 < p) (h2 : p < 2 ^ 128) {f : ℚ} (hf : 0 < f) {aes : Cipher} {fl : Nat → Nat → Nat} {c : Chans}
    {key seed : Nat → Block} {So S : List (List (ZZp p))} (hn : (So.map List.length).sum < 2 ^ 31)
    (h : Returns (runSenderBatched aes fl c (some f) key seed So : PM (Msg (ZZp p)) _) (.ok S)) :
    NearUniformTuples (fun x => (Scalar.ofU128 (BitVec.ofNat 128 x) : ZZp p)) 128 p (So.map List.length).sum f := by
  have hc := sender_checked h
  rw [MPFSS.accumulateInt_eq _ hn] at hc
  unfold secPerLeaf at hc
  rw [if_neg (by omega)] at hc
  have : NeZero p := ⟨by omega⟩
  refine @nearUniform_tuples (ZMod p) _ _ _ _ _ _ _ (ZMod.card p) h1 hf (fun hpos => ?_)
  have hpos' : (0 : ℚ) < (So.map List.length).sum := by exact_mod_cast hpos
  exact C28_ZZ_p_partial p h1 h2 _ (by positivity) hc

/-- C61 for `zz_p`. -/
theorem C61_zz_p_partial {p : Nat} (h1 : 0 < p) (h2 : p < 2 ^ 60) {f : ℚ} (hf : 0 < f) {aes : Cipher} {fl : Nat → Nat → Nat} {c : Chans}
    {key seed : Nat → Block} {So S : List (List (Zzp p))} (hn : (So.map List.length).sum < 2 ^ 31)
    (h : Returns (runSenderBatched aes fl c (some f) key seed So : PM (Msg (Zzp p)) _) (.ok S)) :
    NearUniformTuples (fun x => (Scalar.ofU128 (BitVec.ofNat 128 x) : Zzp p)) 128 p (So.map List.length).sum f := by
  have hc := sender_checked h
  rw [MPFSS.accumulateInt_eq _ hn] at hc
  unfold secPerLeaf at hc
  rw [if_neg (by omega)] at hc
  have : NeZero p := ⟨by omega⟩
  refine @nearUniform_tuples (ZMod p) _ _ _ _ _ _ _ (ZMod.card p) h1 hf (fun hpos => ?_)
  have hpos' : (0 : ℚ) < (So.map List.length).sum := by exact_mod_cast hpos
  exact C28_zz_p_partial p h1 h2 _ (by positivity) hc

/-- The sender's whole check is void when the number of leaves is a multiple of `2^32`: the `int`
    accumulator of all_but_one_random_ot.h:160-161 wraps around to 0 and `log2(0)` is minus infinity. With
    two trees of `2^31` leaves, 40 bits of security and the modulus `3 * 2^126`, both calls return
    OK, and already a single output is far from uniform. -/
theorem C61_false : ∃ (N : Nat) (c : Chans) (So S R : List (List (ZZp (3 * 2 ^ 126)))) (va vb : List (Event (Msg (ZZp (3 * 2 ^ 126))))),
    Computes (runSenderBatched toyAes' (fun _ _ => 31) c (some (2 ^ 40)) (fun _ => 1) (fun _ => 2) So : PM (Msg (ZZp (3 * 2 ^ 126))) _)
      (runReceiverBatched toyAes' (fun _ _ => 31) c [0, 0] So : PM (Msg (ZZp (3 * 2 ^ 126))) _) (.ok S) (.ok R) va vb ∧
    (So.map List.length).sum = N + 1 ∧
    ¬ NearUniformTuples (fun x => (Scalar.ofU128 (BitVec.ofNat 128 x) : ZZp (3 * 2 ^ 126))) 128 (3 * 2 ^ 126) (N + 1) (2 ^ 40) := by
  obtain ⟨K, hK⟩ : ∃ K : Nat, K = 2 ^ 31 := ⟨_, rfl⟩
  have hlen : ([List.replicate K (0 : ZZp (3 * 2 ^ 126)), List.replicate K 0]).map List.length = [K, K] := by simp
  obtain ⟨S, R, va, vb, h, -⟩ := C07_all_but_one (T := ZZp (3 * 2 ^ 126)) toyAes' (fun _ _ => 31) ⟨0, 1, 2⟩ (some (2 ^ 40)) (fun _ => 1) (fun _ => 2)
    [List.replicate K 0, List.replicate K 0] [List.replicate K 0, List.replicate K 0] [0, 0]
    ⟨rfl, rfl, by
      intro i o j h1 h2
      have : j = 0 := by
        rcases i with - | - | i
        · exact (Option.some.inj h2).symm
        · exact (Option.some.inj h2).symm
        · cases h2
      subst this
      refine ⟨by omega, fun h => ?_⟩
      have := List.length_pos_iff.2 h
      omega⟩ (by
      intro o ho
      simp only [List.mem_cons, List.not_mem_nil, or_false, or_self] at ho
      subst ho
      simp only [List.length_replicate]
      exact ⟨by omega, fun _ => by show K ≤ 2 ^ 31; omega, fun _ => by show 31 ≤ 64; omega⟩) (by
      rw [hlen]
      have : accumulateInt [K, K] = 0 := by subst hK; decide +kernel
      rw [this]
      unfold secPerLeaf
      show canHashMod (3 * 2 ^ 126 % 2 ^ 128) (some (2 ^ 40 * ((0 : Int) : ℚ))) 128 = true
      unfold canHashMod
      norm_num)
  refine ⟨2 * K - 1, ⟨0, 1, 2⟩, _, S, R, va, vb, h, ?_, ?_⟩
  · rw [hlen]; simp; omega
  · have : NeZero (3 * 2 ^ 126) := ⟨by norm_num⟩
    intro H
    have := @nearUniform_head (ZMod (3 * 2 ^ 126)) _ _ _ _ _ _ _ (ZMod.card _) (by norm_num) H
    exact absurd this (by
      apply not_nearUniform_ZZp _ _ (by norm_num)
      norm_num)

/-- Ten million leaves of a 61-bit field: the sender accepts 40 bits of security. -/
example : Scalar.canHash (ZZp (2 ^ 61 - 1)) (secPerLeaf (some (2 ^ 40)) 10000000) 128 = true := by
  show canHashMod ((2 ^ 61 - 1) % 2 ^ 128) (secPerLeaf (some (2 ^ 40)) 10000000) 128 = true
  unfold canHashMod secPerLeaf; norm_num

end ROT

namespace VOLE

/-- C61 for the code generator: the elements that an OK `PrecomputeCommon` samples (against any peer),
    with a truly random stream, are together within `2^-s` of uniform. -/
theorem C61_generator_partial {p : Nat} (h1 : 0 < p) (h2 : p < 2 ^ 128) {f : ℚ} (hf : 0 < f) {E : Env (ZZp p)} (he : E.sec = some f) {o : Int}
    {s s' : VState (ZZp p)} (h : Returns (precomputeCommon E o s) (.ok (), s')) :
    NearUniformTuples (fun x => (Scalar.ofU128 (BitVec.ofNat 128 x) : ZZp p)) 128 p (10 * s'.code.cols.length) f := by
  have hsh := (C38_shape h).2.1
  have hc : Scalar.canHash (ZZp p) (ROT.secPerLeaf (some f) (nonzeros * o)) 128 = true := by
    rw [← he]
    exact common_checked h
  have ho : 0 ≤ o := by omega
  unfold ROT.secPerLeaf nonzeros at hc
  rw [if_neg (by omega)] at hc
  have : NeZero p := ⟨by omega⟩
  refine @nearUniform_tuples (ZMod p) _ _ _ _ _ _ _ (ZMod.card p) h1 hf (fun hpos => ?_)
  have hpos' : (0 : ℚ) < (10 * s'.code.cols.length : Nat) := by exact_mod_cast hpos
  refine C28_ZZ_p_partial p h1 h2 _ (by positivity) ?_
  rw [← hsh] at hc
  push_cast at hc ⊢
  exact hc

end VOLE
end DVO
