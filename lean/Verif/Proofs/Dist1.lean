/-
Words and numbers: how many words `std::uniform_int_distribution` maps to each number.
-/
import Verif.Spec.Distribution
import Mathlib.Algebra.BigOperators.Group.Finset.Basic
import Mathlib.Algebra.Order.BigOperators.Group.Finset
import Mathlib.Order.Interval.Finset.Nat
import Mathlib.Tactic.Ring
import Mathlib.Tactic.Linarith

namespace DVO.Dist
open Finset

theorem decode_lt {new : Bool} {n w v : Nat} (hw : w < 2 ^ 64) (h : decode new n w = some v) : v < n := by
  unfold decode at h
  split at h
  · split at h
    · cases h
    · cases h
      rw [Nat.div_lt_iff_lt_mul (by norm_num)]
      have hn : 0 < n := by
        rcases Nat.eq_zero_or_pos n with rfl | h
        · rename_i h2
          simp at h2
        · exact h
      rw [Nat.mul_comm n]
      exact Nat.mul_lt_mul_of_pos_right hw hn
  · split at h
    · cases h; assumption
    · cases h

/-- The number of multiples of `n` in an interval of length `n * k`. -/
theorem count_multiples (n k x : Nat) (hn : 0 < n) {N : Nat} (hN : x + n * k ≤ N * n) :
    ((range N).filter (fun w => x ≤ w * n ∧ w * n < x + n * k)).card = k := by
  have h1 : ∀ y w : Nat, (y + n - 1) / n ≤ w ↔ y ≤ w * n := fun y w => by
    rw [← Nat.lt_succ_iff, Nat.div_lt_iff_lt_mul hn, Nat.succ_mul]
    omega
  have h2 : (x + n * k + n - 1) / n = (x + n - 1) / n + k := by
    rw [show x + n * k + n - 1 = x + n - 1 + n * k by omega, Nat.add_mul_div_left _ _ hn]
  have h3 : (range N).filter (fun w => x ≤ w * n ∧ w * n < x + n * k) = Ico ((x + n - 1) / n) ((x + n - 1) / n + k) := by
    ext w
    rw [mem_filter, mem_range, mem_Ico, h1, ← h2]
    have h4 := h1 (x + n * k) w
    constructor
    · rintro ⟨-, h5, h6⟩
      exact ⟨h5, by by_contra hc; have := h4.1 (not_lt.1 hc); omega⟩
    · rintro ⟨h5, h6⟩
      have h7 : w * n < x + n * k := by by_contra hc; have := h4.2 (not_lt.1 hc); omega
      refine ⟨?_, h5, h7⟩
      exact Nat.lt_of_mul_lt_mul_right (h7.trans_le hN)
  rw [h3, Nat.card_Ico]
  omega

theorem count_decode (new : Bool) {n v : Nat} (hv : v < n) (hn : n < 2 ^ 64) :
    ((range (2 ^ 64)).filter (fun w => decode new n w = some v)).card = share new n := by
  cases new with
  | true =>
    have h0 := Nat.div_add_mod (2 ^ 64) n
    have h1 := Nat.mod_lt (2 ^ 64) (show n > 0 by omega)
    unfold share
    rw [if_pos rfl]
    generalize hM : 2 ^ 64 = M at *
    have hM0 : 0 < M := by omega
    rw [← count_multiples n (M / n) (v * M + M % n) (by omega) (N := M) (by
      have h3 : (v + 1) * M ≤ n * M := Nat.mul_le_mul_right _ hv
      rw [Nat.succ_mul] at h3
      rw [Nat.mul_comm M n]
      omega)]
    congr 1
    ext w
    rw [mem_filter, mem_filter]
    refine and_congr_right fun _ => ?_
    unfold decode
    rw [if_pos rfl, hM]
    have h2 := Nat.div_add_mod (w * n) M
    have h3 := Nat.mod_lt (w * n) hM0
    generalize w * n = p at *
    constructor
    · intro h
      split at h
      · cases h
      · cases h
        rw [Nat.mul_comm (p / M)]
        omega
    · rintro ⟨h4, h5⟩
      have h6 : p / M = v := by
        have e : (v + 1) * M = v * M + M := Nat.succ_mul v M
        refine Nat.div_eq_of_lt_le ?_ ?_
        · omega
        · rw [e]; omega
      rw [h6] at h2 ⊢
      rw [if_neg]
      rw [Nat.mul_comm] at h2
      omega
  | false =>
    unfold share
    simp only [Bool.false_eq_true, if_false]
    have hs : 0 < (2 ^ 64 - 1) / n := Nat.div_pos (by omega) (by omega)
    have h0 := Nat.div_mul_le_self (2 ^ 64 - 1) n
    generalize hsd : (2 ^ 64 - 1) / n = s at *
    have h3 : (range (2 ^ 64)).filter (fun w => decode false n w = some v) = Ico (v * s) (v * s + s) := by
      ext w
      rw [mem_filter, mem_range, mem_Ico]
      unfold decode
      simp only [Bool.false_eq_true, if_false, hsd]
      have e : (v + 1) * s = v * s + s := Nat.succ_mul v s
      have h4 : (v + 1) * s ≤ n * s := Nat.mul_le_mul_right _ hv
      have h5 : n * s = s * n := Nat.mul_comm _ _
      constructor
      · rintro ⟨-, h⟩
        split at h
        · cases h
          have h1 := Nat.div_mul_le_self w s
          have h2 := Nat.lt_div_mul_add (a := w) hs
          omega
        · cases h
      · rintro ⟨h1, h2⟩
        have h6 : w / s = v := Nat.div_eq_of_lt_le h1 (by omega)
        rw [h6, if_pos hv]
        exact ⟨by omega, rfl⟩
    rw [h3, Nat.card_Ico]
    omega

/-- The words that mean a number in `S`, or nothing. -/
theorem count_bad (new : Bool) {n : Nat} (hn' : n < 2 ^ 64) {S : Finset Nat} (hS : S ⊆ range n) :
    ((range (2 ^ 64)).filter (fun w => ∀ v, decode new n w = some v → v ∈ S)).card + (n - S.card) * share new n = 2 ^ 64 := by
  have h1 : ((range (2 ^ 64)).filter (fun w => ¬ ∀ v, decode new n w = some v → v ∈ S)) =
      (range n \ S).biUnion (fun v => (range (2 ^ 64)).filter (fun w => decode new n w = some v)) := by
    ext w
    rw [mem_filter, mem_biUnion]
    constructor
    · rintro ⟨h2, h3⟩
      push Not at h3
      obtain ⟨v, h4, h5⟩ := h3
      exact ⟨v, mem_sdiff.2 ⟨mem_range.2 (decode_lt (mem_range.1 h2) h4), h5⟩, mem_filter.2 ⟨h2, h4⟩⟩
    · rintro ⟨v, h2, h3⟩
      rw [mem_filter] at h3
      exact ⟨h3.1, fun h => (mem_sdiff.1 h2).2 (h v h3.2)⟩
  have h2 : ((range (2 ^ 64)).filter (fun w => ¬ ∀ v, decode new n w = some v → v ∈ S)).card = (n - S.card) * share new n := by
    rw [h1, card_biUnion]
    · rw [sum_congr rfl (fun v hv => count_decode new (mem_range.1 (mem_sdiff.1 hv).1) hn'), sum_const, card_sdiff_of_subset hS, card_range, nsmul_eq_mul, Nat.cast_id]
    · intro a _ b _ hab
      show Disjoint _ _
      rw [disjoint_left]
      intro w hw hw'
      rw [mem_filter] at hw hw'
      exact hab (Option.some.inj (hw.2.symm.trans hw'.2))
  rw [← h2, card_filter_add_card_filter_not, card_range]

end DVO.Dist
