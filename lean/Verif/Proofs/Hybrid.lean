/-
The hybrid argument: tuples of values that are nearly uniform.
-/
import Mathlib.Data.Fin.Tuple.Basic
import Mathlib.Algebra.BigOperators.Fin
import Mathlib.Data.Fintype.BigOperators
import Mathlib.Algebra.Order.BigOperators.Ring.Finset
import Mathlib.Algebra.BigOperators.Field
import Mathlib.Tactic.Linarith
import Mathlib.Tactic.FieldSimp
import Mathlib.Tactic.Ring

namespace DVO
open Finset

variable {D T : Type} [Fintype D] [Fintype T] [DecidableEq T]

/-- The number of tuples of arguments whose results form a tuple in `A`. -/
def tuples (r : D → T) (n : Nat) (A : Finset (Fin n → T)) : ℚ :=
  ∑ h : Fin n → D, if (fun i => r (h i)) ∈ A then 1 else 0

theorem tuples_succ (r : D → T) (n : Nat) (A : Finset (Fin (n + 1) → T)) :
    tuples r (n + 1) A = ∑ d : D, tuples r n (univ.filter (fun x => (Fin.cons (r d) x : Fin (n + 1) → T) ∈ A)) := by
  unfold tuples
  rw [← (Fin.consEquiv (fun _ => D)).sum_comp, Fintype.sum_prod_type]
  refine sum_congr rfl fun d _ => sum_congr rfl fun h _ => ?_
  simp only [mem_filter, mem_univ, true_and, Fin.consEquiv_apply]
  congr 2
  funext i
  refine Fin.cases rfl (fun j => rfl) i

theorem card_succ (n : Nat) (A : Finset (Fin (n + 1) → T)) :
    (A.card : ℚ) = ∑ x : Fin n → T, ((univ.filter (fun t => (Fin.cons t x : Fin (n + 1) → T) ∈ A)).card : ℚ) := by
  have h : (A.card : ℚ) = ∑ f : Fin (n + 1) → T, if f ∈ A then 1 else 0 := by
    simp
  rw [h, ← (Fin.consEquiv (fun _ => T)).sum_comp, Fintype.sum_prod_type, sum_comm]
  refine sum_congr rfl fun x _ => ?_
  rw [card_filter]
  push_cast
  rfl

theorem tuples_le (r : D → T) (e : ℚ) (h : ∀ S : Finset T, (∑ d : D, if r d ∈ S then (1 : ℚ) else 0) ≤ Fintype.card D * (S.card / Fintype.card T + e))
    (hT : 0 < Fintype.card T) (n : Nat) :
    ∀ A, tuples r n A ≤ (Fintype.card D) ^ n * (A.card / (Fintype.card T) ^ n + n * e) := by
  induction n with
  | zero =>
    intro A
    unfold tuples
    rw [Fintype.sum_unique]
    by_cases hA : (fun i => r ((default : Fin 0 → D) i)) ∈ A
    · rw [if_pos hA]
      have : 1 ≤ A.card := card_pos.2 ⟨_, hA⟩
      have : (1 : ℚ) ≤ A.card := by exact_mod_cast this
      simpa using this
    · rw [if_neg hA]
      simp
  | succ n ih =>
    intro A
    rw [tuples_succ]
    have hT' : (0 : ℚ) < Fintype.card T := by exact_mod_cast hT
    calc _ ≤ ∑ d : D, (Fintype.card D : ℚ) ^ n * ((univ.filter (fun x => (Fin.cons (r d) x : Fin (n + 1) → T) ∈ A)).card / (Fintype.card T) ^ n + n * e) :=
          sum_le_sum fun d _ => ih _
      _ = (Fintype.card D : ℚ) ^ n * ((∑ d : D, ((univ.filter (fun x => (Fin.cons (r d) x : Fin (n + 1) → T) ∈ A)).card : ℚ)) / (Fintype.card T) ^ n +
          Fintype.card D * (n * e)) := by
          rw [← mul_sum, sum_add_distrib, ← sum_div, sum_const, card_univ, nsmul_eq_mul]
      _ ≤ (Fintype.card D : ℚ) ^ n * ((∑ x : Fin n → T, (Fintype.card D : ℚ) * ((univ.filter (fun t => (Fin.cons t x : Fin (n + 1) → T) ∈ A)).card / Fintype.card T + e)) /
          (Fintype.card T) ^ n + Fintype.card D * (n * e)) := by
          gcongr
          have : ∑ d : D, ((univ.filter (fun x => (Fin.cons (r d) x : Fin (n + 1) → T) ∈ A)).card : ℚ) =
              ∑ x : Fin n → T, ∑ d : D, if r d ∈ univ.filter (fun t => (Fin.cons t x : Fin (n + 1) → T) ∈ A) then (1 : ℚ) else 0 := by
            rw [sum_comm]
            refine sum_congr rfl fun d _ => ?_
            rw [card_filter]
            push_cast
            simp
          rw [this]
          exact sum_le_sum fun x _ => h _
      _ = _ := by
          rw [← mul_sum, sum_add_distrib, ← sum_div, ← card_succ, sum_const, card_univ, nsmul_eq_mul, Fintype.card_fun, Fintype.card_fin]
          push_cast
          field_simp
          ring

end DVO
