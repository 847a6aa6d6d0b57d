/-
Tables in which two rows consist of one and the same entry (for C77).
-/
import Mathlib.Data.Fintype.Pi
import Mathlib.Data.Fintype.Prod
import Mathlib.Data.Fintype.BigOperators
import Mathlib.Data.Finset.Powerset
import Mathlib.Data.Nat.Choose.Basic
import Mathlib.Algebra.Order.BigOperators.Group.Finset
import Mathlib.Algebra.Order.Field.Basic
import Mathlib.Tactic.Ring
import Mathlib.Tactic.FieldSimp
import Mathlib.Tactic.Positivity
import Mathlib.Tactic.Linarith

namespace DVO.Collide
open Finset

/-- The functions whose value at each point of `S` is the value at another one, outside of `S`. -/
theorem card_glued {α V : Type} [Fintype α] [DecidableEq α] [Fintype V] [DecidableEq V] (S : Finset α) (g : α → α) (hg : ∀ x ∈ S, g x ∉ S) :
    (univ.filter fun t : α → V => ∀ x ∈ S, t x = t (g x)).card = Fintype.card V ^ (Fintype.card α - S.card) := by
  have e1 : Fintype.card ({x // x ∉ S} → V) = Fintype.card V ^ (Fintype.card α - S.card) := by
    rw [Fintype.card_fun, Fintype.card_subtype_compl, Fintype.card_coe]
  rw [← e1]
  refine (Finset.card_bij (s := (univ : Finset ({x // x ∉ S} → V))) (fun u _ x => if h : x ∈ S then u ⟨g x, hg x h⟩ else u ⟨x, h⟩) ?_ ?_ ?_).symm
  · intro u _
    rw [mem_filter]
    refine ⟨mem_univ _, fun x hx => ?_⟩
    dsimp only
    rw [dif_pos hx, dif_neg (hg x hx)]
  · intro u _ u' _ h
    funext x
    have := congrFun h x.1
    rwa [dif_neg x.2, dif_neg x.2] at this
  · intro t ht
    refine ⟨fun x => t x.1, mem_univ _, ?_⟩
    funext x
    by_cases hx : x ∈ S
    · rw [dif_pos hx, (mem_filter.1 ht).2 x hx]
    · rw [dif_neg hx]

/-- Bonferroni's inequality. -/
theorem bonferroni {ι τ : Type} [DecidableEq ι] [DecidableEq τ] (A : ι → Finset τ) (a q : Nat) (s : Finset ι) (ha : ∀ i ∈ s, a ≤ (A i).card)
    (hq : ∀ i ∈ s, ∀ j ∈ s, i ≠ j → (A i ∩ A j).card ≤ q) : s.card * a ≤ (s.biUnion A).card + s.card.choose 2 * q := by
  induction s using Finset.induction_on with
  | empty => simp
  | insert i s hi ih =>
    have h1 := ih (fun j hj => ha j (mem_insert_of_mem hj)) fun j hj j' hj' => hq j (mem_insert_of_mem hj) j' (mem_insert_of_mem hj')
    have h2 := card_union_add_card_inter (A i) (s.biUnion A)
    have h3 : (A i ∩ s.biUnion A).card ≤ s.card * q := by
      rw [inter_biUnion]
      refine card_biUnion_le.trans ?_
      refine (sum_le_card_nsmul _ _ q fun j hj => ?_).trans_eq (by rw [nsmul_eq_mul, Nat.cast_id])
      exact hq i (mem_insert_self _ _) j (mem_insert_of_mem hj) fun h => hi (h ▸ hj)
    have h4 := ha i (mem_insert_self _ _)
    rw [biUnion_insert, card_insert_of_notMem hi, show (s.card + 1).choose 2 = s.card + s.card.choose 2 by rw [Nat.choose_succ_succ' s.card 1, Nat.choose_one_right]]
    rw [add_mul, add_mul]
    omega

section
variable {n k : Nat} {V : Type} [Fintype V] [DecidableEq V]

/-- All entries of the rows in `e` are the same. -/
def Same (e : Finset (Fin n)) (t : Fin n × Fin k → V) : Prop := ∀ i ∈ e, ∀ i' ∈ e, ∀ j j', t (i, j) = t (i', j')

instance (e : Finset (Fin n)) : DecidablePred (Same (k := k) (V := V) e) := fun t => by unfold Same; infer_instance

theorem card_same (hk : 0 < k) {e : Finset (Fin n)} (he : e.card = 2) :
    Fintype.card V ^ (n * k - (2 * k - 1)) ≤ (univ.filter (Same (k := k) (V := V) e)).card := by
  obtain ⟨i, i', hne, rfl⟩ := card_eq_two.1 he
  have h := card_glued (V := V) ((({i, i'} : Finset (Fin n)) ×ˢ (univ : Finset (Fin k))).erase (i, ⟨0, hk⟩)) (fun _ => (i, ⟨0, hk⟩)) fun _ _ => by simp
  rw [card_erase_of_mem (by simp), card_product, he, card_univ, Fintype.card_fin, Fintype.card_prod, Fintype.card_fin, Fintype.card_fin] at h
  rw [← h]
  refine card_le_card fun t ht => ?_
  rw [mem_filter] at ht ⊢
  refine ⟨mem_univ _, ?_⟩
  have key : ∀ r ∈ ({i, i'} : Finset (Fin n)), ∀ j, t (r, j) = t (i, ⟨0, hk⟩) := fun r hr j => by
    by_cases hc : (r, j) = (i, ⟨0, hk⟩)
    · rw [hc]
    · exact ht.2 (r, j) (mem_erase.2 ⟨hc, mem_product.2 ⟨hr, mem_univ _⟩⟩)
  intro r hr r' hr' j j'
  rw [key r hr, key r' hr']

theorem card_inter (hk : 0 < k) {e e' : Finset (Fin n)} (he : e.card = 2) (he' : e'.card = 2) (hne : e ≠ e') :
    ((univ.filter (Same (k := k) (V := V) e)) ∩ (univ.filter (Same (k := k) (V := V) e'))).card ≤ Fintype.card V ^ (n * k - (3 * k - 1)) := by
  obtain ⟨l, hl, hl'⟩ : ∃ l ∈ e', l ∉ e := by
    by_contra hc
    push Not at hc
    exact hne (eq_of_subset_of_card_le hc (by omega)).symm
  obtain ⟨p, hp, hpl⟩ := exists_mem_ne (s := e') (by omega) l
  obtain ⟨i, hi⟩ := card_pos.1 (show 0 < e.card by omega)
  let z : Fin k := ⟨0, hk⟩
  let r : Fin n := if p ∈ e then i else p
  have hrl : r ≠ l := by
    show (if p ∈ e then i else p) ≠ l
    split
    · rintro rfl; exact hl' hi
    · exact hpl
  have hre : r ∈ e → r = i := by
    show (if p ∈ e then i else p) ∈ e → (if p ∈ e then i else p) = i
    split
    · exact fun _ => rfl
    · exact fun h => absurd h ‹_›
  have hil : i ≠ l := fun h => hl' (h ▸ hi)
  have hd : Disjoint ((e ×ˢ (univ : Finset (Fin k))).erase (i, z)) ({l} ×ˢ univ) := by
    rw [disjoint_left]
    intro x hx hx'
    rw [mem_product, mem_singleton] at hx'
    exact hl' (hx'.1 ▸ (mem_product.1 (mem_of_mem_erase hx)).1)
  have h := card_glued (V := V) (((e ×ˢ (univ : Finset (Fin k))).erase (i, z)) ∪ ({l} ×ˢ univ)) (fun x => if x.1 = l then (r, z) else (i, z)) (by
    intro x _ hx
    rw [mem_union] at hx
    by_cases hc : x.1 = l
    · rw [if_pos hc] at hx
      rcases hx with hx | hx
      · have h1 := (mem_product.1 (mem_of_mem_erase hx)).1
        exact (mem_erase.1 hx).1 (by rw [hre h1])
      · exact hrl (mem_singleton.1 (mem_product.1 hx).1)
    · rw [if_neg hc] at hx
      rcases hx with hx | hx
      · exact (mem_erase.1 hx).1 rfl
      · exact hil (mem_singleton.1 (mem_product.1 hx).1))
  rw [card_union_of_disjoint hd, card_erase_of_mem (mem_product.2 ⟨hi, mem_univ _⟩), card_product, card_product, he, card_univ, Fintype.card_fin, Fintype.card_prod,
    Fintype.card_fin, Fintype.card_fin, card_singleton, show 2 * k - 1 + 1 * k = 3 * k - 1 by omega] at h
  rw [← h]
  refine card_le_card fun t ht => ?_
  rw [mem_inter, mem_filter, mem_filter] at ht
  rw [mem_filter]
  refine ⟨mem_univ _, fun x hx => ?_⟩
  by_cases hc : x.1 = l
  · rw [if_pos hc]
    have h1 : t x = t (p, z) := by
      have := ht.2.2 l hl p hp x.2 z
      rwa [← hc] at this
    have h2 : t (p, z) = t (r, z) := by
      show t (p, z) = t (if p ∈ e then i else p, z)
      split
      · exact ht.1.2 p ‹_› i hi z z
      · rfl
    rw [h1, h2]
  · rw [if_neg hc]
    rcases mem_union.1 hx with hx | hx
    · exact ht.1.2 x.1 (mem_product.1 (mem_of_mem_erase hx)).1 i hi x.2 z
    · exact absurd (mem_singleton.1 (mem_product.1 hx).1) hc

/-- Tables in which two rows consist of one and the same entry. -/
theorem card_collide (hk : 0 < k) (hn : 2 ≤ n) (hV : 0 < Fintype.card V) (U : Finset (Fin n × Fin k → V)) (hU : ∀ t, t ∉ U → ∀ e : Finset (Fin n), e.card = 2 → ¬ Same e t) :
    (n.choose 2 : ℚ) / (Fintype.card V : ℚ) ^ (2 * k - 1) - ((n.choose 2).choose 2 : ℚ) / (Fintype.card V : ℚ) ^ (3 * k - 1) ≤
      (U.card : ℚ) / (Fintype.card V : ℚ) ^ (n * k) := by
  classical
  have hs : (powersetCard 2 (univ : Finset (Fin n))).card = n.choose 2 := by rw [card_powersetCard, card_univ, Fintype.card_fin]
  have h := bonferroni (fun e : Finset (Fin n) => univ.filter (Same (k := k) (V := V) e)) (Fintype.card V ^ (n * k - (2 * k - 1))) (Fintype.card V ^ (n * k - (3 * k - 1)))
    (powersetCard 2 univ) (fun e he => card_same hk (mem_powersetCard.1 he).2)
    fun e he e' he' hne => card_inter hk (mem_powersetCard.1 he).2 (mem_powersetCard.1 he').2 hne
  rw [hs] at h
  have h2 : ((powersetCard 2 (univ : Finset (Fin n))).biUnion fun e => univ.filter (Same (k := k) (V := V) e)).card ≤ U.card := card_le_card fun t ht => by
    obtain ⟨e, he, ht⟩ := mem_biUnion.1 ht
    by_contra hc
    exact hU t hc e (mem_powersetCard.1 he).2 (mem_filter.1 ht).2
  have hv : (0 : ℚ) < Fintype.card V := by exact_mod_cast hV
  have hq : (n.choose 2 : ℚ) * (Fintype.card V : ℚ) ^ (n * k - (2 * k - 1)) ≤ U.card + ((n.choose 2).choose 2 : ℚ) * (Fintype.card V : ℚ) ^ (n * k - (3 * k - 1)) := by
    exact_mod_cast h.trans (Nat.add_le_add_right h2 _)
  have c1 : (n.choose 2 : ℚ) / (Fintype.card V : ℚ) ^ (2 * k - 1) = (n.choose 2 : ℚ) * (Fintype.card V : ℚ) ^ (n * k - (2 * k - 1)) / (Fintype.card V : ℚ) ^ (n * k) := by
    have : 2 * k ≤ n * k := Nat.mul_le_mul_right k hn
    rw [div_eq_div_iff (by positivity) (by positivity), mul_assoc, ← pow_add, Nat.sub_add_cancel (by omega)]
  have c2 : ((n.choose 2).choose 2 : ℚ) / (Fintype.card V : ℚ) ^ (3 * k - 1) =
      ((n.choose 2).choose 2 : ℚ) * (Fintype.card V : ℚ) ^ (n * k - (3 * k - 1)) / (Fintype.card V : ℚ) ^ (n * k) := by
    rcases Nat.lt_or_ge n 3 with h3 | h3
    · obtain rfl : n = 2 := by omega
      simp
    · have : 3 * k ≤ n * k := Nat.mul_le_mul_right k h3
      rw [div_eq_div_iff (by positivity) (by positivity), mul_assoc, ← pow_add, Nat.sub_add_cancel (by omega)]
  rw [c1, c2, ← sub_div]
  exact div_le_div_of_nonneg_right (by linarith) (by positivity)

end
end DVO.Collide
