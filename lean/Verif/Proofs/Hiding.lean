/-
C64: counting the views of the value provider.
-/
import Verif.Spec.Hiding
import Verif.Proofs.Gilboa
import Verif.Proofs.Scalar
import Mathlib.Algebra.BigOperators.Fin
import Mathlib.Algebra.BigOperators.Field
import Mathlib.Data.Fintype.BigOperators
import Mathlib.Algebra.Order.BigOperators.Ring.Finset
import Mathlib.Tactic.Linarith
import Mathlib.Tactic.FieldSimp

namespace DVO
open Finset

open Classical in
/-- How many arguments satisfy `p`. -/
noncomputable def count {α : Type} [Fintype α] (p : α → Prop) : ℚ := ∑ a, if p a then 1 else 0

theorem count_congr {α : Type} [Fintype α] {p q : α → Prop} (h : ∀ a, p a ↔ q a) : count p = count q := by
  unfold count
  rw [show p = q from funext fun a => propext (h a)]

theorem count_equiv {α β : Type} [Fintype α] [Fintype β] (e : α ≃ β) (p : β → Prop) : count (fun a => p (e a)) = count p := by
  unfold count
  exact e.sum_comp (fun b => @ite ℚ (p b) (Classical.propDecidable _) 1 0)

theorem count_true {α : Type} [Fintype α] : count (fun _ : α => True) = Fintype.card α := by
  unfold count
  simp

theorem count_not {α : Type} [Fintype α] (p : α → Prop) : count (fun a => ¬ p a) = Fintype.card α - count p := by
  unfold count
  rw [eq_sub_iff_add_eq, ← sum_add_distrib]
  rw [sum_congr rfl (fun a _ => show _ = (1 : ℚ) by by_cases h : p a <;> simp [h])]
  simp

theorem count_card {α : Type} [Fintype α] (p : α → Prop) [DecidablePred p] : count p = ((univ : Finset α).filter p).card := by
  unfold count
  rw [← sum_boole]
  exact sum_congr rfl fun a _ => by by_cases h : p a <;> simp [h]

theorem count_cons {D : Type} [Fintype D] (n : Nat) (p : (Fin (n + 1) → D) → Prop) :
    count p = ∑ d : D, count (fun m : Fin n → D => p (Fin.cons d m)) := by
  unfold count
  rw [← (Fin.consEquiv (fun _ => D)).sum_comp, Fintype.sum_prod_type]
  rfl

/-- A condition on the first of several independent values and one on the others. -/
theorem count_and {D : Type} [Fintype D] (n : Nat) (p : D → Prop) (q : (Fin n → D) → Prop) :
    count (fun m : Fin (n + 1) → D => p (m 0) ∧ q (fun i => m i.succ)) = count p * count q := by
  rw [count_cons]
  have hd : ∀ d, count (fun m : Fin n → D => p ((Fin.cons d m : Fin (n + 1) → D) 0) ∧ q (fun i => (Fin.cons d m : Fin (n + 1) → D) i.succ)) =
      (@ite ℚ (p d) (Classical.propDecidable _) 1 0) * count q := by
    intro d
    by_cases h : p d
    · rw [if_pos h, one_mul]
      exact count_congr fun m => by simp [h]
    · rw [if_neg h, zero_mul, count_congr (q := fun _ => False) fun m => by simp [h]]
      simp [count]
  rw [sum_congr rfl fun d _ => hd d, ← sum_mul]
  rfl

/-- The hybrid argument with a different pair of functions at every position: if exchanging the
    functions at position `i` changes no probability by more than `e i`, then exchanging all changes
    none by more than the sum. -/
theorem hybrid {D V : Type} [Fintype D] (n : Nat) : ∀ (g g' : Fin n → D → V) (e : Fin n → ℚ),
    (∀ i (S : Set V), count (fun d => g i d ∈ S) ≤ count (fun d => g' i d ∈ S) + e i * Fintype.card D) →
    ∀ A : Set (Fin n → V), count (fun m : Fin n → D => (fun i => g i (m i)) ∈ A) ≤
      count (fun m : Fin n → D => (fun i => g' i (m i)) ∈ A) + (∑ i, e i) * (Fintype.card D) ^ n := by
  induction n with
  | zero =>
    intro g g' e _ A
    have : ∀ m : Fin 0 → D, (fun i => g i (m i)) = (fun i => g' i (m i)) := fun m => funext fun i => i.elim0
    simp [this]
  | succ n ih =>
    intro g g' e h A
    have hc : ∀ (k : Fin (n + 1) → D → V) (d : D), count (fun m : Fin n → D => (fun i => k i ((Fin.cons d m : Fin (n + 1) → D) i)) ∈ A) =
        count (fun m : Fin n → D => (fun i => k i.succ (m i)) ∈ {f | (Fin.cons (k 0 d) f : Fin (n + 1) → V) ∈ A}) := by
      intro k d
      refine count_congr fun m => ?_
      have : (fun i => k i ((Fin.cons d m : Fin (n + 1) → D) i)) = (Fin.cons (k 0 d) (fun i => k i.succ (m i)) : Fin (n + 1) → V) := by
        funext i
        refine Fin.cases rfl (fun j => rfl) i
      rw [this]
      rfl
    rw [count_cons, count_cons]
    simp only [hc]
    have h1 : ∀ d : D, count (fun m : Fin n → D => (fun i => g i.succ (m i)) ∈ {f | (Fin.cons (g 0 d) f : Fin (n + 1) → V) ∈ A}) ≤
        count (fun m : Fin n → D => (fun i => g' i.succ (m i)) ∈ {f | (Fin.cons (g 0 d) f : Fin (n + 1) → V) ∈ A}) +
          (∑ i : Fin n, e i.succ) * (Fintype.card D) ^ n := fun d =>
      ih (fun i => g i.succ) (fun i => g' i.succ) (fun i => e i.succ) (fun i S => h i.succ S) _
    have h2 : ∀ k : Fin (n + 1) → D → V, ∑ d : D, count (fun m : Fin n → D => (fun i => g' i.succ (m i)) ∈ {f | (Fin.cons (k 0 d) f : Fin (n + 1) → V) ∈ A}) =
        ∑ m : Fin n → D, count (fun d => k 0 d ∈ {v | (Fin.cons v (fun i => g' i.succ (m i)) : Fin (n + 1) → V) ∈ A}) := by
      intro k
      unfold count
      rw [sum_comm]
      rfl
    calc _ ≤ ∑ d : D, (count (fun m : Fin n → D => (fun i => g' i.succ (m i)) ∈ {f | (Fin.cons (g 0 d) f : Fin (n + 1) → V) ∈ A}) +
          (∑ i : Fin n, e i.succ) * (Fintype.card D) ^ n) := sum_le_sum fun d _ => h1 d
      _ = ∑ m : Fin n → D, count (fun d => g 0 d ∈ {v | (Fin.cons v (fun i => g' i.succ (m i)) : Fin (n + 1) → V) ∈ A}) +
          (∑ i : Fin n, e i.succ) * (Fintype.card D) ^ (n + 1) := by
        rw [sum_add_distrib, h2 g, sum_const, card_univ, nsmul_eq_mul]
        ring
      _ ≤ ∑ m : Fin n → D, (count (fun d => g' 0 d ∈ {v | (Fin.cons v (fun i => g' i.succ (m i)) : Fin (n + 1) → V) ∈ A}) + e 0 * Fintype.card D) +
          (∑ i : Fin n, e i.succ) * (Fintype.card D) ^ (n + 1) := by
        gcongr with m
        exact h 0 _
      _ = _ := by
        rw [sum_add_distrib, ← h2 g', sum_const, card_univ, nsmul_eq_mul, Fin.sum_univ_succ, Fintype.card_fun, Fintype.card_fin]
        push_cast
        ring

namespace Gilboa
open Net
variable {T : Type} [Scalar T]

/-- The view of a value provider that received the blocks `r`. -/
def viewOf (c : Chans) (x : T) (n : Nat) (r : Fin (otCount T n) → Block) : List (Event (Msg T)) :=
  [.otRcvd c.gilboa (choices x n) (tab (otCount T n) (fun i => if h : i < otCount T n then r ⟨i, h⟩ else 0))]

theorem otCount_eq (T : Type) [Scalar T] (n : Nat) : otCount T n = bitWidth T * ((n + stride T - 1) / stride T) := by
  unfold otCount bitWidth stride
  rw [Nat.mul_comm 8]

/-- What the value provider receives in OT `i`, if the OT extension draws the block `b` for it. -/
def gets (x : T) (y : List T) (i : Nat) (b : Block) : Block :=
  if Scalar.getBit x (i % bitWidth T) then corrBlock T (delta y i) b else b

theorem viewProb_eq [LawfulScalar T] (c : Chans) {sec : Sec} (rnd : Nat → List T) (x : T) {y : List T} (hg : GoodLength T y.length)
    (hk : useCorrelated T sec y.length = true) (A : Set (List (Event (Msg T)))) :
    viewProb c sec rnd x y A = count (fun m : Fin (otCount T y.length) → Fin (2 ^ 128) =>
      (fun i : Fin (otCount T y.length) => gets x y i (BitVec.ofFin (m i))) ∈ {r | viewOf c x y.length r ∈ A}) / ((2 : ℚ) ^ 128) ^ otCount T y.length := by
  unfold viewProb
  rw [← count_card]
  congr 1
  refine count_congr fun m => ?_
  have hj := joint c sec (drawn m) rnd x y (List.replicate y.length 0) (List.replicate y.length 0) (by simp) (by simp) hg
  have hv : (runValueProvider' c sec x y.length : PM (Msg T) _) = runValueProvider c sec x (List.replicate y.length 0) := by
    unfold runValueProvider'
    rw [if_neg (by omega), Int.toNat_natCast]
  have hview : [Event.otRcvd c.gilboa (choices x y.length) (otResult (pairs sec (drawn m) rnd y) (choices x y.length))] =
      viewOf c x y.length (fun i : Fin (otCount T y.length) => gets x y i (BitVec.ofFin (m i))) := by
    unfold viewOf
    congr 2
    unfold pairs choices
    rw [otResult_tab, ← otCount_eq]
    apply tab_congr
    intro i hi
    rw [dif_pos hi]
    unfold gets first drawn
    rw [if_pos hk, dif_pos hi]
  rw [Set.mem_ofPred_eq, ← hview]
  constructor
  · rintro ⟨r0, r1, va, vb, h, hA⟩
    rw [hv] at h
    obtain ⟨-, -, -, rfl⟩ := h.joint.unique hj
    exact hA
  · intro hA
    exact ⟨_, _, _, _, by rw [hv]; exact hj.computes, hA⟩

/-- Exchanging one mask changes no probability by more than `e`. -/
def LaneBound (T : Type) [Scalar T] (e : ℚ) : Prop :=
  ∀ (a a' : T) (S : Set T), count (fun d : Fin (2 ^ bitWidth T) => a + Scalar.ofU128 (BitVec.ofNat 128 d.val) ∈ S) ≤
    count (fun d : Fin (2 ^ bitWidth T) => a' + Scalar.ofU128 (BitVec.ofNat 128 d.val) ∈ S) + e * (2 ^ bitWidth T : ℕ)

/-- One OT. -/
theorem block_bound [LawfulScalar T] {e : ℚ} (hL : LaneBound T e) (hb : bitWidth T * stride T = 128) (d d' : Block) (S : Set Block) (w : Nat)
    (hw : ∀ k, w ≤ k → k < stride T → lane T d k = lane T d' k) :
    count (fun b : Fin (2 ^ 128) => corrBlock T d (BitVec.ofFin b) ∈ S) ≤
      count (fun b : Fin (2 ^ 128) => corrBlock T d' (BitVec.ofFin b) ∈ S) + (min w (stride T) : ℕ) * e * (2 ^ 128 : ℕ) := by
  have hcard : (2 ^ bitWidth T) ^ stride T = 2 ^ 128 := by rw [← Nat.pow_mul, hb]
  let E : (Fin (stride T) → Fin (2 ^ bitWidth T)) ≃ Fin (2 ^ 128) := finFunctionFinEquiv.trans (finCongr hcard)
  have hE : ∀ (v : Fin (stride T) → Fin (2 ^ bitWidth T)) (k : Fin (stride T)), lane T (BitVec.ofFin (E v)) k = Scalar.ofU128 (BitVec.ofNat 128 (v k).val) := by
    intro v k
    unfold lane
    congr 2
    have h1 : (finFunctionFinEquiv.symm (finFunctionFinEquiv v)) k = v k := by rw [Equiv.symm_apply_apply]
    have h2 := congrArg Fin.val h1
    rw [finFunctionFinEquiv_symm_apply_val] at h2
    rw [← h2, Nat.mul_comm, Nat.pow_mul]
    rfl
  have hcorr : ∀ (d : Block) (v : Fin (stride T) → Fin (2 ^ bitWidth T)), corrBlock T d (BitVec.ofFin (E v)) =
      pack (tab (stride T) (fun k => if h : k < stride T then (fun k : Fin (stride T) => lane T d k + Scalar.ofU128 (BitVec.ofNat 128 (v k).val)) ⟨k, h⟩ else 0)) 1 := by
    intro d v
    unfold corrBlock
    congr 1
    apply tab_congr
    intro k hk
    rw [dif_pos hk]
    exact congrArg _ (hE v ⟨k, hk⟩)
  rw [← count_equiv E, ← count_equiv E]
  simp only [hcorr]
  have := hybrid (stride T) (fun k dd => lane T d k + Scalar.ofU128 (BitVec.ofNat 128 dd.val)) (fun k dd => lane T d' k + Scalar.ofU128 (BitVec.ofNat 128 dd.val))
    (fun k => if k.val < w then e else 0) (D := Fin (2 ^ bitWidth T)) (by
      intro k S
      rw [Fintype.card_fin]
      by_cases hk : k.val < w
      · rw [if_pos hk]
        exact hL _ _ S
      · rw [if_neg hk, hw k (by omega) k.isLt]
        simp) {f | pack (tab (stride T) (fun k => if h : k < stride T then f ⟨k, h⟩ else 0)) 1 ∈ S}
  refine le_trans this ?_
  rw [Fintype.card_fin]
  refine add_le_add le_rfl ?_
  have hs : ∑ k : Fin (stride T), (if k.val < w then e else 0) = (min w (stride T) : ℕ) * e := by
    rw [Fin.sum_univ_eq_sum_range (fun k => if k < w then e else 0), ← sum_filter, sum_const, nsmul_eq_mul]
    congr 2
    rw [show (range (stride T)).filter (fun k => k < w) = range (min w (stride T)) by ext k; simp [and_comm], card_range]
  rw [hs]
  apply le_of_eq
  rw [← hcard]
  push_cast
  rfl

/-- The elements of all groups together. -/
theorem sum_groups (n s : Nat) (hs : 0 < s) : ∑ b ∈ range ((n + s - 1) / s), min (n - b * s) s = n := by
  have : ∀ c, ∑ b ∈ range c, min (n - b * s) s = min n (c * s) := by
    intro c
    induction c with
    | zero => simp
    | succ c ih =>
      rw [sum_range_succ, ih, Nat.add_mul, Nat.one_mul]
      omega
  rw [this]
  have h := Nat.div_add_mod (n + s - 1) s
  have h2 := Nat.mod_lt (n + s - 1) hs
  rw [Nat.mul_comm] at h
  omega

theorem sum_div (f : Nat → ℚ) (w : Nat) (hw : 0 < w) (c : Nat) : ∑ i ∈ range (w * c), f (i / w) = w * ∑ b ∈ range c, f b := by
  induction c with
  | zero => simp
  | succ c ih =>
    rw [Nat.mul_add, Nat.mul_one, sum_range_add, ih, sum_range_succ, mul_add]
    congr 1
    rw [sum_congr rfl (fun i hi => by rw [Nat.mul_add_div hw, Nat.div_eq_of_lt (mem_range.1 hi), Nat.add_zero]), sum_const, card_range, nsmul_eq_mul]

/-- All OTs: `bitWidth` masks for every element. -/
theorem view_bound [LawfulScalar T] (c : Chans) {sec : Sec} (rnd : Nat → List T) (x : T) {y y' : List T} (hy : y'.length = y.length)
    (hg : GoodLength T y.length) (hk : useCorrelated T sec y.length = true) {e : ℚ} (he : 0 ≤ e) (hL : LaneBound T e)
    (hb : bitWidth T * stride T = 128) (A : Set (List (Event (Msg T)))) :
    viewProb c sec rnd x y A ≤ viewProb c sec rnd x y' A + bitWidth T * y.length * e := by
  have hs := stride_pos T
  have hw := bitWidth_pos T
  rw [viewProb_eq c rnd x hg hk, viewProb_eq c rnd x (by rw [hy]; exact hg) (by rw [hy]; exact hk), hy]
  have h := hybrid (otCount T y.length) (fun i b => gets x y i (BitVec.ofFin b)) (fun i b => gets x y' i (BitVec.ofFin b))
    (fun i => (min (y.length - i.val / bitWidth T * stride T) (stride T) : ℕ) * e) (D := Fin (2 ^ 128)) (by
      intro i S
      rw [Fintype.card_fin]
      unfold gets
      by_cases hbit : Scalar.getBit x (i.val % bitWidth T) = true
      · simp only [hbit, if_true]
        apply block_bound hL hb
        intro k hk1 hk2
        unfold delta
        rw [lane_pack _ _ (by unfold group; rw [List.length_take]; omega), lane_pack _ _ (by unfold group; rw [List.length_take]; omega),
          dif_neg (by unfold group; rw [List.length_take, List.length_drop]; omega),
          dif_neg (by unfold group; rw [List.length_take, List.length_drop]; omega)]
      · simp only [hbit]
        exact le_add_of_nonneg_right (by positivity))
    {r | viewOf c x y.length r ∈ A}
  rw [Fintype.card_fin] at h
  have hsum : ∑ i : Fin (otCount T y.length), ((min (y.length - i.val / bitWidth T * stride T) (stride T) : ℕ) : ℚ) * e = bitWidth T * y.length * e := by
    rw [← sum_mul, Fin.sum_univ_eq_sum_range (fun i => ((min (y.length - i / bitWidth T * stride T) (stride T) : ℕ) : ℚ)), otCount_eq,
      sum_div (fun b => ((min (y.length - b * stride T) (stride T) : ℕ) : ℚ)) _ hw, ← Nat.cast_sum, sum_groups _ _ hs]
  rw [hsum] at h
  have hpos : (0 : ℚ) < ((2 : ℚ) ^ 128) ^ otCount T y.length := by positivity
  rw [div_add' _ _ _ (ne_of_gt hpos), div_le_div_iff_of_pos_right hpos]
  push_cast at h
  exact h

end Gilboa
end DVO
