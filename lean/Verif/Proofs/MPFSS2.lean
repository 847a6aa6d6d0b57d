/-
Joint run of the multi-point FSS.
-/
import Verif.Proofs.MPFSS

namespace DVO.MPFSS
open Cuckoo ROT Net
variable {T : Type} [Scalar T]

/-! ### Vectors given by functions -/

def vec (n : Nat) (f : Nat → T) : List T := (List.range n).map f

theorem vec_length (n : Nat) (f : Nat → T) : (vec n f).length = n := by simp [vec]

theorem vec_get {n : Nat} (f : Nat → T) {k : Nat} (hk : k < n) : (vec n f)[k]? = some (f k) := by
  simp [vec, hk]

theorem vec_set {n : Nat} (f : Nat → T) {b : Nat} (x : T) :
    (vec n f).set b x = vec n (fun c => if c = b then x else f c) := by
  apply List.ext_getElem?
  intro i
  rw [List.getElem?_set]
  by_cases hi : i < n
  · by_cases e : b = i
    · subst e; simp [vec, hi]
    · simp [vec, hi, e, Ne.symm e]
  · simp [vec, hi]; omega

theorem vec_congr {n : Nat} {f g : Nat → T} (h : ∀ b < n, f b = g b) : vec n f = vec n g := by
  apply List.map_congr_left
  intro b hb
  exact h b (List.mem_range.1 hb)

theorem vec_zero (n : Nat) : List.replicate n (0 : T) = vec n (fun _ => 0) := by
  apply List.ext_getElem?
  intro i
  by_cases hi : i < n <;> simp [vec, hi]

/-- What `scatter` adds to position `k`. -/
def scat (B : List (List Nat)) (bo : List (List T)) (k : Nat) : T :=
  ∑ i ∈ Finset.range B.length, ∑ j ∈ Finset.range (B.getD i []).length,
    if (B.getD i []).getD j 0 = k then (bo.getD i []).getD j 0 else 0

theorem scatter_eq {B : List (List Nat)} {bo : List (List T)} {m : Nat} (hB : B.length < 2 ^ 31)
    (hlen : bo.map List.length = B.map List.length) (hlt : ∀ b ∈ B, ∀ k ∈ b, k < m) (f : Nat → T) :
    scatter B bo (vec m f) = .ok (vec m (fun k => f k + scat B bo k)) := by
  unfold scatter
  rw [toInt32_eq hB, Int.toNat_natCast]
  have hbl : bo.length = B.length := by simpa using congrArg List.length hlen
  refine loop_eq (fun i st => st = vec m (fun k => f k + ∑ i ∈ Finset.range i, ∑ j ∈ Finset.range (B.getD i []).length,
    if (B.getD i []).getD j 0 = k then (bo.getD i []).getD j 0 else 0)) ?_ ?_ ?_
  · simp
  · rintro i _ _ hi rfl
    have hi' : i < B.length := by omega
    have hbi : bo[i].length = B[i].length := by
      have := congrArg (fun l => l[i]?) hlen
      simpa [hi', hbl] using this
    refine ⟨_, ?_, rfl⟩
    rw [rd_of_lt hi', Out.ok_bind]
    refine loop_eq (fun j st => st = vec m (fun k => (f k + ∑ i ∈ Finset.range i, ∑ j ∈ Finset.range (B.getD i []).length,
      if (B.getD i []).getD j 0 = k then (bo.getD i []).getD j 0 else 0) + ∑ j ∈ Finset.range j,
      if (B.getD i []).getD j 0 = k then (bo.getD i []).getD j 0 else 0)) ?_ ?_ ?_
    · simp
    · rintro j _ _ hj rfl
      have hj' : j < B[i].length := by omega
      have hk : B[i][j] < m := hlt _ (List.getElem_mem _) _ (List.getElem_mem _)
      refine ⟨_, ?_, rfl⟩
      have e1 : rd2 B i j = .ok B[i][j] := by unfold rd2; rw [rd_of_lt hi', Out.ok_bind, rd_of_lt hj']
      have e2 : rd2 bo i j = .ok (bo[i][j]'(by omega)) := by
        unfold rd2; rw [rd_of_lt (by omega), Out.ok_bind, rd_of_lt (by omega)]
      rw [e1, Out.ok_bind, e2, Out.ok_bind, rd_eq_ok.2 (vec_get _ hk), Out.ok_bind, wr_of_lt _ (by rw [vec_length]; exact hk), vec_set]
      congr 1
      apply vec_congr
      intro k _
      rw [Finset.sum_range_succ]
      have g1 : B.getD i [] = B[i] := by simp [hi']
      have g2 : bo.getD i [] = bo[i] := by simp [hbl, hi']
      have g3 : B[i].getD j 0 = B[i][j] := by simp [hj']
      have g4 : bo[i].getD j 0 = bo[i][j]'(by omega) := by simp [hj', hbi]
      rw [g1, g2, g3, g4]
      by_cases e : k = B[i][j]
      · rw [if_pos e, if_pos e.symm, e, add_assoc, add_assoc]
      · rw [if_neg e, if_neg (Ne.symm e), add_zero]
    · rintro _ rfl
      apply vec_congr
      intro k _
      rw [Finset.sum_range_succ, Nat.zero_add]
      have g1 : B.getD i [] = B[i] := by simp [hi']
      rw [add_assoc, g1]
  · rintro _ rfl
    rw [Nat.zero_add]
    rfl

/-! ### Permuted values and positions in the buckets -/

/-- `y` at a hashed index, 0 for an empty bucket. -/
def pick (y : List T) (e : Int) : T := if e = -1 then 0 else y.getD e.toNat 0

theorem permuteY_eq {y : List T} {hashed : List Int} (hr : ∀ e ∈ hashed, e = -1 ∨ ∃ i : Nat, e = i ∧ i < y.length) :
    permuteY y hashed hashed.length = .ok (hashed.map (pick y)) := by
  unfold permuteY
  rw [Int.toNat_natCast]
  refine Eq.trans (loop_part (fun i _ => pick y (hashed.getD i (-1))) (by simp) ?_) ?_
  · intro i z hz
    have hi : i < hashed.length := by simpa using (List.getElem?_eq_some_iff.1 hz).1
    rw [rd_of_lt hi, Out.ok_bind]
    have hz0 : z = 0 := by
      rw [List.getElem?_replicate, if_pos hi] at hz; cases hz; rfl
    rcases hr _ (List.getElem_mem hi) with he | ⟨e, he, hel⟩
    · rw [if_neg (by simpa using he)]
      rw [part_skip _ hz]
      simp [pick, hi, he, hz0]
    · rw [he, if_pos (by omega)]
      have : rdI y (e : Int) = .ok y[e] := by
        unfold rdI
        rw [if_neg (by omega)]
        simpa using rd_of_lt hel
      rw [this, Out.ok_bind]
      have h2 := wr_part (fun i _ => pick y (hashed.getD i (-1))) hz
      have : pick y (hashed.getD i (-1)) = y[e] := by
        simp [pick, hi, he, hel]
      rw [this] at h2
      exact h2
  · congr 1
    apply List.ext_getElem?
    intro i
    by_cases hi : i < hashed.length <;> simp [hi]

/-- Position of the hashed index in bucket `i`. -/
def posIn (B : List (List Nat)) (indices : List Int) (i : Nat) (e : Int) : Nat :=
  if (B.getD i []).length = 0 ∨ e = -1 then 0 else lowerBound (B.getD i []) (indices.getD e.toNat 0)

theorem indexInBucket_eq {B : List (List Nat)} {indices hashed : List Int} (hl : B.length = hashed.length)
    (hr : ∀ e ∈ hashed, e = -1 ∨ ∃ i : Nat, e = i ∧ i < indices.length) :
    indexInBucket B indices hashed hashed.length = .ok ((hashed.mapIdx (posIn B indices)).map (fun m : Nat => (m : Int))) := by
  unfold indexInBucket
  rw [Int.toNat_natCast]
  refine Eq.trans (loop_part (fun i _ => (posIn B indices i (hashed.getD i (-1)) : Int)) (by simp) ?_) ?_
  · intro i z hz
    have hi : i < hashed.length := by simpa using (List.getElem?_eq_some_iff.1 hz).1
    have hz0 : z = 0 := by
      rw [List.getElem?_replicate, if_pos hi] at hz; cases hz; rfl
    have gB : B.getD i [] = B[i] := by simp [hl, hi]
    have gh : hashed.getD i (-1) = hashed[i] := by simp [hi]
    rw [rd_of_lt (by omega), Out.ok_bind]
    by_cases hb : B[i].length = 0
    · rw [if_pos hb, part_skip _ hz]
      rw [gh, posIn, gB, if_pos (Or.inl hb), hz0]; rfl
    · rw [if_neg hb, rd_of_lt hi, Out.ok_bind]
      rcases hr _ (List.getElem_mem hi) with he | ⟨e, he, hel⟩
      · rw [if_neg (by simpa using he), part_skip _ hz]
        rw [gh, posIn, if_pos (Or.inr he), hz0]; rfl
      · rw [he, if_pos (by omega)]
        have : rdI indices (e : Int) = .ok indices[e] := by
          unfold rdI
          rw [if_neg (by omega)]
          simpa using rd_of_lt hel
        rw [this, Out.ok_bind]
        have h2 := wr_part (fun i _ => (posIn B indices i (hashed.getD i (-1)) : Int)) hz
        have : posIn B indices i (hashed.getD i (-1)) = lowerBound B[i] indices[e] := by
          rw [gh, posIn, gB, if_neg (by rw [he]; omega), he]
          simp [hel]
        rw [this] at h2
        exact h2
  · congr 1
    apply List.ext_getElem?
    intro i
    by_cases hi : i < hashed.length <;> simp [hi]

/-- `lower_bound` finds an element that is present in a sorted list. -/
theorem lowerBound_spec {l : List Nat} (hs : l.Pairwise (· ≤ ·)) {x : Nat} (hx : x ∈ l) :
    l[lowerBound l (x : Int)]? = some x := by
  induction l with
  | nil => cases hx
  | cons a l ih =>
    unfold lowerBound
    rw [List.takeWhile_cons]
    by_cases h : (a : Int) < (x : Int)
    · simp only [h, decide_true, if_true, List.length_cons, List.getElem?_cons_succ]
      refine ih hs.of_cons ?_
      rcases List.mem_cons.1 hx with e | e
      · omega
      · exact e
    · simp only [h, decide_false]
      have : a = x := by
        rcases List.mem_cons.1 hx with e | e
        · exact e.symm
        · have := List.rel_of_pairwise_cons hs e; omega
      simp [this]

/-- Reordering the sum over buckets into a sum over inputs. -/
theorem sum_hashed (f : Int → T) (hf : f (-1) = 0) (m : Nat) (l : List Int) (hl : ∀ e ∈ l, e = -1 ∨ ∃ i : Nat, e = i ∧ i < m) :
    (l.map f).sum = ∑ e ∈ Finset.range m, (l.count (e : Int)) • f (e : Int) := by
  induction l with
  | nil => simp
  | cons a l ih =>
    rw [List.map_cons, List.sum_cons, ih (fun e he => hl e (List.mem_cons_of_mem _ he))]
    rcases hl a List.mem_cons_self with e | ⟨i, e, hi⟩
    · subst e
      rw [hf, zero_add]
      apply Finset.sum_congr rfl
      intro k _
      rw [List.count_cons_of_ne (by omega)]
    · subst e
      rw [← Finset.add_sum_erase _ _ (Finset.mem_range.2 hi), ← Finset.add_sum_erase (Finset.range m) (fun e : Nat => (List.count (e : Int) ((i : Int) :: l)) • f (e : Int)) (Finset.mem_range.2 hi),
        List.count_cons_self, succ_nsmul, ← add_assoc, add_comm (f i)]
      congr 1
      apply Finset.sum_congr rfl
      intro k hk
      rw [Finset.mem_erase] at hk
      rw [List.count_cons_of_ne (by omega)]

end DVO.MPFSS
