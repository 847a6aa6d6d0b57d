/-
Lemmas about single-point FSS.
-/
import Verif.Model.SPFSS
import Verif.Proofs.ROT3
import Verif.Proofs.Loops
import Mathlib.Algebra.BigOperators.Group.List.Basic
import Mathlib.Algebra.BigOperators.Intervals
import Mathlib.Tactic.Ring
import Mathlib.Tactic.Abel

namespace DVO.SPFSS
open ROT GGM Net
variable {T : Type} [Scalar T]

theorem sumNegate_eq (s : T) (row : List T) : sumNegate s row = .ok (s + row.sum, row.map (fun x => -x)) := by
  unfold sumNegate
  refine loop_eq (fun i st => st = (s + (row.take i).sum, part (fun _ x => -x) row i))
    (by simp [part_zero]) ?_ ?_
  · rintro i st _ hi rfl
    have hx : row[i]? = some row[i] := List.getElem?_eq_getElem (by omega)
    refine ⟨_, ?_, rfl⟩
    simp only [rd_part _ hx, Out.ok_bind]
    rw [wr_part (fun _ x => -x) hx]
    simp only [Out.ok_bind]
    rw [List.take_succ_eq_append_getElem (by omega), List.sum_append]
    simp [add_assoc]
  · rintro st rfl
    rw [part_full _ _ (by omega), Nat.zero_add, List.take_length, List.mapIdx_eq_zipIdx_map]
    congr 1
    apply List.ext_getElem?
    intro j
    simp only [List.getElem?_map, List.getElem?_zipIdx]
    cases row[j]? <;> simp

theorem sumNegateAll_eq (shares : List T) (outs : List (List T)) (h : shares.length = outs.length) :
    sumNegateAll shares outs =
      .ok (List.zipWith (fun s r => s + r.sum) shares outs, outs.map (List.map (fun x => -x))) := by
  unfold sumNegateAll
  refine loop_eq (fun i st => st = (part (fun j s => s + ((outs[j]?).getD []).sum) shares i,
    part (fun _ r => r.map (fun x => -x)) outs i)) (by simp [part_zero]) ?_ ?_
  · rintro i st _ hi rfl
    have hs : shares[i]? = some shares[i] := List.getElem?_eq_getElem (by omega)
    have ho : outs[i]? = some outs[i] := List.getElem?_eq_getElem (by omega)
    refine ⟨_, ?_, rfl⟩
    simp only [rd_part _ hs, rd_part _ ho, Out.ok_bind, sumNegate_eq]
    have h1 := wr_part (fun j s => s + ((outs[j]?).getD []).sum) hs
    simp only [ho, Option.getD_some] at h1
    have h2 := wr_part (fun _ r => r.map (fun x : T => -x)) ho
    rw [h1, h2]
    rfl
  · rintro st rfl
    rw [part_full _ _ (by omega), part_full _ _ (by omega)]
    congr 1
    · apply List.ext_getElem?
      intro j
      simp only [List.getElem?_mapIdx, List.getElem?_zipWith]
      by_cases hj : j < shares.length
      · have : j < outs.length := by omega
        simp [hj, this]
      · simp [hj]
    · apply List.ext_getElem?
      intro j
      simp only [List.getElem?_mapIdx, List.getElem?_map]

/-- Sum of a row without position `m`. -/
def sumExcept (row : List T) (m : Nat) : T :=
  ∑ k ∈ Finset.range row.length, if k = m then 0 else (row[k]?).getD 0

theorem subOthers_eq (s : T) (row : List T) (m : Nat) :
    subOthers s row (m : Int) = .ok (s - sumExcept row m) := by
  unfold subOthers
  refine loop_eq (fun i st => st = s - ∑ k ∈ Finset.range i, if k = m then 0 else (row[k]?).getD 0) (by simp) ?_ ?_
  · rintro i st _ hi rfl
    refine ⟨_, ?_, rfl⟩
    have hx : row[i]? = some row[i] := List.getElem?_eq_getElem (by omega)
    rw [Finset.sum_range_succ]
    by_cases e : i = m
    · subst e; simp
    · have : (i : Int) ≠ m := by omega
      rw [if_pos this, rd_eq_ok.2 hx]
      simp only [Out.ok_bind, e, if_false, hx, Option.getD_some]
      congr 1
      ring
  · rintro st rfl
    rw [Nat.zero_add]; rfl

theorem subOthersAll_eq (shares : List T) (ms : List Nat) (outs : List (List T))
    (h1 : shares.length = outs.length) (h2 : shares.length = ms.length) :
    subOthersAll shares (ms.map (fun m : Nat => (m : Int))) outs =
      .ok (shares.mapIdx (fun j s => s - sumExcept ((outs[j]?).getD []) ((ms[j]?).getD 0))) := by
  unfold subOthersAll
  refine loop_part _ rfl ?_
  intro i x hx
  have hi : i < shares.length := by rw [List.getElem?_eq_some_iff] at hx; exact hx.1
  have ho : outs[i]? = some outs[i] := List.getElem?_eq_getElem (by omega)
  have hm : ms[i]? = some ms[i] := List.getElem?_eq_getElem (by omega)
  rw [rd_part _ hx, rd_eq_ok.2 ho, show rd (ms.map (fun m : Nat => (m : Int))) i = .ok (ms[i] : Int) by
    rw [rd_eq_ok]; simp [hm]]
  simp only [Out.ok_bind, subOthers_eq]
  have h := wr_part (fun j s => s - sumExcept ((outs[j]?).getD []) ((ms[j]?).getD 0)) hx
  simp only [ho, hm, Option.getD_some] at h
  rw [h]

theorem fixIndices_eq (sums server : List T) (ms : List Nat) (outs : List (List T))
    (h1 : sums.length = outs.length) (h2 : server.length = outs.length)
    (hidx : IdxOk (outs.map List.length) ms) :
    fixIndices sums server (ms.map (fun m : Nat => (m : Int))) outs =
      .ok (outs.mapIdx (fun j row => if row.length = 0 then row else
        row.set ((ms[j]?).getD 0) ((sums[j]?).getD 0 + (server[j]?).getD 0))) := by
  unfold fixIndices
  have hlen : outs.length = ms.length := by simpa using hidx.1
  refine loop_part _ h1 ?_
  intro i row hx
  have hi : i < outs.length := by rw [List.getElem?_eq_some_iff] at hx; exact hx.1
  have ha : sums[i]? = some sums[i] := List.getElem?_eq_getElem (by omega)
  have hb : server[i]? = some server[i] := List.getElem?_eq_getElem (by omega)
  have hm : ms[i]? = some ms[i] := List.getElem?_eq_getElem (by omega)
  rw [rd_part _ hx]
  simp only [Out.ok_bind]
  by_cases hz : row.length = 0
  · rw [if_pos hz, part_skip _ hx (by simp [hz])]
  · rw [if_neg hz, rd_eq_ok.2 ha, rd_eq_ok.2 hb, show rd (ms.map (fun m : Nat => (m : Int))) i = .ok (ms[i] : Int) by
      rw [rd_eq_ok]; simp [hm]]
    simp only [Out.ok_bind]
    rw [if_neg (by omega), Int.toNat_natCast]
    have hlt := hidx.2 i row.length ms[i] (by simp [hx]) hm (by omega)
    rw [wr_of_lt _ hlt]
    simp only [Out.ok_bind]
    have h := wr_part (fun j row => if row.length = 0 then row else
        row.set ((ms[j]?).getD 0) ((sums[j]?).getD 0 + (server[j]?).getD 0)) hx
    simp only [ha, hb, hm, Option.getD_some, hz, if_false] at h
    rw [h]

/-! ### Joint run -/

def valueOut (T : Type) [Scalar T] (aes : Cipher) (fl : Nat → Nat → Nat) (key seed : Nat → Block) (ns : List Nat) : List (List T) :=
  ns.mapIdx (fun i n => (List.range n).map (fun k => - leafVal T aes fl key seed i n k))

def indexOut (aes : Cipher) (fl : Nat → Nat → Nat) (key seed : Nat → Block) (a b : List T) (ns ms : List Nat) : List (List T) :=
  ns.mapIdx (fun i n => (List.range n).map (fun k =>
    if k = (ms[i]?).getD 0 then (a[i]?).getD 0 + (b[i]?).getD 0 + leafVal T aes fl key seed i n k
    else leafVal T aes fl key seed i n k))

/-- The message of the value provider. -/
def sumsMsg (aes : Cipher) (fl : Nat → Nat → Nat) (key seed : Nat → Block) (a : List T) (ns : List Nat) : List T :=
  ns.mapIdx (fun i n => (a[i]?).getD 0 + ∑ k ∈ Finset.range n, leafVal T aes fl key seed i n k)

theorem sum_map_range (f : Nat → T) (n : Nat) : ((List.range n).map f).sum = ∑ k ∈ Finset.range n, f k := by
  induction n with
  | zero => simp
  | succ n ih => rw [List.range_succ, List.map_append, List.sum_append, ih, Finset.sum_range_succ]; simp

theorem joint (aes : Cipher) {fl : Nat → Nat → Nat} (c : Chans) {sec : Sec} (key seed : Nat → Block)
    {So Ro : List (List T)} {ms : List Nat} (hsz : So.map List.length = Ro.map List.length)
    (hidx : IdxOk (Ro.map List.length) ms) (hg : ∀ n ∈ Ro.map List.length, GoodSize fl n)
    (hsec : Scalar.canHash T (secPerLeaf sec (accumulateInt (So.map List.length))) 128 = true)
    {a b : List T} (ha : a.length = So.length) (hb : b.length = Ro.length) :
    Joint (runValueProviderBatched aes fl c sec key seed a So : PM (Msg T) _)
      (runIndexProviderBatched aes fl c b (ms.map (fun m : Nat => (m : Int))) Ro : PM (Msg T) _)
      (.ok (valueOut T aes fl key seed (Ro.map List.length)))
      (.ok (indexOut aes fl key seed a b (Ro.map List.length) ms))
      (senderView T aes fl c key seed (Ro.map List.length) ++
        [.sent c.main (.elems (sumsMsg aes fl key seed a (Ro.map List.length)))])
      (receiverView T aes fl c key seed (Ro.map List.length) ms ++
        [.rcvd c.main (.elems (sumsMsg aes fl key seed a (Ro.map List.length)))]) := by
  have hl1 : Ro.length = ms.length := by simpa using hidx.1
  have hl2 : So.length = Ro.length := by simpa using congrArg List.length hsz
  unfold runValueProviderBatched runIndexProviderBatched
  rw [if_neg (by omega), if_neg (by simp; omega)]
  refine Joint.bindOk (ROT.joint aes c key seed hsz hidx hg hsec) ?_
  rw [sumNegateAll_eq _ _ (by simp [senderOut]; omega)]
  rw [subOthersAll_eq _ _ _ (by simp [receiverOut]; omega) (by omega)]
  simp only [PM.lift_ok_bind, PM.send_bind, PM.recv_bind]
  have hsum : List.zipWith (fun s r => s + r.sum) a (senderOut T aes fl key seed (Ro.map List.length)) =
      sumsMsg aes fl key seed a (Ro.map List.length) := by
    apply List.ext_getElem?
    intro i
    simp only [List.getElem?_zipWith, senderOut, sumsMsg, List.getElem?_mapIdx, List.getElem?_map, Option.map_map]
    by_cases hi : i < Ro.length
    · have : i < a.length := by omega
      simp only [hi, this, List.getElem?_eq_getElem, Option.map_some, Option.getD_some, Function.comp, sum_map_range]
    · have : ¬ i < a.length := by omega
      simp [hi, this]
  rw [hsum]
  refine Joint.sendRecv ?_
  simp only [PM.unElems, PM.lift_ok_bind]
  rw [fixIndices_eq _ _ _ _ (by simp [receiverOut]; omega) (by simp [receiverOut, sumsMsg])
    (by
      have : (receiverOut T aes fl key seed (Ro.map List.length) ms).map List.length = Ro.map List.length := by
        apply List.ext_getElem?
        intro i
        simp only [receiverOut, List.getElem?_map, List.getElem?_mapIdx, Option.map_map]
        cases Ro[i]? <;> simp
      rw [this]; exact hidx)]
  have hv : (senderOut T aes fl key seed (Ro.map List.length)).map (List.map (fun x => -x)) =
      valueOut T aes fl key seed (Ro.map List.length) := by
    apply List.ext_getElem?
    intro i
    simp only [senderOut, valueOut, List.getElem?_map, List.getElem?_mapIdx, Option.map_map]
    cases Ro[i]? with
    | none => rfl
    | some o => simp
  rw [hv]
  have hr : ((receiverOut T aes fl key seed (Ro.map List.length) ms).mapIdx (fun j row => if row.length = 0 then row else
        row.set ((ms[j]?).getD 0) (((b.mapIdx (fun j s => s - sumExcept (((receiverOut T aes fl key seed (Ro.map List.length) ms)[j]?).getD []) ((ms[j]?).getD 0)))[j]?).getD 0 +
          ((sumsMsg aes fl key seed a (Ro.map List.length))[j]?).getD 0))) =
      indexOut aes fl key seed a b (Ro.map List.length) ms := by
    apply List.ext_getElem?
    intro i
    simp only [receiverOut, indexOut, sumsMsg, List.getElem?_map, List.getElem?_mapIdx, Option.map_map]
    cases ho : Ro[i]? with
    | none => rfl
    | some o =>
      have hi : i < Ro.length := by rw [List.getElem?_eq_some_iff] at ho; exact ho.1
      have hbi : b[i]? = some b[i] := List.getElem?_eq_getElem (by omega)
      have hai : a[i]? = some a[i] := List.getElem?_eq_getElem (by omega)
      have hmi : ms[i]? = some ms[i] := List.getElem?_eq_getElem (by omega)
      simp only [Option.map_some, Function.comp, hbi, hai, hmi, Option.getD_some, Option.some.injEq, List.length_map,
        List.length_range]
      by_cases hz : o.length = 0
      · simp [hz]
      · rw [if_neg hz]
        have hlt := hidx.2 i o.length ms[i] (by simp [ho]) hmi (by omega)
        have hse : sumExcept ((List.range o.length).map (fun k => if k = ms[i] then (Scalar.ofU128 0 : T) else
            leafVal T aes fl key seed i o.length k)) ms[i] =
            (∑ k ∈ Finset.range o.length, leafVal T aes fl key seed i o.length k) -
              leafVal T aes fl key seed i o.length ms[i] := by
          unfold sumExcept
          rw [eq_sub_iff_add_eq]
          have : leafVal T aes fl key seed i o.length ms[i] =
              ∑ k ∈ Finset.range o.length, if k = ms[i] then leafVal T aes fl key seed i o.length k else 0 := by
            rw [Finset.sum_ite_eq' , if_pos (by simpa using hlt)]
          rw [this]
          simp only [List.length_map, List.length_range]
          rw [← Finset.sum_add_distrib]
          apply Finset.sum_congr rfl
          intro k hk
          rw [Finset.mem_range] at hk
          by_cases e : k = ms[i]
          · simp [e]
          · simp [e, hk]
        rw [hse]
        apply List.ext_getElem?
        intro k
        rw [List.getElem?_set]
        simp only [List.length_map, List.length_range, List.getElem?_map]
        by_cases e : ms[i] = k
        · subst e
          rw [if_pos rfl, if_pos hlt, List.getElem?_range hlt]
          simp only [Option.map_some, if_true, Option.some.injEq]
          ring
        · rw [if_neg e]
          have e' : ¬ k = ms[i] := fun x => e x.symm
          by_cases hk : k < o.length
          · simp [hk, e']
          · simp [hk]
  rw [hr]
  exact Joint.ret _ _

end DVO.SPFSS
