/-
How much the multi-point FSS and the Gilboa product send.
-/
import Verif.Proofs.Traffic
import Verif.Proofs.Gilboa

namespace DVO
open Net
variable {T : Type} [Scalar T] {P : Price}

namespace MPFSS
open Cuckoo

theorem computeBuckets_inv {h : Hasher} {thr : Nat → List Nat} (ht : Threads thr) {m t : Nat} (h0 : 0 < t) {b : List (List Nat)}
    (hb : computeBuckets thr h m t = .ok b) : b = table h t m := by
  unfold computeBuckets at hb
  rw [if_neg (by omega)] at hb
  obtain ⟨nb, h1, h2⟩ := Out.bind_eq_ok.1 hb
  have hlt := getOptimal_lt h1
  have hpos : 0 < nb := by
    by_contra hc
    unfold hashSimple at h2
    rw [if_pos (by omega)] at h2
    cases h2
  have hbits : h.tooManyBits (allIndices (m : Int).toNat).length nb.toNat = false := by
    by_contra hc
    unfold hashSimple at h2
    rw [if_neg (by omega), if_pos (by simpa using hc)] at h2
    cases h2
  rw [hashSimple_eq h hpos hlt _ _ (by rw [ht, allIndices_length]) hbits] at h2
  have hnb : nb = h.optimal t := by
    unfold getOptimalNumberOfBuckets toInt64 at h1
    rw [if_neg (by omega), if_neg (by omega)] at h1
    split at h1
    · split at h1
      · cases h1; simp
      · cases h1
    · cases h1
  cases h2
  rw [hnb]
  simp [table]

theorem bucketOTs_eq (fl : Nat → Nat → Nat) (h : Hasher) (t m : Nat) :
    ((table h t m).map (fun b => treeOTs fl b.length)).sum = bucketOTs fl h t m := by
  unfold bucketOTs table
  rw [List.map_map]
  rfl

theorem emptyOTs {fl : Nat → Nat → Nat} {h : Hasher} {t m : Nat} (hb : h.optimal t < 2 ^ 31) :
    ((emptyOutputs (table h t m) : List (List T)).map (fun o => treeOTs fl o.length)).sum = bucketOTs fl h t m := by
  rw [emptyOutputs_eq (by rw [table_length]; omega), List.map_map, ← bucketOTs_eq]
  congr 1
  exact List.map_congr_left (fun b _ => by simp)

theorem updateBuckets_inv {h : Hasher} {thr : Nat → List Nat} (ht : Threads thr) {st st' : State} (hc : Coherent h st) {m t : Nat} (h0 : 0 < t)
    {a : Unit} (hu : updateBuckets thr st m t = (.ok a, st')) : st'.buckets = table h t m := by
  cases hb : computeBuckets thr h m t with
  | ok b =>
    rw [updateBuckets_ok ht hc hb] at hu
    cases hu
    exact computeBuckets_inv ht h0 hb
  | _ =>
    exfalso
    have h1 := (updateBuckets_coherent ht hc m t).1
    rw [hu] at h1
    unfold updateBuckets State.new at h1
    rw [if_pos (by simp)] at h1
    simp only [hb] at h1
    cases h1

theorem finish_good {st : State} {m : Nat} {r : Out (List (List T))} (h : (finish st m r).Good) : r.IsOk := by
  obtain ⟨a, h⟩ := h
  cases r with
  | ok b => exact ⟨b, rfl⟩
  | _ => cases h

theorem Fee.finish {p : PM (Msg T) (List (List T))} {N : Nat} (h : PFee P p N) (st : State) (m : Nat) :
    Fee P Res.Good (Proc.bind (M := Msg T) p (fun r => .ret (finish st m r))) N := by
  intro a n hr
  obtain ⟨r, n1, n2, h1, h2, rfl⟩ := hr.bind
  cases h2
  have := h r n1 h1
  exact ⟨this.1, fun hg => this.2 (finish_good hg)⟩

theorem value_fee (aes fl c sec key seed) {h : Hasher} {thr : Nat → List Nat} (ht : Threads thr) {st : State} (hc : Coherent h st) (x : T) {t : Nat}
    (hb : h.optimal t < 2 ^ 31) (w output : List T) :
    Fee P Res.Good (runValueProviderVectorOLE aes fl c sec key seed thr st x t w output)
      (P.ot * bucketOTs fl h t output.length + P.block * 2 + P.elem * (h.optimal t).toNat) := by
  unfold runValueProviderVectorOLE
  split
  · exact Fee.bad (not_ok (by intro a e; cases e))
  next h0 =>
  split
  · next a st' heq =>
    have hbk := updateBuckets_inv ht hc (by omega) heq
    refine Fee.recv (fun m => ?_)
    split
    · refine Fee.finish ?_ _ _
      rw [hbk, ← emptyOTs (T := T) hb]
      have := SPFSS.runValueProviderBatched_fee (P := P) (T := T) aes fl c sec key seed
      have e : (emptyOutputs (table h t output.length) : List (List T)).length = (h.optimal t).toNat := by
        rw [emptyOutputs_eq (by rw [table_length]; omega), List.length_map, table_length]
      rw [← e]
      exact this _ _
    all_goals exact Fee.bad (not_ok (by intro a e; cases e))
  · next e st' hne heq =>
    refine Fee.bad (not_ok (fun a he => ?_))
    dsimp only at he
    subst he
    exact hne a rfl

theorem permuteY_len {y r : List T} {hashed : List Int} {n : Int} (h : permuteY y hashed n = .ok r) : r.length = n.toNat := by
  unfold permuteY at h
  refine VOLE.loop_post (fun _ (l : List T) => l.length = n.toNat) ?_ _ _ _ _ (by simp) h
  intro j s r hs e
  obtain ⟨x, -, e⟩ := Out.bind_eq_ok.1 e
  split at e
  · obtain ⟨v, -, e⟩ := Out.bind_eq_ok.1 e
    exact (wr_len e).trans hs
  · cases e; exact hs

theorem maskedY_len {st : State} {y u yp : List T} {is hashed : List Int} (h : maskedY st y is u = .ok (hashed, yp)) :
    yp.length = (toInt32 st.buckets.length).toNat := by
  unfold maskedY at h
  obtain ⟨a, -, h⟩ := Out.bind_eq_ok.1 h
  obtain ⟨b, h1, h⟩ := Out.bind_eq_ok.1 h
  obtain ⟨d, h2, h⟩ := Out.bind_eq_ok.1 h
  cases h
  unfold addMask at h2
  split at h2
  · cases h2
  · next hl =>
    cases h2
    rw [List.length_zipWith, ← permuteY_len h1]
    omega

theorem index_fee (aes fl c) {h : Hasher} {thr : Nat → List Nat} (ht : Threads thr) {st : State} (hc : Coherent h st) {y : List T}
    (hy : y.length < 2 ^ 31) (hb : h.optimal y.length < 2 ^ 31) (is : List Int) (u v output : List T) :
    Fee P Res.Good (runIndexProviderVectorOLE aes fl c thr st y is u v output)
      (P.elem * (h.optimal y.length).toNat + P.ot * bucketOTs fl h y.length output.length) := by
  unfold runIndexProviderVectorOLE
  split
  · exact Fee.bad (not_ok (by intro a e; cases e))
  split
  · exact Fee.bad (not_ok (by intro a e; cases e))
  split
  · exact Fee.bad (not_ok (by intro a e; cases e))
  next h0 =>
  split
  · exact Fee.bad (not_ok (by intro a e; cases e))
  rw [toInt32_eq hy]
  split
  · next a st' heq =>
    have hbk := updateBuckets_inv ht hc (by omega) heq
    split
    · next hashed yp hm =>
      have e : (table h y.length output.length).length < 2 ^ 31 := by rw [table_length]; omega
      refine Fee.send ?_ ?_
      · have := maskedY_len hm
        rw [hbk, toInt32_eq e, Int.toNat_natCast, table_length] at this
        rw [Price.msg, this]
      · split
        · refine Fee.finish ?_ _ _
          rw [hbk, ← emptyOTs (T := T) hb]
          exact SPFSS.runIndexProviderBatched_fee (P := P) (T := T) aes fl c v _ _
        all_goals exact Fee.bad (not_ok (by intro a e; cases e))
    all_goals exact Fee.bad (not_ok (by intro a e; cases e))
  · next e st' hne heq =>
    refine Fee.bad (not_ok (fun a he => ?_))
    dsimp only at he
    subst he
    exact hne a rfl

end MPFSS

namespace Gilboa
open MPFSS (toInt32)

theorem productOTs_eq (T : Type) [Scalar T] (n : Nat) : productOTs T n = bitWidth T * ((n + stride T - 1) / stride T) := rfl

theorem makeDeltas_len {y : List T} {cnt : Nat} {d : List Block} (h : makeDeltas y cnt = .ok d) : d.length = bitWidth T * cnt := by
  unfold makeDeltas at h
  obtain ⟨p, -, h⟩ := Out.bind_eq_ok.1 h
  refine VOLE.loop_post (fun _ (l : List Block) => l.length = bitWidth T * cnt) ?_ _ _ _ _ (by simp) h
  intro b s r hs e
  refine VOLE.loop_post (fun _ (l : List Block) => l.length = bitWidth T * cnt) ?_ _ _ _ _ hs e
  intro j s r hs e
  obtain ⟨x, -, e⟩ := Out.bind_eq_ok.1 e
  obtain ⟨x, -, e⟩ := Out.bind_eq_ok.1 e
  exact (wr_len e).trans hs

theorem makeChoices_len {x : T} {cnt n : Nat} {d : List Bool} (h : makeChoices x cnt n = .ok d) : d.length = n := by
  unfold makeChoices at h
  obtain ⟨p, -, h⟩ := Out.bind_eq_ok.1 h
  refine VOLE.loop_post (fun _ (l : List Bool) => l.length = n) ?_ _ _ _ _ (by simp) h
  intro b s r hs e
  refine VOLE.loop_post (fun _ (l : List Bool) => l.length = n) ?_ _ _ _ _ hs e
  intro j s r hs e
  obtain ⟨x, -, e⟩ := Out.bind_eq_ok.1 e
  exact (wr_len e).trans hs

theorem otMessages_len {sec : Sec} {m0 : Nat → Block} {rnd : Nat → List T} {d : List Block} {size : Int} {ms : List (Block × Block)}
    (h : otMessages sec m0 rnd d size = .ok ms) : ms.length = d.length := by
  unfold otMessages at h
  split at h
  · unfold correlatedMessages at h
    have := VOLE.loop_post (fun i (l : List (Block × Block)) => l.length = i) (by
      intro b s r hs e
      obtain ⟨x, -, e⟩ := Out.bind_eq_ok.1 e
      obtain ⟨x, -, e⟩ := Out.bind_eq_ok.1 e
      cases e
      simpa using hs) _ 0 [] _ rfl h
    simpa using this
  · unfold chosenMessages at h
    refine VOLE.loop_post (fun i (l : List (Block × Block)) => l.length = d.length) ?_ _ _ _ _ (by simp) h
    intro b s r hs e
    obtain ⟨x, -, e⟩ := Out.bind_eq_ok.1 e
    obtain ⟨x, -, e⟩ := Out.bind_eq_ok.1 e
    obtain ⟨x, -, e⟩ := Out.bind_eq_ok.1 e
    exact (wr_len e).trans hs

theorem vector_fee (c : Chans) (sec : Sec) (m0 : Nat → Block) (rnd : Nat → List T) (y output : List T) :
    PFee P (runVectorProvider c sec m0 rnd y output) (P.ot * productOTs T output.length) := by
  unfold runVectorProvider
  split
  · exact Fee.fail (by intro a e; cases e)
  next hl =>
  split
  · exact Fee.fail (by intro a e; cases e)
  split
  · exact Fee.fail (by intro a e; cases e)
  refine Fee.liftBind (fun d hd => Fee.liftBind (fun ms hms => ?_))
  have : ms.length = productOTs T output.length := by
    rw [otMessages_len hms, makeDeltas_len hd, productOTs_eq]
    have : y.length = output.length := by omega
    rw [this]
  rw [PM.otSend_bind, ← this]
  exact Fee.otSend (N := 0) Fee.lift

theorem value_fee (c : Chans) (sec : Sec) (x : T) {output : List T} (ho : output.length < 2 ^ 31) :
    PFee P (runValueProvider c sec x output) (P.ot * productOTs T output.length) := by
  unfold runValueProvider
  dsimp only
  rw [MPFSS.toInt32_eq ho]
  split
  · exact Fee.fail (by intro a e; cases e)
  split
  · exact Fee.fail (by intro a e; cases e)
  next hs0 hs1 =>
  refine Fee.liftBind (fun n hn => ?_)
  split
  · exact Fee.fail (by intro a e; cases e)
  refine Fee.liftBind (fun cs hcs => ?_)
  have hst : 0 < stride T := Nat.div_pos (by omega) (by omega)
  have : cs.length = productOTs T output.length := by
    rw [makeChoices_len hcs, productOTs_eq]
    unfold numOTs at hn
    split at hn
    · cases hn
    dsimp only at hn
    split at hn
    · cases hn
    · cases hn
      have e : ((output.length : Int) + stride T - 1) = ((output.length + stride T - 1 : Nat) : Int) := by omega
      rw [e, ← Int.ofNat_tdiv]
      exact Int.toNat_natCast _
  rw [PM.otRecv_bind, ← this]
  exact Fee.otRecv (N := 0) (fun r => Fee.lift)

end Gilboa
end DVO
