/-
Vector OLE: expansion by two parties.
-/
import Verif.Proofs.VOLE2

namespace DVO.VOLE
open Net MPFSS
set_option linter.unusedSectionVars false
variable {T : Type} [Scalar T] {P : Out Unit → Prop} {h : Cuckoo.Hasher} {A B : Env T}

/-- The vectors obtained by an expansion are correlated. -/
theorem expand_correlated {d : T} {su sv sw mu v0 v1 : List T} {c : Sparse T} {o : Nat} (hV : Correlated d su sv sw)
    (hc : CodeOk c su.length o) {y : List T} {indices : List Int} (hmu : mu.length = o)
    (hsum : ∀ k < o, ∃ a, mu[k]? = some a ∧ pointSum d y indices k = d * a) (hsh : SharesOf o v1 v0 (pointSum d y indices)) :
    Correlated d (List.zipWith (· + ·) (c.cols.map (dot su)) mu) (List.zipWith (· - ·) (c.cols.map (dot sv)) v0)
      (List.zipWith (· + ·) (c.cols.map (dot sw)) v1) := by
  obtain ⟨h1, h0, hsh⟩ := hsh
  have hcl := hc.cols_
  refine correlated_of (by simp; omega) (by simp; omega) ?_
  intro k a b e ha hb he
  have hk : k < c.cols.length := by
    by_contra hn
    rw [List.getElem?_eq_none (by simp; omega)] at ha
    cases ha
  obtain ⟨m, hm, hpt⟩ := hsum k (by omega)
  obtain ⟨s1, s0, e1, e0, hadd⟩ := hsh k (by omega)
  simp only [List.getElem?_zipWith, List.getElem?_map, List.getElem?_eq_getElem hk, Option.map_some, hm, e0, e1, Option.some.injEq] at ha hb he
  have hlin := dot_linear hV c.cols[k] (hc.entries _ (List.getElem_mem _))
  rw [← ha, ← hb, ← he, hlin]
  have : s1 = d * m - s0 := by rw [← hpt, ← hadd]; ring
  rw [this]
  ring

set_option maxHeartbeats 8000000 in
theorem expand_pair {M N : Nat} (hP : ∀ o, Expected o → ¬ (SmoothTo M N h A ∧ SmoothTo M N h B) → P o) (W : Together h A B) {d : T} {t o nv nm : Nat} {s r : VState T}
    (ht : (t : Int) ∈ noiseSizes) (hle : t ≤ o) (ho : o ≤ 10616092) (hN : o ≤ N) (hs : Coherent h s.mpfss) (hr : Coherent h r.mpfss)
    (hns : s.noise = t) (hnr : r.noise = t) (hcode : r.code = s.code) (hco : CodeOk s.code s.sVole.u.length o)
    (hC : Corr d s.sCached r.rCached) (hV : Corr d s.sVole r.rVole) (hM : Corr d s.sMpfss r.rMpfss)
    (hml : (s.sMpfss.u.length : Int) = h.optimal t) (hn : nv + nm ≤ s.sCached.u.length + o) :
    Pair P (expandSender A o nv nm s) (expandReceiver B o nv nm r) (fun _ s' _ r' => ∃ c e st st' p q n n' us us', Corr d c e ∧
      c.u.length = s.sCached.u.length + o ∧ Coherent h st ∧ Coherent h st' ∧
      s' = { s with
        mpfss := st, sCached := (c.rest nv).rest nm, sVole := c.last nv, sMpfss := (c.rest nv).last nm, voleSize := nv, mpfssSize := nm, pos := p, sMade := n, log := s.log ++ [((t : Int), s.voleSize, (o : Int))], sUsed := us } ∧
      r' = { r with
        mpfss := st', rCached := (e.rest nv).rest nm, rVole := e.last nv, rMpfss := (e.rest nv).last nm, voleSize := nv, mpfssSize := nm, pos := q, rMade := n', log := r.log ++ [((t : Int), r.voleSize, (o : Int))], rUsed := us' }) := by
  have hpos := noise_pos ht
  have hle' := noise_le ht
  unfold expandSender expandReceiver
  rw [VM.get_bind, VM.get_bind, if_neg (by have := hV.corr.len_v; omega), if_neg (by
      have h1 := hco.rows_; have h2 := hco.cols_; rw [h1, h2]; simp), if_neg (by
      have h1 := hco.rows_; have h2 := hco.cols_; rw [hcode, h1, h2, hV.corr.len_w]; simp)]
  -- the sender chooses the noise
  rw [VM.draw_bind]
  obtain ⟨g, hg, eg⟩ := create_usable (A.rand s.pos).junk ((List.range 32).map (A.rand s.pos).byte) (b := s.noise) (by simp)
    (by rw [hns]; omega)
  rw [eg, VM.lift_ok_bind, if_neg (by omega)]
  have hbound := sampleIndices_fine (lib := A.lib) (aes := A.aes) W.conforms (o := (o : Int)) (n := s.noise) (by omega) (by omega) A.fuel
    (set := []) hg List.nodup_nil (by simp) (by simp; omega)
  rcases hbound.cases (P := P) (fun hno x hx => hP x hx (fun S => hno (by
    rw [hns] at eg ⊢
    obtain ⟨l, hl, -⟩ := S.1.indices _ _ t o g ht hle hN eg
    exact ⟨l, hl⟩))) with ⟨set, eset, hnd, hrange, hlen⟩ | hb
  swap
  · refine Pair.liftL ?_ (.inr hb)
    intro c ec
    rw [ec] at hb
    exact absurd hb id
  have hsmooth : SmoothTo M N h A → ∀ l' : List Int, l'.Perm set → ∃ hashed, Cuckoo.hashCuckoo h (l'.map indexBlock) (h.optimal t) = .ok hashed := by
    intro S
    rw [hns] at eg eset
    obtain ⟨l, hl, hh⟩ := S.indices _ _ t o g ht hle hN eg
    rw [hl] at eset
    cases eset
    exact hh
  rw [eset, VM.lift_ok_bind]
  have hperm := W.orderA s.pos set
  have hlen' : set.length = t := by rw [hns] at hlen; omega
  generalize hidx : (A.rand s.pos).order set = indices at hperm ⊢
  have hhash := fun S => hsmooth S indices hperm
  have hnd' : indices.Nodup := hperm.nodup_iff.2 hnd
  have hrange' : ∀ i ∈ indices, 0 ≤ i ∧ i < (o : Int) := fun i hi => hrange i (hperm.mem_iff.1 hi)
  have hli : indices.length = t := by rw [hperm.length_eq, hlen']
  rw [VM.draw_bind, hns, vecOf_eq, VM.lift_ok_bind, VM.draw_bind, vecOf_eq, VM.lift_ok_bind]
  rw [VM.draw_bind, vecOf_eq, VM.lift_ok_bind, VM.modify_bind, VM.draw_bind, vecOf_eq, VM.lift_ok_bind, hnr]
  -- MPFSS
  refine Pair.bind (mpfss_pair hP W ht hle ho hN (by exact hs) (by exact hr) _ _ _ (m := o) (t := t) ?_ hrange' hhash rfl) ?_
  · refine ⟨by simp, hli, by simp, by simp, ?_, hml, ?_, ?_⟩
    · rw [hM.corr.len_w]; exact hml
    · rw [hM.corr.len_v]; exact hml
    · intro j uj vj wj h1 h2 h3
      rw [hM.delta]
      exact hM.corr.get h1 h2 h3
  rintro v0 s1 v1 r1 ⟨st, st', hst, hst', rfl, rfl, hsh⟩
  -- the rest is local
  obtain ⟨mu, emu, hmu, hmu1, hmu2⟩ := spread_eq (o := o) (y := (List.range t).map (A.rand (s.pos + 1)).elems) hli (by simp) hnd' hrange'
  have hsum := fun k hk => pointSum_spread (o := o) (mu := mu) hli (by simp) hnd' hmu1 hmu2 r.rMpfss.delta (k := k) hk
  have hcl := hco.cols_
  obtain ⟨hl1, hl0, -⟩ := id hsh
  have hcorr := expand_correlated (d := r.rMpfss.delta) (by rw [hM.delta]; exact hV.corr) hco hmu hsum hsh
  rw [hM.delta] at hcorr
  rw [Int.toNat_natCast, emu, VM.lift_ok_bind, vecMat_eq hco, VM.lift_ok_bind, vecOp_eq (by simp; omega), VM.lift_ok_bind,
    vecMat_eq (cols := o) (by rw [hV.corr.len_v]; exact hco), VM.lift_ok_bind, vecOp_eq (by simp; omega), VM.lift_ok_bind, VM.modify_bind]
  rw [hcode, vecMat_eq (cols := o) (by rw [hV.corr.len_w]; exact hco), VM.lift_ok_bind, vecOp_eq (by simp; omega), VM.lift_ok_bind, VM.modify_bind]
  have hcat := hC.corr.append hcorr
  have hlu : (List.zipWith (· + ·) (s.code.cols.map (dot s.sVole.u)) mu).length = o := by simp; omega
  have hlv : (List.zipWith (· - ·) (s.code.cols.map (dot s.sVole.v)) v0).length = o := by simp; omega
  have hlw : (List.zipWith (· + ·) (s.code.cols.map (dot r.rVole.w)) v1).length = o := by simp; omega
  generalize List.zipWith (· + ·) (s.code.cols.map (dot s.sVole.u)) mu = U at *
  generalize List.zipWith (· - ·) (s.code.cols.map (dot s.sVole.v)) v0 = V at *
  generalize List.zipWith (· + ·) (s.code.cols.map (dot r.rVole.w)) v1 = Wv at *
  have hcv := hC.corr.len_v
  have hcw := hC.corr.len_w
  have hE : ∀ (l : List T) (g : List T), g.length = o → (l ++ g).take ((l ++ g).length - o) = l := by
    intro l g hg
    rw [List.length_append, hg, Nat.add_sub_cancel, List.take_left]
  have hE' : ∀ (l : List (Option Nat)) (g : List (Option Nat)), g.length = o → (l ++ g).take ((l ++ g).length - o) = l := by
    intro l g hg
    rw [List.length_append, hg, Nat.add_sub_cancel, List.take_left]
  rw [getSenderCached_bind (by simp; omega) (by simp; omega), VM.modify_bind, getSenderCached_bind (by simp [SRes.rest]; omega) (by simp [SRes.rest]; omega)]
  dsimp only
  rw [hE _ _ (by simp), hE' _ _ (by simp)]
  rw [getReceiverCached_bind (by simp; omega), VM.modify_bind, getReceiverCached_bind (by simp [RRes.rest]; omega)]
  refine Pair.ret ⟨⟨s.sCached.u ++ U, s.sCached.v ++ V, s.sCached.ids ++ freshIds s.sMade.length o⟩,
    ⟨r.rCached.w ++ Wv, r.rCached.delta, r.rCached.ids ++ freshIds r.rMade.length o⟩, st, st', _, _, _, _, _, _, ⟨hcat, hC.delta⟩,
    by simp; omega, hst, hst', by rw [← hns], by rw [← hnr]⟩

end DVO.VOLE
