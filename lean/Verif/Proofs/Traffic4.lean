/-
How much the receiver of the vector OLE sends.
-/
import Verif.Proofs.Traffic3

namespace DVO.VOLE
open MPFSS
set_option linter.unusedSectionVars false
variable {T α β : Type} [Scalar T] {P : Price} {h : Cuckoo.Hasher}

theorem expandReceiver_toll {E : Env T} (ht : Threads E.thr) {t o : Nat} (hb : h.optimal t < 2 ^ 31) (nv nm : Int) {s : VState T}
    (hc : Coherent h s.mpfss) (hn : s.noise = t) : Toll P h (expandReceiver E o nv nm s) (receiverFee P E.fl h t o) := by
  unfold expandReceiver
  rw [VM.get_bind]
  split
  · exact Toll.fail hc (by intro a e; cases e)
  rw [VM.draw_bind]
  refine Toll.liftBind hc (fun garbage _ => ?_)
  rw [VM.modify_bind, VM.draw_bind]
  refine Toll.liftBind hc (fun v0 hv0 => ?_)
  have lv : v0.length = o := by rw [(vecOf_ok hv0).2]; simp
  rw [← Nat.add_zero (receiverFee P E.fl h t o)]
  refine Toll.runMpfssBind ?_ (fun r hr => value_coherent ht hc hr) (fun r hr => ?_)
  · have := value_fee (P := P) E.aes E.fl E.c (E.sec.map (· * 2)) (E.rand (s.pos + 1)).key (E.rand (s.pos + 1)).seed ht hc s.rMpfss.delta hb s.rMpfss.w v0
    rw [lv, ← hn] at this
    exact this
  have hc' := value_coherent ht hc hr
  refine Toll.liftBind hc' (fun w _ => Toll.liftBind hc' (fun w2 _ => ?_))
  rw [VM.modify_bind]
  refine Toll.bind (N := 0) (M := 0) (getReceiverCached_toll hc') (fun a s' _ hs' => ?_)
  rw [VM.modify_bind]
  refine Toll.bind (N := 0) (M := 0) (getReceiverCached_toll hs') (fun a s' _ hs' => ?_)
  exact Toll.ret hs'

theorem bootReceiver_toll {E : Env T} (ht : Threads E.thr) (hm : ModerateBuckets h) (b : Int) : ∀ (k i : Nat) (s : VState T), i + k = 4 → RFit s → Row i s →
    Coherent h s.mpfss → (∀ k < i, ¬ b + bucketsOf h k + seedOf k ≤ outputOf k) →
    Toll P h (bootReceiver E b k i s) (∑ r ∈ Finset.Ico i (rowFor h b), (seedFee P E + receiverFee P E.fl h (noiseOf r) (seedOf (r + 1) + bucketsOf h (r + 1)))) := by
  intro k
  induction k with
  | zero =>
    intro i s hi _ _ hc hs
    rw [rowFor_eq (by omega) hs (.inl (by omega)), Finset.Ico_self, Finset.sum_empty]
    exact Toll.ret hc
  | succ k ih =>
    intro i s hi hf hr hc hs
    obtain ⟨hi4, en⟩ := noise_row hr.1
    have ev := seed_row hr.2
    have hh : s.mpfss.hasher = h := hc.hasher
    have em : s.mpfssSize = bucketsOf h i := numBuckets_row hm hi4 (by have := hf.buckets; rwa [hh, en] at this)
    unfold bootReceiver
    rw [VM.get_bind]
    refine Toll.liftBind hc (fun o ho => Toll.liftBind hc (fun need hneed => ?_))
    have hneed : need = b + s.voleSize + s.mpfssSize := by
      obtain ⟨x, h1, h2⟩ := Out.bind_eq_ok.1 hneed
      rw [i64_eq h2, i64_eq h1]
    have eo := output_row ho
    rw [em, ev] at hneed
    split
    · next hge =>
      rw [rowFor_eq (i := i) hi4 hs (.inr (by omega)), Finset.Ico_self, Finset.sum_empty]
      exact Toll.ret hc
    next hge =>
    have hs' : ∀ k < i + 1, ¬ b + bucketsOf h k + seedOf k ≤ outputOf k := by
      intro k' hk'
      by_cases hk : k' = i
      · subst hk; omega
      · exact hs k' (by omega)
    have hgt : i < rowFor h b := rowFor_gt (by omega) (fun k' hk' => hs' k' (by omega))
    refine Toll.liftBind hc (fun nv hnv => Toll.liftBind hc (fun nn hnn => Toll.liftBind hc (fun nm hnm => Toll.liftBind hc (fun out hout => ?_))))
    have hout := i32_eq hout
    obtain ⟨hi5, enn⟩ := noise_row hnn
    have env := seed_row hnv
    have enm : nm = bucketsOf h (i + 1) := numBuckets_row hm hi5 (by rwa [hh, enn] at hnm)
    obtain ⟨hb0, hb1⟩ := hm i hi4
    rw [Finset.sum_eq_sum_Ico_succ_bot hgt, Nat.add_assoc]
    have eout : out = ((seedOf (i + 1) + bucketsOf h (i + 1) : Nat) : Int) := by rw [hout, env, enm]; push_cast; rfl
    have hl1 := precomputeCommon_loc E out s
    refine Toll.bind (precomputeCommon_toll ht out hc) (fun _ s1 hr1 hc1 => ?_)
    obtain ⟨st, code, pos, rfl, hst, hrows, hcols⟩ := hl1.ok hr1
    have hl2 := expandReceiver_loc E out nv nm { s with mpfss := st, code := code, pos := pos }
    rw [eout] at hl2 ⊢
    refine Toll.bind (expandReceiver_toll ht hb1 nv nm hc1 en) (fun _ s2 hr2 hc2 => ?_)
    have hx := hl2.ok hr2
    rw [VM.modify_bind]
    have hfit : RFit { s2 with noise := nn } := by
      constructor
      · exact hx.vol.trans hx.voleSize.symm
      · exact hx.mp.trans hx.mpfssSize.symm
      · dsimp only
        rw [hx.hasher, hx.mpfssSize]
        dsimp only
        rw [hst]; exact hnm
      · exact hx.vdelta.trans hx.delta.symm
      · exact hx.mdelta.trans hx.delta.symm
    exact ih (i + 1) { s2 with noise := nn } (by omega) hfit ⟨hnn, hx.voleSize ▸ hnv⟩ hc2 hs'

theorem i32_lt {x n : Int} (h : i32 x = .ok n) : n < 2 ^ 31 := by
  unfold i32 at h
  split at h
  · cases h
  · cases h; omega

theorem startPrecompute_lt (s : VState T) : Loc (startPrecompute s) (fun n _ => n < 2 ^ 31) (fun _ _ => True) := by
  unfold startPrecompute
  rw [VM.modify_bind]
  refine Loc.liftBind (fun _ _ => ?_) (fun _ _ => True.intro)
  refine Loc.liftBind (fun _ _ => ?_) (fun _ _ => True.intro)
  rw [VM.modify_bind, VM.get_bind]
  refine Loc.liftBind (fun _ _ => ?_) (fun _ _ => True.intro)
  rw [VM.modify_bind]
  exact Loc.lift (fun n hn => i32_lt hn) (fun _ _ => True.intro)

set_option maxHeartbeats 1000000 in
theorem precomputeReceiver_toll {E : Env T} (ht : Threads E.thr) (hm : ModerateBuckets h) (b : Int) (d : T) {s : VState T} (hc : Coherent h s.mpfss) :
    Toll P h (precomputeReceiver E b d s) (precomputeReceiverFee P E h b) := by
  unfold precomputeReceiver
  split
  · exact Toll.fail hc (by intro a e; cases e)
  rw [← Nat.zero_add (precomputeReceiverFee P E h b)]
  refine Toll.bind (startPrecompute_toll hc) (fun n s1 hr1 hc1 => ?_)
  obtain ⟨m, hmm, hn, rfl⟩ := (startPrecompute_loc s).ok hr1
  have em : m = bucketsOf h 0 := numBuckets_row hm (by omega) (by rw [hc.hasher] at hmm; exact hmm)
  have en : n.toNat = seedOf 0 + bucketsOf h 0 := by rw [hn, em]; simp only [seedOf]; omega
  have hlt : n < 2 ^ 31 := (startPrecompute_lt s).ok hr1
  unfold precomputeReceiverFee
  generalize seedOf 0 + bucketsOf h 0 = n0 at en ⊢
  rw [VM.draw_bind]
  refine Toll.liftBind hc (fun w hw => ?_)
  rw [VM.modify_bind]
  obtain ⟨hn0, hw⟩ := vecOf_ok hw
  have lw : w.length = n.toNat := by rw [hw]; simp
  refine Toll.runBind hc ?_ (fun w1 hw1 => ?_)
  · rw [← en, ← lw]
    exact Gilboa.value_fee E.c E.sec d (by omega)
  have lw1 : w1.length = n.toNat := (gilboa_len hw1).trans lw
  rw [VM.modify_bind]
  rw [← Nat.zero_add (bootFee P E h (receiverFee P E.fl h) b)]
  refine Toll.runBind hc (Fee.recv (fun m => Fee.ret)) (fun mm _ => ?_)
  refine Toll.liftBind hc (fun w2 _ => Toll.liftBind hc (fun w3 hw3 => ?_))
  have lw3 : w3.length = n.toNat := (vecOp_len hw3).1.trans lw1
  rw [VM.modify_bind, VM.get_bind]
  dsimp only
  refine Toll.getReceiverBind hc (fun rest a hg => ?_)
  rw [VM.modify_bind]
  refine Toll.getReceiverBind hc (fun rest2 c hg2 => ?_)
  rw [VM.modify_bind]
  obtain ⟨g1, g2, rfl, rfl⟩ := getReceiver_ok hg
  obtain ⟨g4, g5, rfl, rfl⟩ := getReceiver_ok hg2
  dsimp only at g2 g5 ⊢
  generalize hs4 : ({ s with batch := 0, noise := 98, voleSize := 1589, mpfssSize := m, pos := _, rCached := _, rVole := _, rMpfss := _, rMade := _, rUsed := _ } : VState T) = s4
  have hfit : RFit s4 := by
    subst hs4
    simp only [List.length_take] at g2 g5
    constructor
    · simp only [List.length_drop]; omega
    · simp only [List.length_drop, List.length_take]; omega
    · exact hmm
    · rfl
    · rfl
  have hrow : Row 0 s4 := by subst hs4; exact ⟨rfl, rfl⟩
  have hc4 : Coherent h s4.mpfss := by subst hs4; exact hc
  clear hs4
  unfold bootFee
  refine Toll.bind (N := ∑ i ∈ Finset.range (rowFor h b), (seedFee P E + receiverFee P E.fl h (noiseOf i) (seedOf (i + 1) + bucketsOf h (i + 1)))) ?_ (fun _ s5 _ hc5 => ?_)
  · rw [Finset.range_eq_Ico]
    exact bootReceiver_toll ht hm b _ 0 s4 rfl hfit hrow hc4 (fun k hk => by omega)
  · refine Toll.bind (M := 0) (finishPrecompute_toll ht b hc5) (fun _ s6 _ hc6 => ?_)
    exact Toll.ret hc6

theorem precomputeReceiver'_toll {E : Env T} (ht : Threads E.thr) (hm : ModerateBuckets h) (b : Int) {s : VState T} (hc : Coherent h s.mpfss) :
    Toll P h (precomputeReceiver' E b s) (precomputeReceiverFee P E h b) := by
  unfold precomputeReceiver'
  rw [VM.draw_bind]
  exact precomputeReceiver_toll ht hm b _ hc

theorem receiverStep_toll {n : Int} {res : RRes T} {copied : Nat} {s : VState T} (hc : Coherent h s.mpfss) : Toll P h ((
        if (copied : Int) + s.rCached.w.length ≤ n then do
          let w ← VM.lift (setSeg res.w copied s.rCached.w)
          VM.modify (fun s => { s with rCached := { s.rCached with w := [], ids := [] } })
          pure (⟨w, res.delta, putIds res.ids copied s.rCached.ids⟩, copied + s.rCached.w.length)
        else do
          let remaining := n - copied
          let c ← getReceiverCached remaining
          let w ← VM.lift (setTail res.w remaining c.w)
          pure (⟨w, res.delta, putIds res.ids copied c.ids⟩, n.toNat) : VM T (RRes T × Nat)) s) 0 := by
  split
  · refine Toll.liftBind hc (fun u _ => ?_)
    rw [VM.modify_bind]
    exact Toll.ret hc
  · refine Toll.bind (N := 0) (M := 0) (getReceiverCached_toll hc) (fun c s' _ hc' => ?_)
    exact Toll.liftBind hc' (fun u _ => Toll.ret hc')

theorem runReceiverLoop_toll {E : Env T} (ht : Threads E.thr) (n b t o : Nat) (hb : 1 ≤ b) (hbk : h.optimal t < 2 ^ 31) (f : Nat) :
    ∀ (res : RRes T) (copied : Nat) (s : VState T), RReady s → s.batch = b → s.noise = t → s.batch + s.voleSize + s.mpfssSize = o → copied ≤ n → Coherent h s.mpfss →
    Toll P h (runReceiverLoop E n f res copied s) (cdiv (n - copied - s.rCached.w.length) b * receiverFee P E.fl h t o) := by
  induction f with
  | zero => intro res copied s _ _ _ _ _ hc; exact Toll.fail hc (by intro a e; cases e)
  | succ f ih =>
    intro res copied s hs hbat hno ho hle hc
    unfold runReceiverLoop
    by_cases h1 : (copied : Int) < n
    · rw [if_pos h1, VM.get_bind]
      have hl := receiverStep_ready (F := fun _ _ => True) n res copied s hs h1 (fun _ _ _ _ _ _ _ => True.intro)
      rw [← Nat.zero_add (cdiv (n - copied - s.rCached.w.length) b * receiverFee P E.fl h t o)]
      refine Toll.bind (receiverStep_toll hc) ?_
      rintro ⟨r, c⟩ s1 hr1 hc1
      obtain ⟨h1, h2, h2l, h3, h4⟩ := hl.ok hr1
      dsimp only at h3 ⊢
      have hno1 : s1.noise = t := h2.noise.trans hno
      have ho1 : s1.batch + s1.voleSize + s1.mpfssSize = o := by rw [h2.batch, h2.vole, h2.mpfss, ho]
      by_cases h5 : (c : Int) < n
      · rw [if_pos h5, VM.get_bind, ho1]
        have hl2 := expandReceiver_loc E o s1.voleSize s1.mpfssSize s1
        rw [cdiv_step hb (by omega), Nat.succ_mul, Nat.add_comm]
        refine Toll.bind (expandReceiver_toll ht hbk _ _ hc1 hno1) (fun _ s2 hr2 hc2 => ?_)
        have hx := hl2.ok hr2
        obtain ⟨h6, h7⟩ := hx.ready h1
        have hu := hx.w
        have hbb := h2.batch
        have hc2' : s2.rCached.w.length = b := by omega
        have := ih r c s2 h6 (h7.batch.trans (h2.batch.trans hbat)) (h7.noise.trans hno1) (by rw [h7.batch, h7.vole, h7.mpfss, ho1]) (by omega) hc2
        rw [hc2'] at this
        rwa [show n - copied - s.rCached.w.length - b = n - c - b by omega]
      · rw [if_neg h5]
        have := ih r c s1 h1 (h2.batch.trans hbat) hno1 ho1 (by omega) hc1
        rw [show n - c - s1.rCached.w.length = 0 by omega, cdiv_zero hb, Nat.zero_mul] at this
        rw [show n - copied - s.rCached.w.length = 0 by omega, cdiv_zero hb, Nat.zero_mul]
        exact this
    · rw [if_neg h1, show n - copied - s.rCached.w.length = 0 by omega, cdiv_zero hb, Nat.zero_mul]
      exact Toll.ret hc

theorem receiverRest_toll {E : Env T} (ht : Threads E.thr) (n b t o : Nat) (hb : 1 ≤ b) (hbk : h.optimal t < 2 ^ 31) {s : VState T}
    (hs : RReady s) (hbat : s.batch = b) (hno : s.noise = t) (ho : s.batch + s.voleSize + s.mpfssSize = o) (hc : Coherent h s.mpfss) :
    Toll P h (receiverRest E n s) (cdiv (n - s.rCached.w.length) b * receiverFee P E.fl h t o) := by
  rcases receiverRest_cases E n s with ⟨rest, res, hg, e⟩ | ⟨hg, e⟩ | ⟨-, w, e⟩
  · rw [e]
    obtain ⟨g1, g2, rfl, -⟩ := getReceiver_ok hg
    rw [show n - s.rCached.w.length = 0 by omega, cdiv_zero hb, Nat.zero_mul]
    exact Toll.ret hc
  · rw [e]
    exact runReceiverLoop_toll ht n b t o hb hbk _ _ 0 { s with pos := s.pos + 1 } (hs.adj s.mpfss _ rfl) hbat hno ho (by omega) hc
  · rw [e]; exact Toll.fail hc (by intro a e; cases e)

end DVO.VOLE
