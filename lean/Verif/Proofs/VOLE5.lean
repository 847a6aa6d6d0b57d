/-
Vector OLE: precomputation by two parties, continued.
-/
import Verif.Proofs.VOLE4

namespace DVO.VOLE
open Net MPFSS
set_option linter.unusedSectionVars false
variable {T : Type} [Scalar T] [LawfulScalar T] {P : Out Unit → Prop} {h : Cuckoo.Hasher} {A B : Env T}

theorem goodLength {n : Nat} (h0 : 1 ≤ n) (hn : n < 10029521) : Gilboa.GoodLength T n := by
  have hs := Gilboa.stride_pos T
  have h1 := LawfulScalar.size_pos (T := T)
  have h2 := LawfulScalar.size_le (T := T)
  have hst : Gilboa.stride T ≤ 16 := by unfold Gilboa.stride; exact Nat.div_le_self _ _
  have hw : Gilboa.bitWidth T ≤ 128 := by unfold Gilboa.bitWidth; omega
  refine ⟨by omega, ?_⟩
  have hq : (n + Gilboa.stride T - 1) / Gilboa.stride T ≤ n := by
    apply Nat.div_le_of_le_mul
    have : n * 1 + (Gilboa.stride T - 1) * 1 ≤ n * 1 + (Gilboa.stride T - 1) * n :=
      Nat.add_le_add_left (Nat.mul_le_mul_left _ h0) _
    have e : Gilboa.stride T * n = n * 1 + (Gilboa.stride T - 1) * n := by
      obtain ⟨k, hk⟩ : ∃ k, Gilboa.stride T = k + 1 := ⟨Gilboa.stride T - 1, by omega⟩
      rw [hk]; simp; ring
    omega
  calc Gilboa.bitWidth T * ((n + Gilboa.stride T - 1) / Gilboa.stride T) ≤ 128 * n := Nat.mul_le_mul hw hq
    _ < 2 ^ 31 := by omega

/-- The first correlations. -/
theorem base_correlated (sec : Sec) (m0 : Nat → Block) (rnd : Nat → List T) (d : T) {u v : List T} (h : u.length = v.length) :
    Correlated d u v (List.zipWith (· + ·) (Gilboa.valueOut sec m0 rnd d u)
      (List.zipWith (· + ·) (Gilboa.vectorOut sec m0 rnd u.length) v)) := by
  have l1 : (Gilboa.valueOut sec m0 rnd d u).length = u.length := by simp [Gilboa.valueOut]
  have l2 : (Gilboa.vectorOut sec m0 rnd u.length).length = u.length := by simp [Gilboa.vectorOut]
  refine correlated_of h (by simp; omega) ?_
  intro k a b c ha hb hc
  have hk := (List.getElem?_eq_some_iff.1 ha).1
  obtain ⟨x, y, hx, hy, hxy⟩ := Gilboa.out_add sec m0 rnd d u hk
  rw [List.getElem?_eq_getElem hk, Option.some.injEq] at ha
  simp only [List.getElem?_zipWith, hx, hy, hb, Option.some.injEq] at hc
  rw [← hc, ← ha, show y + (x + b) = (x + y) + b by ring, hxy]
  ring

/-- What holds after a precomputation. -/
structure Fresh (h : Cuckoo.Hasher) (d : T) (batch : Int) (s r : VState T) : Prop where
  cohS : Coherent h s.mpfss
  cohR : Coherent h r.mpfss
  ready : ∃ t v b, Ready h s t v b ∧ Ready h r t v b ∧ s.sVole.u.length = v ∧ (s.sMpfss.u.length : Int) = h.optimal t ∧
    (b : Int) = min batch (10616092 - h.optimal t - v)
  code : r.code = s.code
  cached : Corr d s.sCached r.rCached
  vole : Corr d s.sVole r.rVole
  mpfss : Corr d s.sMpfss r.rMpfss
  empty : s.sCached.u.length = 0
  doneS : s.sDone = true
  doneR : r.rDone = true
  log : s.log = r.log

/-- `precomputeSender` up to and including the bootstrapping loop. -/
def frontSender (E : Env T) (batchSize : Int) : VM T Unit := do
  if batchSize < 1 then VM.lift (.err .invalidArgument "`batch_size` must be positive") else
  let n ← startPrecompute
  let rw ← VM.draw E
  let w ← VM.lift (vecOf rw n)
  let ru ← VM.draw E
  let u ← VM.lift (vecOf ru n)
  let rv ← VM.draw E
  let v ← VM.lift (vecOf rv n)
  VM.modify (fun s => { s with sCached := ⟨u, v, freshIds s.sMade.length n.toNat⟩, sMade := s.sMade ++ List.zip u v })
  let w ← VM.run (Gilboa.runVectorProvider E.c E.sec rw.m0 rw.rnd u w)
  let w ← VM.lift (vecOp (· + ·) w v)
  VM.run (PM.send E.c.main (.elems w))
  let s ← VM.get
  let a ← getSenderCached s.voleSize
  VM.modify (fun s => { s with sVole := a, sUsed := s.sUsed ++ a.ids })
  let b ← getSenderCached s.mpfssSize
  VM.modify (fun s => { s with sMpfss := b, sUsed := s.sUsed ++ b.ids })
  bootSender E batchSize (seedSizes.length - 1) 0

/-- `precomputeReceiver` up to and including the bootstrapping loop. -/
def frontReceiver (E : Env T) (batchSize : Int) (delta : T) : VM T Unit := do
  if batchSize < 1 then VM.lift (.err .invalidArgument "`batch_size` must be positive") else
  let n ← startPrecompute
  let r ← VM.draw E
  let w ← VM.lift (vecOf r n)
  VM.modify (fun s => { s with rCached := ⟨w, delta, List.replicate n.toNat none⟩ })
  let w ← VM.run (Gilboa.runValueProvider E.c E.sec delta w)
  VM.modify (fun s => { s with rCached := { s.rCached with w := w } })
  let m ← VM.run (PM.recv E.c.main)
  let w2 ← VM.lift (PM.unElems m)
  let w ← VM.lift (vecOp (· + ·) w w2)
  VM.modify (fun s => { s with rCached := ⟨w, delta, freshIds s.rMade.length n.toNat⟩, rMade := s.rMade ++ w })
  let s ← VM.get
  let a ← getReceiverCached s.voleSize
  VM.modify (fun s => { s with rVole := a, rUsed := s.rUsed ++ a.ids })
  let b ← getReceiverCached s.mpfssSize
  VM.modify (fun s => { s with rMpfss := b, rUsed := s.rUsed ++ b.ids })
  bootReceiver E batchSize (seedSizes.length - 1) 0

omit [LawfulScalar T] in
theorem precomputeSender_eq (E : Env T) (batch : Int) : precomputeSender E batch = (do
    frontSender E batch
    finishPrecompute E batch
    VM.modify (fun s => { s with sDone := true })) := by
  unfold precomputeSender frontSender
  split
  · rfl
  · simp only [VM.bind_assoc]

omit [LawfulScalar T] in
theorem precomputeReceiver_eq (E : Env T) (batch : Int) (d : T) : precomputeReceiver E batch d = (do
    frontReceiver E batch d
    finishPrecompute E batch
    VM.modify (fun s => { s with rDone := true })) := by
  unfold precomputeReceiver frontReceiver
  split
  · rfl
  · simp only [VM.bind_assoc]

set_option maxHeartbeats 1000000 in
theorem front_pair {M N : Nat} (hP : ∀ o, Expected o → ¬ (SmoothTo M N h A ∧ SmoothTo M N h B) → P o) (W : Together h A B) {batch : Int} (hb1 : batch < 2 ^ 62)
    (hE : Enough h batch M N) (hbad : 1 ≤ batch ∨ P (.err .invalidArgument "`batch_size` must be positive")) {d : T}
    {s r : VState T} (hs : Coherent h s.mpfss) (hr : Coherent h r.mpfss) (hlog : s.log = r.log) :
    Pair P (frontSender A batch s) (frontReceiver B batch d r)
      (fun _ s' _ r' => 1 ≤ batch ∧ (∃ j t v, Boot h d j t v s' r') ∧ SFrame s s' ∧ RFrame r r' ∧ s'.sDone = s.sDone ∧ r'.rDone = r.rDone) := by
  unfold frontSender frontReceiver
  by_cases hb0 : batch < 1
  · rw [if_pos hb0]
    exact Pair.failL (hbad.resolve_left (by omega))
  have hm : ((98 : Nat) : Int) ∈ noiseSizes := by simp [noiseSizes]
  have hp := W.optimal_pos hm
  have hl := W.optimal_lt hm
  obtain ⟨b, hb⟩ : ∃ b : Nat, (b : Int) = h.optimal 98 := ⟨(h.optimal 98).toNat, by omega⟩
  rw [if_neg hb0, if_neg hb0, start_bind W hs.hasher, start_bind W hr.hasher, ← hb,
    show (1589 : Int) + (b : Int) = ((1589 + b : Nat) : Int) by push_cast; rfl]
  rw [VM.draw_bind, vecOf_eq, VM.lift_ok_bind, VM.draw_bind, vecOf_eq, VM.lift_ok_bind, VM.draw_bind, vecOf_eq, VM.lift_ok_bind, VM.modify_bind]
  rw [VM.draw_bind, vecOf_eq, VM.lift_ok_bind, VM.modify_bind]
  dsimp only
  rw [W.chans, W.sec]
  have hu : ((List.range (1589 + b)).map (A.rand (s.pos + 1)).elems).length = 1589 + b := by simp
  have hv : ((List.range (1589 + b)).map (A.rand (s.pos + 1 + 1)).elems).length = 1589 + b := by simp
  have hw : ((List.range (1589 + b)).map (A.rand s.pos).elems).length = 1589 + b := by simp
  have hx : ((List.range (1589 + b)).map (B.rand r.pos).elems).length = 1589 + b := by simp
  generalize (List.range (1589 + b)).map (A.rand (s.pos + 1)).elems = u at *
  generalize (List.range (1589 + b)).map (A.rand (s.pos + 1 + 1)).elems = v at *
  generalize (List.range (1589 + b)).map (A.rand s.pos).elems = w at *
  generalize (List.range (1589 + b)).map (B.rand r.pos).elems = x at *
  refine Pair.bind (Pair.run (Gilboa.joint A.c A.sec (A.rand s.pos).m0 (A.rand s.pos).rnd d u w x (by omega) (by omega)
    (by rw [hu]; exact goodLength (by omega) (by omega)))) ?_
  rintro w1 s1 w2 r1 ⟨rfl, rfl, rfl, rfl⟩
  have hbase := base_correlated A.sec (A.rand s.pos).m0 (A.rand s.pos).rnd d (u := u) (v := v) (by omega)
  have l1 : (Gilboa.valueOut A.sec (A.rand s.pos).m0 (A.rand s.pos).rnd d u).length = u.length := by simp [Gilboa.valueOut]
  have l2 : (Gilboa.vectorOut A.sec (A.rand s.pos).m0 (A.rand s.pos).rnd u.length).length = u.length := by simp [Gilboa.vectorOut]
  generalize Gilboa.valueOut A.sec (A.rand s.pos).m0 (A.rand s.pos).rnd d u = y at *
  generalize Gilboa.vectorOut A.sec (A.rand s.pos).m0 (A.rand s.pos).rnd u.length = z at *
  rw [vecOp_eq (by omega), VM.lift_ok_bind, VM.run_send_bind, VM.modify_bind, VM.run_recv_bind]
  refine Pair.sendRecv ?_
  rw [show PM.unElems (Msg.elems (List.zipWith (· + ·) z v)) = .ok (List.zipWith (· + ·) z v) from rfl, VM.lift_ok_bind,
    vecOp_eq (by simp; omega), VM.lift_ok_bind, VM.modify_bind, VM.get_bind, VM.get_bind]
  dsimp only
  have lw := hbase.len_w
  generalize List.zipWith (· + ·) y (List.zipWith (· + ·) z v) = w' at *
  rw [show (1589 : Int) = ((1589 : Nat) : Int) from rfl]
  rw [getSenderCached_bind (by show _ ≤ u.length; omega) (by show _ ≤ v.length; omega), VM.modify_bind,
    getSenderCached_bind (by simp [SRes.rest]; omega) (by simp [SRes.rest]; omega), VM.modify_bind]
  rw [getReceiverCached_bind (by show _ ≤ w'.length; omega), VM.modify_bind, getReceiverCached_bind (by simp [RRes.rest]; omega), VM.modify_bind]
  dsimp only
  have hc : Corr d (⟨u, v, freshIds s.sMade.length (((1589 + b : Nat) : Int)).toNat⟩ : SRes T) ⟨w', d, freshIds r.rMade.length (((1589 + b : Nat) : Int)).toNat⟩ :=
    ⟨hbase, rfl⟩
  have hcu : (⟨u, v, freshIds s.sMade.length (((1589 + b : Nat) : Int)).toNat⟩ : SRes T).u.length = 1589 + b := hu
  generalize (⟨u, v, freshIds s.sMade.length (((1589 + b : Nat) : Int)).toNat⟩ : SRes T) = c at *
  generalize (⟨w', d, freshIds r.rMade.length (((1589 + b : Nat) : Int)).toNat⟩ : RRes T) = e at *
  refine (boot_pair hP W (d := d) (by omega) hb1 hE (seedSizes.length - 1) (i := 0) (t := 98) (v := 1589) rfl ?_).mono ?_
  · refine ⟨⟨rfl, rfl⟩, hs, hr, rfl, rfl, rfl, rfl, hb, hb, (hc.rest _).rest _, hc.last _, (hc.rest _).last _, ?_, ?_, ?_, hlog⟩
    · show ((c.rest 1589).rest b).u.length = 0
      rw [SRes.rest_len, SRes.rest_len]; omega
    · show (c.last 1589).u.length = 1589
      rw [SRes.last_len (by omega)]
    · show (((c.rest 1589).last b).u.length : Int) = _
      rw [SRes.last_len (by rw [SRes.rest_len]; omega), hb]
  rintro - s2 - r2 ⟨h1, f1, f2, g1, g2⟩
  exact ⟨by omega, h1, ⟨f1.1, f1.2, f1.3, f1.4⟩, ⟨f2.1, f2.2, f2.3, f2.4⟩, g1, g2⟩

theorem precompute_pair_to {M N : Nat} (hP : ∀ o, Expected o → ¬ (SmoothTo M N h A ∧ SmoothTo M N h B) → P o) (W : Together h A B) {batch : Int} (hb1 : batch < 2 ^ 62)
    (hE : Enough h batch M N) (hM : ∀ i t v, IsRow i t v → min batch (10616092 - h.optimal t - v) + v + h.optimal t ≤ M)
    (hbad : 1 ≤ batch ∨ P (.err .invalidArgument "`batch_size` must be positive")) {d : T}
    {s r : VState T} (hs : Coherent h s.mpfss) (hr : Coherent h r.mpfss) (hlog : s.log = r.log) :
    Pair P (precomputeSender A batch s) (precomputeReceiver B batch d r)
      (fun _ s' _ r' => 1 ≤ batch ∧ Fresh h d batch s' r' ∧ SFrame s s' ∧ RFrame r r') := by
  rw [precomputeSender_eq, precomputeReceiver_eq]
  refine Pair.bind (front_pair hP W hb1 hE hbad hs hr hlog) ?_
  rintro - s2 - r2 ⟨h0, ⟨j, t', v', H⟩, f1, f2, -, -⟩
  refine Pair.bind (finish_pair hP W h0 H (hM _ _ _ H.row)) ?_
  rintro - s3 - r3 ⟨b', st, st', cd, p, q, h1, h2, rfl, rfl, hbb, R1, R2⟩
  refine Pair.ret ⟨by omega, ⟨h1, h2, ?_, rfl, H.cached, H.vole, H.mpfss, H.empty, rfl, rfl, H.log⟩, ?_, ?_⟩
  · refine ⟨t', v', b'.toNat, ⟨R1.1, R1.2, R1.3, R1.4, R1.5, R1.6, R1.7, R1.8⟩, ⟨R2.1, R2.2, R2.3, R2.4, R2.5, R2.6, R2.7, R2.8⟩, H.lenV, H.lenM, ?_⟩
    have := R1.pos
    omega
  · exact ⟨f1.1, f1.2, f1.3, f1.4⟩
  · exact ⟨f2.1, f2.2, f2.3, f2.4⟩

theorem precompute_pair (hP : ∀ o, Expected o → ¬ (Smooth h A ∧ Smooth h B) → P o) (W : Together h A B) {batch : Int} (hb1 : batch < 2 ^ 62)
    (hbad : 1 ≤ batch ∨ P (.err .invalidArgument "`batch_size` must be positive")) {d : T}
    {s r : VState T} (hs : Coherent h s.mpfss) (hr : Coherent h r.mpfss) (hlog : s.log = r.log) :
    Pair P (precomputeSender A batch s) (precomputeReceiver B batch d r)
      (fun _ s' _ r' => 1 ≤ batch ∧ Fresh h d batch s' r' ∧ SFrame s s' ∧ RFrame r r') :=
  precompute_pair_to (M := 10616092) (N := 10616092) (fun o h1 h2 => hP o h1 (fun S => h2 ⟨S.1.to, S.2.to⟩)) W hb1 (.all W _)
    (by intro i t v _; push_cast; omega) hbad hs hr hlog

end DVO.VOLE
