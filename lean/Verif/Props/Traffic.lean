/-
C75: the amount of communication.
-/
import Verif.Proofs.Traffic5
import Verif.Props.Formulas
import Verif.Props.VOLELocal3

set_option linter.unusedSectionVars false

namespace DVO
variable {T : Type} [Scalar T]

/-- C75: the sender of known-index OT pays for one oblivious transfer for each level of each tree, and for two
    blocks, however large the outputs are; with any peer. -/
theorem C75_rot_sender (P : Price) (aes fl c sec key seed) (outputs : List (List T)) :
    Costs P Out.IsOk (ROT.runSenderBatched aes fl c sec key seed outputs) (P.ot * (outputs.map (fun o => treeOTs fl o.length)).sum + P.block * 2) :=
  (ROT.runSenderBatched_fee aes fl c sec key seed outputs).costs

/-- C75: the receiver pays for the same oblivious transfers and sends nothing. -/
theorem C75_rot_receiver (P : Price) (aes fl c is) (outputs : List (List T)) :
    Costs P Out.IsOk (ROT.runReceiverBatched aes fl c is outputs) (P.ot * (outputs.map (fun o => treeOTs fl o.length)).sum) :=
  (ROT.runReceiverBatched_fee aes fl c is outputs).costs

/-- C75: single-point function secret sharing adds one element for each output, sent by the value provider. -/
theorem C75_spfss_value (P : Price) (aes fl c sec key seed) (shares : List T) (outputs : List (List T)) :
    Costs P Out.IsOk (SPFSS.runValueProviderBatched aes fl c sec key seed shares outputs)
      (P.ot * (outputs.map (fun o => treeOTs fl o.length)).sum + P.block * 2 + P.elem * outputs.length) :=
  (SPFSS.runValueProviderBatched_fee aes fl c sec key seed shares outputs).costs

/-- C75: the index provider sends nothing of its own. -/
theorem C75_spfss_index (P : Price) (aes fl c) (shares : List T) (is) (outputs : List (List T)) :
    Costs P Out.IsOk (SPFSS.runIndexProviderBatched aes fl c shares is outputs) (P.ot * (outputs.map (fun o => treeOTs fl o.length)).sum) :=
  (SPFSS.runIndexProviderBatched_fee aes fl c shares is outputs).costs

/-- C75: the value provider of multi-point function secret sharing pays for the trees of all the buckets, two
    blocks, and one element per bucket, in every state of the object. -/
theorem C75_mpfss_value (P : Price) {h : Cuckoo.Hasher} {st : MPFSS.State} (hr : MPFSS.Reached T h st) (aes fl c sec key seed) {thr : Nat → List Nat}
    (ht : MPFSS.Threads thr) (x : T) {t : Nat} (hb : h.optimal t < 2 ^ 31) (w output : List T) :
    Costs P MPFSS.Res.Good (MPFSS.runValueProviderVectorOLE aes fl c sec key seed thr st x t w output)
      (P.ot * MPFSS.bucketOTs fl h t output.length + P.block * 2 + P.elem * (h.optimal t).toNat) :=
  (MPFSS.value_fee aes fl c sec key seed ht hr.coherent x hb w output).costs

/-- C75: the index provider sends one masked element per bucket. -/
theorem C75_mpfss_index (P : Price) {h : Cuckoo.Hasher} {st : MPFSS.State} (hr : MPFSS.Reached T h st) (aes fl c) {thr : Nat → List Nat}
    (ht : MPFSS.Threads thr) {y : List T} (hy : y.length < 2 ^ 31) (hb : h.optimal y.length < 2 ^ 31) (is : List Int) (u v output : List T) :
    Costs P MPFSS.Res.Good (MPFSS.runIndexProviderVectorOLE aes fl c thr st y is u v output)
      (P.elem * (h.optimal y.length).toNat + P.ot * MPFSS.bucketOTs fl h y.length output.length) :=
  (MPFSS.index_fee aes fl c ht hr.coherent hy hb is u v output).costs

/-- C75: Gilboa's multiplication needs as many oblivious transfers as an element has bits for every 16 bytes of the
    vector, and sends nothing else. -/
theorem C75_gilboa_vector (P : Price) (c : Chans) (sec : Sec) (m0 : Nat → Block) (rnd : Nat → List T) (y output : List T) :
    Costs P Out.IsOk (Gilboa.runVectorProvider c sec m0 rnd y output) (P.ot * Gilboa.productOTs T output.length) :=
  (Gilboa.vector_fee c sec m0 rnd y output).costs

/-- C75: the same for the party with the single value. -/
theorem C75_gilboa_value (P : Price) (c : Chans) (sec : Sec) (x : T) {output : List T} (ho : output.length < 2 ^ 31) :
    Costs P Out.IsOk (Gilboa.runValueProvider c sec x output) (P.ot * Gilboa.productOTs T output.length) :=
  (Gilboa.value_fee c sec x ho).costs

namespace VOLE
open MPFSS

/-- C75: `PrecomputeSender(b)`, in every state that an object can reach and with any peer. -/
theorem C75_precompute_sender (P : Price) {E : Env T} {h : Cuckoo.Hasher} {junk : T} {l : List (Op T × Out (Answer T))} {s : VState T}
    (ht : Threads E.thr) (hm : ModerateBuckets h) (hl : Lives E (created h junk) l s) (b : Int) :
    Costs P (fun r => r.1.IsOk) (precomputeSender E b s) (precomputeSenderFee P E h b) :=
  (precomputeSender_toll ht hm b (hl.coherent ht (Coherent.new h))).costs

/-- C75: `PrecomputeReceiver(b, d)`. -/
theorem C75_precompute_receiver (P : Price) {E : Env T} {h : Cuckoo.Hasher} {junk : T} {l : List (Op T × Out (Answer T))} {s : VState T}
    (ht : Threads E.thr) (hm : ModerateBuckets h) (hl : Lives E (created h junk) l s) (b : Int) (d : T) :
    Costs P (fun r => r.1.IsOk) (precomputeReceiver E b d s) (precomputeReceiverFee P E h b) :=
  (precomputeReceiver_toll ht hm b d (hl.coherent ht (Coherent.new h))).costs

/-- The row of the parameters in a state after a precomputation. -/
theorem row_of {h : Cuckoo.Hasher} (hm : ModerateBuckets h) {s : VState T} (hh : s.mpfss.hasher = h) {i : Nat} (hr : Row i s)
    (hb : numBuckets s.mpfss.hasher s.noise = .ok s.mpfssSize) : i ≤ 4 ∧ s.noise = noiseOf i ∧ s.voleSize = seedOf i ∧ s.mpfssSize = bucketsOf h i := by
  obtain ⟨h1, h2⟩ := noise_row hr.1
  exact ⟨h1, h2, seed_row hr.2, numBuckets_row hm h1 (by rwa [hh, h2] at hb)⟩

/-- C75: an object that is always the sender, after a precomputation: `RunSender(n)` pays for
    `⌈(n - cached) / batch_size⌉` expansions. An attempt that fails has cost no more than that. -/
theorem C75_run_sender (P : Price) {E : Env T} {h : Cuckoo.Hasher} {junk : T} {l : List (Op T × Out (Answer T))} {s : VState T}
    (ht : Threads E.thr) (hm : ModerateBuckets h) (hl : Lives E (created h junk) l s) (hrole : ∀ x ∈ l, x.1.fwd = true)
    (hpre : ∀ x ∈ l, (∃ f n, x.1 = .run f n) ∨ ∃ a, x.2 = .ok a) (hd : s.sDone = true) {n b : Nat} (hb : 1 ≤ b) (hbat : s.batch = b) :
    ∃ i ≤ 4, s.noise = noiseOf i ∧ b + seedOf i + bucketsOf h i ≤ outputOf i ∧
      Costs P (fun r => r.1.IsOk) (runSender E n s)
        ((n - s.sCached.u.length + b - 1) / b * senderFee P E.fl h (noiseOf i) (b + seedOf i + bucketsOf h i)) := by
  have hi := hl.sender (SInv.new h junk) hrole hpre
  obtain ⟨hready, i, o, hrow, ho, hle⟩ := hi.good hd
  obtain ⟨h1, h2, h3, h4⟩ := row_of hm hi.hasher hrow hready.buckets
  have eo := output_row ho
  refine ⟨i, h1, h2, by omega, ?_⟩
  rw [runSender_eq, if_pos hd]
  exact (senderRest_toll ht n b (noiseOf i) _ hb (noiseOf_lt i) (hm i h1).2 hready hbat h2 (by rw [hbat, h3, h4]; push_cast; rfl)
    (hl.coherent ht (Coherent.new h))).costs

/-- C75: the same for a receiver. -/
theorem C75_run_receiver (P : Price) {E : Env T} {h : Cuckoo.Hasher} {junk : T} {l : List (Op T × Out (Answer T))} {s : VState T}
    (ht : Threads E.thr) (hm : ModerateBuckets h) (hl : Lives E (created h junk) l s) (hrole : ∀ x ∈ l, x.1.fwd = false)
    (hpre : ∀ x ∈ l, (∃ f n, x.1 = .run f n) ∨ ∃ a, x.2 = .ok a) (hd : s.rDone = true) {n b : Nat} (hb : 1 ≤ b) (hbat : s.batch = b) :
    ∃ i ≤ 4, s.noise = noiseOf i ∧ b + seedOf i + bucketsOf h i ≤ outputOf i ∧
      Costs P (fun r => r.1.IsOk) (runReceiver E n s)
        ((n - s.rCached.w.length + b - 1) / b * receiverFee P E.fl h (noiseOf i) (b + seedOf i + bucketsOf h i)) := by
  have hi := hl.receiver (RInv.new h junk) hrole hpre
  obtain ⟨hready, i, o, hrow, ho, hle⟩ := hi.good hd
  obtain ⟨h1, h2, h3, h4⟩ := row_of hm hi.hasher hrow hready.buckets
  have eo := output_row ho
  refine ⟨i, h1, h2, by omega, ?_⟩
  rw [runReceiver_eq, if_pos hd]
  exact (receiverRest_toll ht n b (noiseOf i) _ hb (hm i h1).2 hready hbat h2 (by rw [hbat, h3, h4]; push_cast; rfl)
    (hl.coherent ht (Coherent.new h))).costs

/-- The row chosen by a precomputation. -/
theorem Chosen.rowFor {h : Cuckoo.Hasher} (hm : ModerateBuckets h) {b : Int} {s s' : VState T} (hc : Chosen b s s') (hh : s.mpfss.hasher = h)
    (hh' : s'.mpfss.hasher = h) (hb : numBuckets s'.mpfss.hasher s'.noise = .ok s'.mpfssSize) :
    rowFor h b ≤ 4 ∧ s'.noise = noiseOf (rowFor h b) ∧ s'.voleSize = seedOf (rowFor h b) ∧ s'.mpfssSize = bucketsOf h (rowFor h b) ∧ s'.batch = batchFor h b := by
  have hbat := hc.batch
  obtain ⟨j, l, hr, -, -, hl, hs⟩ := hc.row
  obtain ⟨h1, h2, h3, h4⟩ := row_of hm hh' hr hb
  have e : VOLE.rowFor h b = j := by
    refine rowFor_eq h1 (fun k hk => ?_) ?_
    · obtain ⟨o, t, v, m, a1, a2, a3, a4, a5⟩ := hs k hk
      obtain ⟨b1, b2⟩ := noise_row a2
      have b3 := numBuckets_row hm b1 (by rwa [hh, b2] at a4)
      have b4 := output_row a1
      have b5 := seed_row a3
      omega
    · refine hl.imp id ?_
      rintro ⟨o, ho, hle⟩
      have := output_row ho
      omega
  rw [e]
  refine ⟨h1, h2, h3, h4, ?_⟩
  unfold batchFor
  rw [hbat, e, h3, h4]

/-- C75: an object that has not made a precomputation. `RunSender(n)` pays for a precomputation with batch size `n`,
    and for `⌈n / batch_size⌉` expansions. -/
theorem C75_first_run_sender (P : Price) {E : Env T} {h : Cuckoo.Hasher} {junk : T} {l : List (Op T × Out (Answer T))} {s : VState T}
    (ht : Threads E.thr) (hm : ModerateBuckets h) (hl : Lives E (created h junk) l s) (hd : s.sDone = false) {n b : Nat} (hb : 1 ≤ b)
    (hbat : batchFor h n = b) : Costs P (fun r => r.1.IsOk) (runSender E n s) (precomputeSenderFee P E h n +
      (n + b - 1) / b * senderFee P E.fl h (noiseOf (rowFor h n)) (b + seedOf (rowFor h n) + bucketsOf h (rowFor h n))) := by
  have hc := hl.coherent ht (Coherent.new h)
  rw [runSender_eq, if_neg (by rw [hd]; decide)]
  refine (Toll.bind (precomputeSender_toll ht hm n hc) (fun _ s1 hr hc1 => ?_)).costs
  have hp := (precomputeSender_loc E n s).ok hr
  obtain ⟨h1, h2, h3, h4, h5⟩ := hp.chosen.rowFor hm hc.hasher hc1.hasher hp.ready.buckets
  rw [hbat] at h5
  have := senderRest_toll (P := P) ht n b (noiseOf (rowFor h n)) (b + seedOf (rowFor h n) + bucketsOf h (rowFor h n)) hb (noiseOf_lt _) (hm _ h1).2 hp.ready h5 h2
    (by rw [h5, h3, h4]; push_cast; rfl) hc1
  rwa [hp.empty, Nat.sub_zero] at this

/-- C75: the same for a receiver. -/
theorem C75_first_run_receiver (P : Price) {E : Env T} {h : Cuckoo.Hasher} {junk : T} {l : List (Op T × Out (Answer T))} {s : VState T}
    (ht : Threads E.thr) (hm : ModerateBuckets h) (hl : Lives E (created h junk) l s) (hd : s.rDone = false) {n b : Nat} (hb : 1 ≤ b)
    (hbat : batchFor h n = b) : Costs P (fun r => r.1.IsOk) (runReceiver E n s) (precomputeReceiverFee P E h n +
      (n + b - 1) / b * receiverFee P E.fl h (noiseOf (rowFor h n)) (b + seedOf (rowFor h n) + bucketsOf h (rowFor h n))) := by
  have hc := hl.coherent ht (Coherent.new h)
  rw [runReceiver_eq, if_neg (by rw [hd]; decide)]
  refine (Toll.bind (precomputeReceiver'_toll ht hm n hc) (fun _ s1 hr hc1 => ?_)).costs
  obtain ⟨d, hp⟩ := (precomputeReceiver'_loc E n s).ok hr
  obtain ⟨h1, h2, h3, h4, h5⟩ := hp.chosen.rowFor hm hc.hasher hc1.hasher hp.ready.buckets
  rw [hbat] at h5
  have := receiverRest_toll (P := P) ht n b (noiseOf (rowFor h n)) (b + seedOf (rowFor h n) + bucketsOf h (rowFor h n)) hb (hm _ h1).2 hp.ready h5 h2
    (by rw [h5, h3, h4]; push_cast; rfl) hc1
  rwa [hp.empty, Nat.sub_zero] at this

/-! ### In numbers -/

/-- The tree for a bucket with `n` elements needs few oblivious transfers. -/
theorem treeOTs_le {fl : Nat → Nat → Nat} (H : GGM.FaithfulDepth fl) (n : Nat) (hn : n ≤ 2 ^ 36) (c : Nat) (hc : c ≤ 36) : treeOTs fl n ≤ c + 1 + n / 2 ^ c := by
  unfold treeOTs
  split
  · exact Nat.zero_le _
  next h0 =>
  by_cases h1 : n ≤ 2 ^ c
  · have := GGM.C68_shallow H (n := n) (a := 2) (k := c) (by omega) (by omega) h1 (by omega)
    exact this.trans (Nat.le_add_right _ _)
  · have hpos := Nat.two_pow_pos c
    have hle := Nat.le_pow_clog (b := 2) (by omega) n
    have hlt := Nat.pow_pred_clog_lt_self (b := 2) (by omega) (x := n) (by omega)
    have hcl : Nat.clog 2 n ≤ 36 := Nat.clog_le_of_le_pow hn
    have := GGM.C68_shallow H (n := n) (a := 2) (k := Nat.clog 2 n) (by omega) (by omega) hle (by omega)
    have hgt : c < Nat.clog 2 n := (Nat.lt_clog_iff_pow_lt (by omega)).2 (by omega)
    obtain ⟨j, hj⟩ : ∃ j, Nat.clog 2 n = c + j + 1 := ⟨Nat.clog 2 n - c - 1, by omega⟩
    have h2 : j + 1 ≤ n / 2 ^ c := by
      rw [Nat.le_div_iff_mul_le hpos]
      have h3 : 2 ^ (c + j) < n := by rw [hj] at hlt; exact hlt
      have h4 : j + 1 ≤ 2 ^ j := Nat.lt_two_pow_self
      calc (j + 1) * 2 ^ c ≤ 2 ^ j * 2 ^ c := Nat.mul_le_mul_right _ h4
        _ = 2 ^ (c + j) := by rw [pow_add, Nat.mul_comm]
        _ ≤ n := h3.le
    generalize n / 2 ^ c = q at h2 ⊢
    omega

/-- C75: the number of oblivious transfers for `N` buckets with the indices below `m`, for all `c`: hardly more than
    `N` times the depth of an average tree. -/
theorem C75_transfers {fl : Nat → Nat → Nat} (H : GGM.FaithfulDepth fl) (h : Cuckoo.Hasher) {t m : Nat} (c : Nat) (hm : h.numHash * m ≤ 2 ^ 36) (hc : c ≤ 36) :
    bucketOTs fl h t m ≤ (c + 1) * (h.optimal t).toNat + h.numHash * m / 2 ^ c := by
  unfold bucketOTs
  rcases Nat.eq_zero_or_pos (h.optimal t).toNat with e | hp
  · rw [e]; simp
  generalize (h.optimal t).toNat = N at hp ⊢
  have hs := Cuckoo.total_size h.enc h.numHash hp ((List.range m).map (BitVec.ofNat 128))
  rw [List.length_map, List.length_range, List.map_map, Cuckoo.sum_map_range'] at hs
  rw [Cuckoo.sum_map_range', ← hs]
  have hle : ∀ b ∈ Finset.range N, (List.length ∘ Cuckoo.simpleBucket h.enc h.numHash N ((List.range m).map (BitVec.ofNat 128))) b ≤ 2 ^ 36 := fun b hb =>
    (Finset.single_le_sum (fun _ _ => Nat.zero_le _) hb).trans (hs.trans_le hm)
  change ∑ b ∈ Finset.range N, treeOTs fl ((List.length ∘ Cuckoo.simpleBucket h.enc h.numHash N ((List.range m).map (BitVec.ofNat 128))) b) ≤ _
  generalize List.length ∘ Cuckoo.simpleBucket h.enc h.numHash N ((List.range m).map (BitVec.ofNat 128)) = len at hle ⊢
  calc ∑ b ∈ Finset.range N, treeOTs fl (len b) ≤ ∑ b ∈ Finset.range N, (c + 1 + len b / 2 ^ c) := Finset.sum_le_sum (fun b hb => treeOTs_le H _ (hle b hb) c hc)
    _ = (c + 1) * N + ∑ b ∈ Finset.range N, len b / 2 ^ c := by rw [Finset.sum_add_distrib, Finset.sum_const, Finset.card_range, smul_eq_mul, Nat.mul_comm]
    _ ≤ _ := by
      refine Nat.add_le_add_left ?_ _
      rw [Nat.le_div_iff_mul_le (Nat.two_pow_pos c), Finset.sum_mul]
      exact Finset.sum_le_sum (fun b _ => Nat.div_mul_le_self _ _)

open Create in
theorem common_rows {bits : Sec → Nat → Nat → Nat → Bool} {optimal : Sec → Nat → Nat → Int} (H : Cuckoo.Faithful optimal) (Q : Party)
    (seed seed' : Block) (aes : Cipher) {f : ℚ} (h1 : 1 ≤ f) (h2 : f ≤ 2 ^ 128) {h : Cuckoo.Hasher} (hh : h = commonHasher bits optimal Q seed seed' (some f) aes) :
    h.numHash = 3 ∧ (∀ i ≤ 4, 0 < h.optimal (noiseOf i)) ∧ h.optimal 98 ≤ 500 ∧ h.optimal 198 ≤ 614 ∧ h.optimal 382 ≤ 1700 ∧ h.optimal 1254 ≤ 5600 ∧ h.optimal 1324 ≤ 5900 := by
  subst hh
  refine ⟨rfl, fun i hi => ?_, Cuckoo.C67_noise H (f := f * 3 * 2) (by linarith) (by linarith)⟩
  have := fun n hn => (common_buckets (bits := bits) H Q seed seed' aes h1 h2 n hn).1
  interval_cases i
  · exact this 98 (by simp [noiseSizes])
  · exact this 198 (by simp [noiseSizes])
  · exact this 382 (by simp [noiseSizes])
  · exact this 1254 (by simp [noiseSizes])
  · exact this 1324 (by simp [noiseSizes])

theorem productOTs_mono {n m : Nat} (h : n ≤ m) : Gilboa.productOTs T n ≤ Gilboa.productOTs T m :=
  Nat.mul_le_mul_left _ (Nat.div_le_div_right (by omega))

theorem rows_fee {fl : Nat → Nat → Nat} (Hd : GGM.FaithfulDepth fl) {h : Cuckoo.Hasher} (h3 : h.numHash = 3) {t m N c : Nat} (hN : h.optimal t ≤ N)
    (hm : 3 * m ≤ 2 ^ 36) (hc : c ≤ 36) : (h.optimal t).toNat ≤ N ∧ bucketOTs fl h t m ≤ (c + 1) * N + 3 * m / 2 ^ c := by
  have h1 : (h.optimal t).toNat ≤ N := by omega
  have := C75_transfers Hd h (t := t) (m := m) c (by rw [h3]; exact hm) hc
  rw [h3] at this
  exact ⟨h1, this.trans (Nat.add_le_add_right (Nat.mul_le_mul_left _ h1) _)⟩

/-- C75: objects made by `Create` with up to 128 bits of statistical security. For batches of at least 10022032
    elements the last row of the parameters is used, and an expansion, which yields at least 10022032 elements, costs either party at
    most 5900 elements and 86488 oblivious transfers, and the receiver two more blocks. -/
theorem C75_sublinear (P : Price) {bits : Sec → Nat → Nat → Nat → Bool} {optimal : Sec → Nat → Nat → Int} (H : Cuckoo.Faithful optimal)
    {fl : Nat → Nat → Nat} (Hd : GGM.FaithfulDepth fl) (Q : Create.Party) (seed seed' : Block) (aes : Cipher) {f : ℚ} (h1 : 1 ≤ f) (h2 : f ≤ 2 ^ 128)
    {h : Cuckoo.Hasher} (hh : h = Create.commonHasher bits optimal Q seed seed' (some f) aes) :
    ModerateBuckets h ∧ (∀ b : Int, 10022032 ≤ b → rowFor h b = 4 ∧ 10022032 ≤ batchFor h b) ∧
    ∀ o ≤ 10616092, senderFee P fl h 1324 o ≤ P.elem * 5900 + P.ot * 86488 ∧ receiverFee P fl h 1324 o ≤ P.elem * 5900 + P.ot * 86488 + P.block * 2 := by
  obtain ⟨a3, ap, b0, b1, b2, b3, b4⟩ := common_rows H Q seed seed' aes h1 h2 hh
  have hrow : ∀ b : Int, 10022032 ≤ b → rowFor h b = 4 := fun b hb => rowFor_eq (le_refl _) (fun k hk => by
    interval_cases k <;> simp only [outputOf, seedOf] <;> omega) (.inl rfl)
  refine ⟨fun i hi => ⟨(ap i hi).le, ?_⟩, fun b hb => ⟨hrow b hb, ?_⟩, fun o ho => ?_⟩
  · interval_cases i <;> simp only [noiseOf] <;> omega
  · have := ap 4 (le_refl _)
    unfold batchFor
    rw [hrow b hb]
    simp only [bucketsOf, noiseOf, seedOf] at this ⊢
    omega
  · obtain ⟨c1, c2⟩ := rows_fee Hd a3 (N := 5900) (m := o) (c := 13) b4 (by omega) (by omega)
    have c3 : bucketOTs fl h 1324 o ≤ 86488 := c2.trans (by omega)
    have e1 := Nat.mul_le_mul_left P.elem c1
    have e2 := Nat.mul_le_mul_left P.ot c3
    unfold senderFee receiverFee
    constructor <;> omega

/-- C75: a precomputation of such an object costs no more than this, whatever the batch size. -/
theorem C75_setup (P : Price) {bits : Sec → Nat → Nat → Nat → Bool} {optimal : Sec → Nat → Nat → Int} (H : Cuckoo.Faithful optimal)
    {E : Env T} (Hd : GGM.FaithfulDepth E.fl) (Q : Create.Party) (seed seed' : Block) (aes : Cipher) {f : ℚ} (h1 : 1 ≤ f) (h2 : f ≤ 2 ^ 128)
    {h : Cuckoo.Hasher} (hh : h = Create.commonHasher bits optimal Q seed seed' (some f) aes) (b : Int) :
    precomputeSenderFee P E h b ≤ P.ot * (Gilboa.productOTs T 2089 + 79189) + P.elem * 10503 + P.byte * 160 ∧
    precomputeReceiverFee P E h b ≤ P.ot * (Gilboa.productOTs T 2089 + 79189) + P.elem * 8414 + P.byte * 160 + P.block * 8 := by
  obtain ⟨a3, ap, b0, b1, b2, b3, b4⟩ := common_rows H Q seed seed' aes h1 h2 hh
  have hs : seedFee P E ≤ P.byte * 32 := by unfold seedFee; split <;> omega
  obtain ⟨c0, d0⟩ := rows_fee Hd a3 (t := 98) (N := 500) (m := seedOf 1 + bucketsOf h 1) (c := 5) b0 (by simp only [seedOf, bucketsOf, noiseOf]; omega) (by omega)
  obtain ⟨c1, d1⟩ := rows_fee Hd a3 (t := 198) (N := 614) (m := seedOf 2 + bucketsOf h 2) (c := 5) b1 (by simp only [seedOf, bucketsOf, noiseOf]; omega) (by omega)
  obtain ⟨c2, d2⟩ := rows_fee Hd a3 (t := 382) (N := 1700) (m := seedOf 3 + bucketsOf h 3) (c := 6) b2 (by simp only [seedOf, bucketsOf, noiseOf]; omega) (by omega)
  obtain ⟨c3, d3⟩ := rows_fee Hd a3 (t := 1254) (N := 5600) (m := seedOf 4 + bucketsOf h 4) (c := 8) b3 (by simp only [seedOf, bucketsOf, noiseOf]; omega) (by omega)
  have e0 := d0.trans (show _ ≤ 3384 by simp only [seedOf, bucketsOf, noiseOf]; omega)
  have e1 := d1.trans (show _ ≤ 4536 by simp only [seedOf, bucketsOf, noiseOf]; omega)
  have e2 := d2.trans (show _ ≤ 13908 by simp only [seedOf, bucketsOf, noiseOf]; omega)
  have e3 := d3.trans (show _ ≤ 57361 by simp only [seedOf, bucketsOf, noiseOf]; omega)
  have boot : ∀ fee : Nat → Nat → Nat, bootFee P E h fee b ≤ fee 98 (seedOf 1 + bucketsOf h 1) + fee 198 (seedOf 2 + bucketsOf h 2) + fee 382 (seedOf 3 + bucketsOf h 3) +
      fee 1254 (seedOf 4 + bucketsOf h 4) + P.byte * 160 := by
    intro fee
    unfold bootFee
    have := Finset.sum_le_sum_of_subset (f := fun i => seedFee P E + fee (noiseOf i) (seedOf (i + 1) + bucketsOf h (i + 1)))
      (Finset.range_subset_range.2 (rowFor_le h b))
    simp only [Finset.sum_range_succ, Finset.sum_range_zero, Nat.zero_add, Nat.reduceAdd] at this
    rw [show noiseOf 0 = 98 from rfl, show noiseOf 1 = 198 from rfl, show noiseOf 2 = 382 from rfl, show noiseOf 3 = 1254 from rfl] at this
    omega
  have hn0 : seedOf 0 + bucketsOf h 0 ≤ 2089 := by simp only [seedOf, bucketsOf, noiseOf]; omega
  have p0 := Nat.mul_le_mul_left P.ot (productOTs_mono (T := T) hn0)
  have p1 := Nat.mul_le_mul_left P.elem hn0
  have f0 := Nat.mul_le_mul_left P.elem c0
  have f1 := Nat.mul_le_mul_left P.elem c1
  have f2 := Nat.mul_le_mul_left P.elem c2
  have f3 := Nat.mul_le_mul_left P.elem c3
  have g0 := Nat.mul_le_mul_left P.ot e0
  have g1 := Nat.mul_le_mul_left P.ot e1
  have g2 := Nat.mul_le_mul_left P.ot e2
  have g3 := Nat.mul_le_mul_left P.ot e3
  unfold precomputeSenderFee precomputeReceiverFee
  rw [Nat.mul_add P.ot (Gilboa.productOTs T 2089) 79189]
  constructor
  · have := boot (senderFee P E.fl h)
    unfold senderFee at this ⊢
    omega
  · have := boot (receiverFee P E.fl h)
    unfold receiverFee at this ⊢
    omega

/-- C75: the whole cost of `RunSender(n)` on a new object (or one that has never been a sender), for at least 10022032
    elements: it grows by at most 5900 elements and 86488 oblivious transfers for every further 10022032 elements,
    for every execution with any peer. -/
theorem C75_total_sender (P : Price) {bits : Sec → Nat → Nat → Nat → Bool} {optimal : Sec → Nat → Nat → Int} (H : Cuckoo.Faithful optimal)
    {E : Env T} (Hd : GGM.FaithfulDepth E.fl) (ht : Threads E.thr) (Q : Create.Party) (seed seed' : Block) (aes : Cipher) {f : ℚ} (h1 : 1 ≤ f) (h2 : f ≤ 2 ^ 128)
    {junk : T} {l : List (Op T × Out (Answer T))} {s : VState T} (hl : Lives E (created (Create.commonHasher bits optimal Q seed seed' (some f) aes) junk) l s)
    (hd : s.sDone = false) {n : Nat} (hn : 10022032 ≤ n) {β : Type} (q : Proc (Msg T) β) {k : Nat} {st} (hst : Net.Steps k (Net.init (runSender E n s) q) st) :
    P.spent st.pv ≤ P.ot * (Gilboa.productOTs T 2089 + 79189) + P.elem * 10503 + P.byte * 160 + (n / 10022032 + 1) * (P.elem * 5900 + P.ot * 86488) := by
  generalize hh : Create.commonHasher bits optimal Q seed seed' (some f) aes = h at hl
  obtain ⟨hm, hrow, hfee⟩ := C75_sublinear P H Hd Q seed seed' aes h1 h2 hh.symm
  obtain ⟨r1, r2⟩ := hrow n (by omega)
  obtain ⟨b, hb⟩ := Int.eq_ofNat_of_zero_le (show 0 ≤ batchFor h n by omega)
  have hb' : 10022032 ≤ b := by omega
  have hc := ((C75_first_run_sender P ht hm hl hd (show 1 ≤ b by omega) hb) β q k st hst).1
  refine hc.trans (Nat.add_le_add (C75_setup P H Hd Q seed seed' aes h1 h2 hh.symm n).1 (Nat.mul_le_mul ?_ ?_))
  · rw [Nat.div_le_iff_le_mul_add_pred (by omega)]
    have h5 := Nat.div_add_mod n 10022032
    have h6 := Nat.mod_lt n (show 0 < 10022032 by omega)
    have h7 := Nat.mul_le_mul_right (n / 10022032 + 1) hb'
    omega
  · rw [r1]
    refine (hfee _ ?_).1
    unfold batchFor at hb
    rw [r1] at hb
    have h8 := hm 4 (le_refl _)
    simp only [bucketsOf, noiseOf, seedOf] at hb h8 ⊢
    omega

/-- C75: the same for a receiver. -/
theorem C75_total_receiver (P : Price) {bits : Sec → Nat → Nat → Nat → Bool} {optimal : Sec → Nat → Nat → Int} (H : Cuckoo.Faithful optimal)
    {E : Env T} (Hd : GGM.FaithfulDepth E.fl) (ht : Threads E.thr) (Q : Create.Party) (seed seed' : Block) (aes : Cipher) {f : ℚ} (h1 : 1 ≤ f) (h2 : f ≤ 2 ^ 128)
    {junk : T} {l : List (Op T × Out (Answer T))} {s : VState T} (hl : Lives E (created (Create.commonHasher bits optimal Q seed seed' (some f) aes) junk) l s)
    (hd : s.rDone = false) {n : Nat} (hn : 10022032 ≤ n) {β : Type} (q : Proc (Msg T) β) {k : Nat} {st} (hst : Net.Steps k (Net.init (runReceiver E n s) q) st) :
    P.spent st.pv ≤ P.ot * (Gilboa.productOTs T 2089 + 79189) + P.elem * 8414 + P.byte * 160 + P.block * 8 +
      (n / 10022032 + 1) * (P.elem * 5900 + P.ot * 86488 + P.block * 2) := by
  generalize hh : Create.commonHasher bits optimal Q seed seed' (some f) aes = h at hl
  obtain ⟨hm, hrow, hfee⟩ := C75_sublinear P H Hd Q seed seed' aes h1 h2 hh.symm
  obtain ⟨r1, r2⟩ := hrow n (by omega)
  obtain ⟨b, hb⟩ := Int.eq_ofNat_of_zero_le (show 0 ≤ batchFor h n by omega)
  have hb' : 10022032 ≤ b := by omega
  have hc := ((C75_first_run_receiver P ht hm hl hd (show 1 ≤ b by omega) hb) β q k st hst).1
  refine hc.trans (Nat.add_le_add (C75_setup P H Hd Q seed seed' aes h1 h2 hh.symm n).2 (Nat.mul_le_mul ?_ ?_))
  · rw [Nat.div_le_iff_le_mul_add_pred (by omega)]
    have h5 := Nat.div_add_mod n 10022032
    have h6 := Nat.mod_lt n (show 0 < 10022032 by omega)
    have h7 := Nat.mul_le_mul_right (n / 10022032 + 1) hb'
    omega
  · rw [r1]
    refine (hfee _ ?_).2
    unfold batchFor at hb
    rw [r1] at hb
    have h8 := hm 4 (le_refl _)
    simp only [bucketsOf, noiseOf, seedOf] at hb h8 ⊢
    omega

/-! ### Examples -/

/-- Outputs of sizes 5, 1, 0 and 4 need 3 + 0 + 0 + 2 oblivious transfers if depths are computed exactly; 2089 products of
    64-bit numbers need 66880. -/
example : ([5, 1, 0, 4].map (treeOTs (fun n _ => Nat.clog 2 n))).sum = 5 ∧ Gilboa.productOTs (BitVec 64) 2089 = 66880 := by decide

/-- New objects of `MPFSSKnownIndex`. -/
example (w output : List (BitVec 64)) := C75_mpfss_value ⟨8, 16, 1, 32⟩ (.new : Reached (BitVec 64) toyHasher _) GGM.exCipher GGM.exactDepth ⟨0, 1, 2⟩ (some 1)
  (fun _ => 0) (fun _ => 0) ex_together.threadsA 7 (t := 3) (show (2000 : Int) < 2 ^ 31 by omega) w output

/-- What a party has spent in a complete execution. -/
theorem Costs.computed {α β : Type} {P : Price} {good : α → Prop} {p : Proc (Msg T) α} {q : Proc (Msg T) β} {N : Nat} (h : Costs P good p N) {a : α} {b : β}
    {va vb : List (Event (Msg T))} (hc : Net.Computes p q a b va vb) (hg : good a) : P.spent va = N := by
  obtain ⟨n, hn⟩ := hc
  exact (h β q n _ (hn 0 _ (.zero _)).2).2 a rfl hg

theorem toy_moderate : ModerateBuckets toyHasher := fun i _ => by
  show (0 : Int) ≤ 2000 ∧ (2000 : Int) < 2 ^ 31
  omega

theorem toy_fl (b : Int) (hb : b ≤ 507) : rowFor toyHasher b = 0 := rowFor_eq (by omega) (fun k hk => by omega) (.inr (by
  simp only [show bucketsOf toyHasher 0 = 2000 from rfl, seedOf, outputOf]; omega))

/-- A successful precomputation with batch size 1, in which the sender sends 3589 elements and 32 bytes. -/
example : ∃ s r va vb, Net.Computes (precomputeSender exA 1 (created toyHasher 0)) (precomputeReceiver exB 1 5 (created toyHasher 0)) (.ok (), s) (.ok (), r) va vb ∧
    Price.spent ⟨1, 0, 1, 0⟩ va = 3589 + 32 := by
  obtain ⟨s, r, -, -, va, vb, -, -, c, -, -⟩ := mixed_precompute
  refine ⟨s, r, va, vb, c, ?_⟩
  rw [Costs.computed (C75_precompute_sender ⟨1, 0, 1, 0⟩ ex_together.threadsA toy_moderate .new 1) c ⟨_, rfl⟩]
  simp only [precomputeSenderFee, bootFee, toy_fl 1 (by omega), Finset.range_zero, Finset.sum_empty, seedFee, show exA.lower = true from rfl, if_true,
    show bucketsOf toyHasher 0 = 2000 from rfl, seedOf]
  omega

/-- A run for 100001 elements after a precomputation with batch size 5: the sender sends 2000 elements for
    each of 20001 expansions. -/
example : ∃ l s s' r, Lives exA (created toyHasher 0) l s ∧ Returns (runSender exA ((100001 : Nat) : Int) s) (.ok r, s') ∧
    Costs ⟨1, 0, 0, 0⟩ (fun r => r.1.IsOk) (runSender exA ((100001 : Nat) : Int) s) (20001 * 2000) := by
  obtain ⟨s, s', r, h1, h2, -, -⟩ := C33_example
  have hl : Lives exA (created toyHasher 0) _ s := Lives.precomputeS 0 .new h1
  have hp := (precomputeSender_loc exA 5 _).ok h1
  obtain ⟨-, -, -, -, h5⟩ := hp.chosen.rowFor toy_moderate rfl hp.hasher hp.ready.buckets
  have hb : s.batch = ((5 : Nat) : Int) := by
    rw [h5]
    unfold batchFor
    rw [toy_fl 5 (by omega)]
    simp only [show bucketsOf toyHasher 0 = 2000 from rfl, seedOf]
    omega
  refine ⟨_, s, s', r, hl, h2, ?_⟩
  obtain ⟨i, -, -, -, hc⟩ := C75_run_sender ⟨1, 0, 0, 0⟩ (n := 100001) ex_together.threadsA toy_moderate hl (by simp [Op.fwd]) (by simp) hp.sDone (by omega) hb
  rw [hp.empty] at hc
  have e : senderFee ⟨1, 0, 0, 0⟩ exA.fl toyHasher (noiseOf i) (5 + seedOf i + bucketsOf toyHasher i) = 2000 := by
    unfold senderFee
    dsimp only
    rw [Nat.zero_mul]
    rfl
  rw [e] at hc
  exact hc

/-- The sums for 64-bit elements and 40 bits of security: a billion elements of 8 bytes each cost the sender at most 4.9 megabytes and less than nine
    million oblivious transfers. -/
example {β : Type} (q : Proc (Msg (BitVec 64)) β) (seed seed' : Block) {k : Nat} {st}
    (hst : Net.Steps k (Net.init (runSender (Create.exEnv true 1) ((10 ^ 9 : Nat) : Int)
      (created (Create.commonHasher Cuckoo.exactBits Cuckoo.exact3 ⟨true, false, .ok (), .ok ()⟩ seed seed' (some (2 ^ 40)) 0) 0)) q) st) :
    Price.spent ⟨8, 16, 1, 0⟩ st.pv ≤ 4900000 ∧ Price.spent ⟨0, 0, 0, 1⟩ st.pv ≤ 9000000 := by
  have h1 := C75_total_sender ⟨8, 16, 1, 0⟩ Cuckoo.exact3_faithful (E := Create.exEnv true 1) GGM.exactDepth_faithful Create.ex_world.threadsA ⟨true, false, .ok (), .ok ()⟩
    seed seed' _ (f := 2 ^ 40) (by norm_num) (by norm_num) .new rfl (n := 10 ^ 9) (by norm_num) q hst
  have h2 := C75_total_sender ⟨0, 0, 0, 1⟩ Cuckoo.exact3_faithful (E := Create.exEnv true 1) GGM.exactDepth_faithful Create.ex_world.threadsA ⟨true, false, .ok (), .ok ()⟩
    seed seed' _ (f := 2 ^ 40) (by norm_num) (by norm_num) .new rfl (n := 10 ^ 9) (by norm_num) q hst
  have e : Gilboa.productOTs (BitVec 64) 2089 = 66880 := by decide
  rw [e] at h1 h2
  exact ⟨h1.trans (by norm_num), h2.trans (by norm_num)⟩

end VOLE
end DVO
