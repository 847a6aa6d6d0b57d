/-
Vector OLE: MPFSS, seed exchange, code generator and expansion by two parties.
-/
import Verif.Proofs.VOLE1
import Verif.Proofs.Gilboa

namespace DVO.VOLE
open Net MPFSS
set_option linter.unusedSectionVars false
variable {T : Type} [Scalar T] {P : Out Unit → Prop} {h : Cuckoo.Hasher} {A B : Env T}

theorem Together.swap (W : Together h A B) : Together h B A where
  aes := W.aes.symm
  fl := W.fl.symm
  chans := W.chans.symm
  sec := W.sec.symm
  lib := W.lib.symm
  ids := by rw [W.ids]; simp
  threadsA := W.threadsB
  threadsB := W.threadsA
  orderA := W.orderB
  orderB := W.orderA
  conforms := by rw [W.lib, W.aes]; exact W.conforms
  numHash := W.numHash
  buckets_pos := W.buckets_pos
  buckets_lt := W.buckets_lt
  trees := by rw [W.fl]; exact W.trees

theorem Expected.invalid (m : String) : Expected (.err .invalidArgument m) := ⟨by simp, by simp⟩

/-! ### The buckets -/

theorem noise_pos {t : Nat} (ht : (t : Int) ∈ noiseSizes) : 0 < t := by
  simp [noiseSizes] at ht; omega

theorem noise_le {t : Nat} (ht : (t : Int) ∈ noiseSizes) : t ≤ 1324 := by
  simp [noiseSizes] at ht; omega

theorem Together.optimal_pos (W : Together h A B) {t : Nat} (ht : (t : Int) ∈ noiseSizes) : 0 < h.optimal t := by
  have := W.buckets_pos t ht
  rwa [Int.toNat_natCast] at this

theorem Together.optimal_lt (W : Together h A B) {t : Nat} (ht : (t : Int) ∈ noiseSizes) : h.optimal t < 10027932 := by
  have := W.buckets_lt t ht
  rwa [Int.toNat_natCast] at this

theorem Together.sized (W : Together h A B) {t m : Nat} (ht : (t : Int) ∈ noiseSizes) (hle : t ≤ m) (hm : m ≤ 10616092)
    (hb : h.tooManyBits m (h.optimal t).toNat = false) : Sized h A.fl t m where
  numHash := .inr W.numHash
  pos := noise_pos ht
  le := hle
  buckets_pos := W.optimal_pos ht
  buckets_lt := by have := W.optimal_lt ht; omega
  bits := hb
  size := by rw [W.numHash]; omega
  trees := fun n hn => W.trees n (by rw [W.numHash] at hn; omega)

theorem computeBuckets_bits (W : Together h A B) {t m : Nat} (ht : (t : Int) ∈ noiseSizes)
    (hb : h.tooManyBits m (h.optimal t).toNat = true) (thr : Nat → List Nat) :
    ∃ msg, computeBuckets thr h m t = .err .invalidArgument msg := by
  have h1 := W.optimal_pos ht
  have h2 := noise_pos ht
  unfold computeBuckets Cuckoo.getOptimalNumberOfBuckets Cuckoo.hashSimple
  rw [if_neg (by omega), if_neg (by omega), if_neg (by omega), if_pos (.inl W.numHash), Int.toNat_natCast, Int.toNat_natCast,
    toInt64_ok (by omega) (by have := W.optimal_lt ht; omega), Out.ok_bind,
    if_neg (by omega), if_pos (by rw [allIndices_length]; exact hb)]
  exact ⟨_, rfl⟩

theorem updateBuckets_cases (W : Together h A B) {t m : Nat} (ht : (t : Int) ∈ noiseSizes) (hle : t ≤ m) (hm : m ≤ 10616092)
    {thr : Nat → List Nat} (hthr : Threads thr) {st : State} (hc : Coherent h st) :
    (∃ st', MPFSS.updateBuckets thr st m t = (.ok (), st') ∧ Coherent h st') ∨
    (h.tooManyBits m (h.optimal t).toNat = true ∧ ∃ msg st', MPFSS.updateBuckets thr st m t = (.err .invalidArgument msg, st')) := by
  cases hb : h.tooManyBits m (h.optimal t).toNat with
  | true =>
    obtain ⟨msg, e⟩ := computeBuckets_bits W ht hb thr
    have h1 := (updateBuckets_coherent hthr hc m t).1
    have h2 : (MPFSS.updateBuckets thr (State.new h) m t).1 = .err .invalidArgument msg := by
      unfold MPFSS.updateBuckets State.new
      rw [if_pos (by simp)]
      dsimp only
      rw [e]
    right
    exact ⟨rfl, msg, _, Prod.ext (h1.trans h2) rfl⟩
  | false =>
    left
    have e := updateBuckets_ok hthr hc (computeBuckets_eq (W.sized ht hle hm hb) hthr)
    refine ⟨_, e, ?_⟩
    have := hc.update hthr m t
    rw [e] at this
    exact this

theorem numBuckets_eq (W : Together h A B) {t : Nat} (ht : (t : Int) ∈ noiseSizes) : numBuckets h t = .ok (h.optimal t) := by
  have h1 := W.optimal_pos ht
  have h2 := W.optimal_lt ht
  have h3 := noise_pos ht
  unfold numBuckets Cuckoo.getOptimalNumberOfBuckets
  rw [if_neg (by omega), if_neg (by omega), if_pos (.inl W.numHash), Int.toNat_natCast, toInt64_ok (by omega) (by omega), Out.ok_bind]
  congr 1
  rw [BitVec.toInt_ofInt, Int.bmod_def]
  have : h.optimal t % ((2 ^ 32 : Nat) : Int) = h.optimal t := Int.emod_eq_of_lt (by omega) (by push_cast; omega)
  rw [this, if_pos (by push_cast; omega)]

/-! ### MPFSS -/

/-- The index provider's first message, if the hashing succeeds. -/
theorem index_sends {aes : Cipher} {fl : Nat → Nat → Nat} {c : Chans} {t m : Nat} (hs : Sized h fl t m)
    {thr : Nat → List Nat} (ht : Threads thr) {st : State} (hI : Coherent h st) {y u v out : List T} {indices hashed : List Int}
    (hy : y.length = t) (hi : indices.length = t) (hr : ∀ i ∈ indices, i ≤ m) (ho : out.length = m) (hu : (u.length : Int) = h.optimal t)
    (hok : Cuckoo.hashCuckoo h (indices.map indexBlock) (h.optimal t) = .ok hashed) :
    ∃ k, runIndexProviderVectorOLE aes fl c thr st y indices u v out = .send c.main (.elems (yMsg y u hashed)) k ∧
      ((yMsg y u hashed).length : Int) = h.optimal t := by
  have hpos := hs.pos
  have hle := hs.le
  have hb1 := hs.buckets_pos
  have hb2 := hs.buckets_lt
  have hnum := hs.numHash
  have hsz := hs.size
  have hm : m < 2 ^ 31 := by rcases hnum with e | e <;> rw [e] at hsz <;> omega
  have ht31 : t < 2 ^ 31 := by omega
  have hTl : (table h t m).length < 2 ^ 31 := by rw [table_length]; omega
  have hTi : toInt32 (table h t m).length = h.optimal t := by rw [toInt32_eq hTl, table_length]; omega
  obtain ⟨-, H⟩ := hashed_placed hs hi hok
  unfold runIndexProviderVectorOLE
  rw [if_neg (by omega), if_neg (by omega), if_neg (by omega), if_neg (by
    rw [List.any_eq_true]
    rintro ⟨i, hi1, hi2⟩
    have := hr i (List.mem_of_mem_take hi1)
    simp only [decide_eq_true_eq] at hi2
    omega), ho, hy, toInt32_eq ht31, updateBuckets_ok ht hI (computeBuckets_eq hs ht)]
  have hmy : maskedY ⟨h, table h t m, some m, some t⟩ y indices u = .ok (hashed, yMsg y u hashed) := by
    unfold maskedY
    dsimp only
    rw [hTi]
    have e1 : hashIndices h indices (h.optimal t) = .ok hashed := by
      unfold hashIndices
      rw [hok]
    have e2 := permuteY_eq (y := y) (hashed := hashed) (by rw [hy]; exact H.range)
    rw [show ((hashed.length : Nat) : Int) = h.optimal t by rw [H.len]; omega] at e2
    rw [e1, Out.ok_bind, e2, Out.ok_bind]
    unfold addMask
    rw [if_neg (by simp [H.len]; omega)]
    rfl
  dsimp only
  rw [hmy]
  refine ⟨_, rfl, ?_⟩
  simp [yMsg, H.len]
  omega

/-- If the elements cannot be sampled with the required security, the value provider fails after
    receiving its message. -/
theorem value_fails {aes : Cipher} {fl : Nat → Nat → Nat} {c : Chans} {sec : Sec} {key seed : Nat → Block} {t m : Nat} (hs : Sized h fl t m)
    {thr : Nat → List Nat} (ht : Threads thr) {st : State} (hV : Coherent h st) {x : T} {w out msg : List T}
    (ho : out.length = m) (hw : (w.length : Int) = h.optimal t) (hmsg : (msg.length : Int) = h.optimal t)
    (hno : Scalar.canHash T (ROT.secPerLeaf sec ((h.numHash * m : Nat) : Int)) 128 = false) :
    ∃ k r e, runValueProviderVectorOLE aes fl c sec key seed thr st x t w out = .recv c.main k ∧ k (.elems msg) = .ret r ∧
      r.status = .err .invalidArgument e := by
  have hpos := hs.pos
  have hb1 := hs.buckets_pos
  have hb2 := hs.buckets_lt
  have hTl : (table h t m).length < 2 ^ 31 := by rw [table_length]; omega
  unfold runValueProviderVectorOLE
  rw [if_neg (by omega), ho, updateBuckets_ok ht hV (computeBuckets_eq hs ht)]
  dsimp only
  have hshare : (PM.unElems (.elems msg) >>= fun yMasked => valueShares x yMasked w) = .ok (shares x msg w) := by
    unfold PM.unElems valueShares
    rw [Out.ok_bind, if_neg (by omega)]
    rfl
  have htot := table_total (m := m) hb1
  have hlens : ((table h t m).map (fun b => List.replicate b.length (0 : T))).map List.length = (table h t m).map List.length := by
    simp
  have hsp : (SPFSS.runValueProviderBatched aes fl c sec key seed (shares x msg w) (emptyOutputs (table h t m)) : PM (Msg T) _) =
      Proc.ret (.err .invalidArgument "Cannot ensure statistical security with the given modulus") := by
    unfold SPFSS.runValueProviderBatched ROT.runSenderBatched ROT.sendTrees
    rw [emptyOutputs_eq hTl, if_neg (by simp [shares, table_length]; omega), hlens,
      accumulateInt_eq _ (by rw [htot]; exact hs.size), htot, hno]
    rfl
  refine ⟨_, ⟨.err .invalidArgument "Cannot ensure statistical security with the given modulus", List.replicate m 0,
    ⟨h, table h t m, some m, some t⟩⟩, _, rfl, ?_, rfl⟩
  rw [hshare]
  dsimp only
  rw [hsp]
  rfl

/-- What happens to the status and object state of an MPFSS call. -/
def afterMpfss (s : VState T) (r : Res T) : Proc (Msg T) (Out (List T) × VState T) :=
  match r.status with
  | .ok () => .ret (.ok r.output, { s with mpfss := r.st })
  | .err c m => .ret (.err c m, { s with mpfss := r.st })
  | .throws m => .ret (.throws m, { s with mpfss := r.st })
  | .ub w => .ret (.ub w, { s with mpfss := r.st })
  | .diverge => .ret (.diverge, { s with mpfss := r.st })

theorem runMpfss_eq (p : State → Proc (Msg T) (Res T)) (s : VState T) : VM.runMpfss p s = Proc.bind (p s.mpfss) (afterMpfss s) := rfl

theorem afterMpfss_ok (s : VState T) {r : Res T} (h : r.status = .ok ()) : afterMpfss s r = .ret (.ok r.output, { s with mpfss := r.st }) := by
  unfold afterMpfss; rw [h]

theorem afterMpfss_err (s : VState T) {r : Res T} {c : Code} {m : String} (h : r.status = .err c m) :
    afterMpfss s r = .ret (.err c m, { s with mpfss := r.st }) := by
  unfold afterMpfss; rw [h]

/-- The index provider's hashing either succeeds or fails with an expected error. -/
theorem hashIndices_cases (W : Together h A B) {t : Nat} (ht : (t : Int) ∈ noiseSizes) {indices : List Int} (hi : indices.length = t) :
    (∃ hashed, Cuckoo.hashCuckoo h (indices.map indexBlock) (h.optimal t) = .ok hashed) ∨
    (∃ c m, hashIndices h indices (h.optimal t) = .err c m ∧ Expected (.err c m)) := by
  have h1 := W.optimal_pos ht
  have h2 := W.optimal_lt ht
  have h3 := W.numHash
  by_cases hle : ((indices.map indexBlock).length : Int) ≤ h.optimal t
  · cases hb : h.tooManyBits (indices.map indexBlock).length (h.optimal t).toNat with
    | true =>
      right
      refine ⟨_, _, ?_, Expected.invalid "The given sizes would require too long hashes"⟩
      unfold hashIndices Cuckoo.hashCuckoo
      rw [if_neg (by omega), if_neg (by omega), if_neg (by omega), if_pos hb]
    | false =>
      rcases Cuckoo.hashCuckoo_spec h (by omega) h1 (by omega) _ hle hb with hi | ⟨bk, hbk, -, -⟩
      · right
        have e : hashIndices h indices (h.optimal t) = if indices.dedup.length ≠ indices.length then
            .err .invalidArgument "All `indices` must be unique"
          else .err .internal "Failed to insert element, maximum number of tries exhausted" := by
          unfold hashIndices
          rw [hi]
          rfl
        rw [e]
        split
        · exact ⟨_, _, rfl, Expected.invalid _⟩
        · exact ⟨_, _, rfl, ⟨by simp, by simp⟩⟩
      · exact .inl ⟨bk, hbk⟩
  · right
    refine ⟨_, _, ?_, Expected.invalid "`inputs.size()` must not be larger than `num_buckets`"⟩
    unfold hashIndices Cuckoo.hashCuckoo
    rw [if_neg (by omega), if_neg (by omega), if_pos (by omega)]

theorem mpfss_pair {M N : Nat} (hP : ∀ o, Expected o → ¬ (SmoothTo M N h A ∧ SmoothTo M N h B) → P o) (W : Together h A B) {t m : Nat} (ht : (t : Int) ∈ noiseSizes) (hle : t ≤ m)
    (hm : m ≤ 10616092) (hN : m ≤ N) {s r : VState T} (hs : Coherent h s.mpfss) (hr : Coherent h r.mpfss) (sec : Sec) (key seed : Nat → Block)
    {x : T} {w outV y : List T} {indices : List Int} {u v outI : List T} (a : Args h t m x w outV y indices u v outI)
    (hi : InRange m indices) (hhash : SmoothTo M N h A → ∃ hashed, Cuckoo.hashCuckoo h (indices.map indexBlock) (h.optimal t) = .ok hashed)
    (hsec : sec = B.sec.map (· * 2)) :
    Pair P (VM.runMpfss (fun st => runIndexProviderVectorOLE A.aes A.fl A.c A.thr st y indices u v outI) s)
      (VM.runMpfss (fun st => runValueProviderVectorOLE B.aes B.fl B.c sec key seed B.thr st x t w outV) r)
      (fun o s' o' r' => ∃ st st', Coherent h st ∧ Coherent h st' ∧ s' = { s with mpfss := st } ∧ r' = { r with mpfss := st' } ∧
        SharesOf m o' o (pointSum x y indices)) := by
  rw [runMpfss_eq, runMpfss_eq, W.aes, W.fl, W.chans]
  have hr' : ∀ i ∈ indices, i ≤ (m : Int) := fun i hi' => le_of_lt (hi i hi').2
  have hl1 := a.len_y
  have hl2 := a.len_indices
  have hl3 := a.len_outI
  cases hb : h.tooManyBits m (h.optimal t).toNat with
  | true =>
    obtain ⟨msg, e⟩ := computeBuckets_bits W ht hb A.thr
    obtain ⟨st', hu⟩ : ∃ st', MPFSS.updateBuckets A.thr s.mpfss m t = (.err .invalidArgument msg, st') := by
      have h1 := (updateBuckets_coherent W.threadsA hs m t).1
      have h2 : (MPFSS.updateBuckets A.thr (State.new h) m t).1 = .err .invalidArgument msg := by
        unfold MPFSS.updateBuckets State.new
        rw [if_pos (by simp)]
        dsimp only
        rw [e]
      exact ⟨_, Prod.ext (h1.trans h2) rfl⟩
    have hp := noise_pos ht
    have e2 : runIndexProviderVectorOLE A.aes A.fl A.c A.thr s.mpfss y indices u v outI = .ret ⟨.err .invalidArgument msg, outI, st'⟩ := by
      unfold runIndexProviderVectorOLE
      rw [if_neg (by omega), if_neg (by omega), if_neg (by omega), if_neg (by
        rw [List.any_eq_true]
        rintro ⟨i, hi1, hi2⟩
        have := hr' i (List.mem_of_mem_take hi1)
        simp only [decide_eq_true_eq] at hi2
        omega), hl3, hl1, toInt32_eq (by omega), hu]
    rw [e2]
    exact Pair.failL (hP _ (Expected.invalid _) (fun S => by rw [S.1.bits t ht m hm] at hb; cases hb))
  | false =>
    have hsz := W.sized ht hle hm hb
    rcases hashIndices_cases W ht hl2 with ⟨hashed, hok⟩ | ⟨cd, msg, he, hx⟩
    · cases hc : Scalar.canHash T (ROT.secPerLeaf sec ((h.numHash * m : Nat) : Int)) 128 with
      | true =>
        have hsup : Supported T h A.fl sec t m := ⟨hsz, hc⟩
        have H := hashedOk hsz hl2 hi hok
        have J := (MPFSS.joint (x := x) A.aes A.c key seed hsup W.threadsB W.threadsA hr hs hl1 hl2 hr' a.len_outV hl3 a.len_w a.len_u a.len_v hok
          H.toHashedLen (poss_idxOk H)).swap
        have hcoh : Coherent h ⟨h, table h t m, some m, some t⟩ := by
          have := hs.update W.threadsA m t
          rwa [updateBuckets_ok W.threadsA hs (computeBuckets_eq hsz W.threadsA)] at this
        left
        refine ⟨_, _, _, _, _, _, Joint.bind J (f := afterMpfss s) (g := afterMpfss r) (by
          rw [afterMpfss_ok _ rfl, afterMpfss_ok _ rfl]
          exact Joint.ret _ _), ?_⟩
        exact ⟨_, _, hcoh, hcoh, rfl, rfl, results_shares A.aes A.fl key seed hsz.buckets_pos H a⟩
      | false =>
        obtain ⟨k, e1, hlen⟩ := index_sends (aes := A.aes) (c := A.c) (v := v) hsz W.threadsA hs hl1 hl2 hr' hl3 a.len_u hok
        obtain ⟨k', rs, e, e2, e3, e4⟩ := value_fails (aes := A.aes) (c := A.c) (key := key) (seed := seed) (x := x) hsz W.threadsB hr a.len_outV a.len_w hlen hc
        rw [e1, e2]
        refine Pair.sendRecv ?_
        show Pair P _ (Proc.bind (k' _) (afterMpfss r)) _
        rw [e3]
        show Pair P _ (afterMpfss r rs) _
        rw [afterMpfss_err _ e4]
        exact Pair.failR (hP _ (Expected.invalid _) (fun S => by rw [hsec, S.2.trees m hN] at hc; cases hc))
    · have hno : ¬ ∃ hashed, Cuckoo.hashCuckoo h (indices.map indexBlock) (h.optimal t) = .ok hashed := by
        rintro ⟨hashed, hok⟩
        unfold hashIndices at he
        rw [hok] at he
        cases he
      obtain ⟨rs, e1, e2, -, -⟩ := index_fails (aes := A.aes) (c := A.c) (u := u) (v := v) hsz W.threadsA hs hl1 hl2 hr' hl3 hno
      rw [he] at e2
      rw [e1]
      show Pair P (afterMpfss s rs) _ _
      rw [afterMpfss_err _ e2]
      exact Pair.failL (hP _ hx (fun S => hno (hhash S.1)))

/-! ### The code generator -/

theorem exchange_pair (W : Together h A B) (s r : VState T) :
    Pair P (exchangeSeed A s) (exchangeSeed B r) (fun a s' b r' => a = b ∧ a.length = 32 ∧ s' = { s with pos := s.pos + 1 } ∧
      r' = { r with pos := r.pos + 1 }) := by
  unfold exchangeSeed
  rw [VM.draw_bind, VM.draw_bind, W.ids, W.chans]
  cases A.lower with
  | true =>
    simp only [Bool.not_true, if_true, Bool.false_eq_true, if_false]
    rw [VM.run_send_bind, VM.run_recv_bind]
    refine Pair.sendRecv ?_
    exact Pair.ret ⟨rfl, by simp, rfl, rfl⟩
  | false =>
    simp only [Bool.not_false, if_true, Bool.false_eq_true, if_false]
    rw [VM.run_send_bind, VM.run_recv_bind]
    refine Pair.recvSend ?_
    exact Pair.ret ⟨rfl, by simp, rfl, rfl⟩

/-- Sampling the code: both parties fail, or both obtain the same matrix. -/
theorem common_pair {M N : Nat} (hP : ∀ o, Expected o → ¬ (SmoothTo M N h A ∧ SmoothTo M N h B) → P o) (W : Together h A B) {t o : Nat} {s r : VState T}
    (ht : (t : Int) ∈ noiseSizes) (hle : t ≤ o) (ho : o ≤ 10616092) (hM : o ≤ M) (hs : Coherent h s.mpfss) (hr : Coherent h r.mpfss)
    (hns : s.noise = t) (hnr : r.noise = t) {vs : Nat} (hv : 1 ≤ vs) (hvs : s.voleSize = vs) (hvr : r.voleSize = vs) :
    Pair P (precomputeCommon A o s) (precomputeCommon B o r) (fun _ s' _ r' => ∃ st st' c p q, Coherent h st ∧ Coherent h st' ∧
      SampledOk c vs o ∧ s' = { s with mpfss := st, code := c, pos := p } ∧ r' = { r with mpfss := st', code := c, pos := q }) := by
  unfold precomputeCommon
  rw [VM.get_bind, VM.get_bind, hns, hnr]
  rcases updateBuckets_cases W ht hle ho W.threadsA hs with ⟨st, e1, h1⟩ | ⟨hb, msg, st, e1⟩
  swap
  · rw [VM.bind_apply]
    unfold updateBuckets
    rw [e1]
    exact Pair.failL (hP _ (Expected.invalid _) (fun S => by rw [S.1.bits t ht o ho] at hb; cases hb))
  rcases updateBuckets_cases W ht hle ho W.threadsB hr with ⟨st', e2, h2⟩ | ⟨hb, msg, st', e2⟩
  swap
  · refine Pair.swap (Post := fun _ r' _ s' => _) ?_
    rw [VM.bind_apply]
    unfold updateBuckets
    rw [e2]
    exact Pair.failL (hP _ (Expected.invalid _) (fun S => by rw [S.1.bits t ht o ho] at hb; cases hb))
  have u1 : ∀ (f : Unit → VM T Unit), (updateBuckets A (o : Int) (t : Int) >>= f) s = f () { s with mpfss := st } := by
    intro f
    rw [VM.bind_apply]
    unfold updateBuckets
    rw [e1]
    rfl
  have u2 : ∀ (f : Unit → VM T Unit), (updateBuckets B (o : Int) (t : Int) >>= f) r = f () { r with mpfss := st' } := by
    intro f
    rw [VM.bind_apply]
    unfold updateBuckets
    rw [e2]
    rfl
  rw [u1, u2, if_neg (by omega), if_neg (by omega), VM.modify_bind, VM.modify_bind]
  refine Pair.bind (exchange_pair W _ _) ?_
  rintro seed s1 seed' r1 ⟨rfl, hl, rfl, rfl⟩
  rw [VM.draw_bind, VM.draw_bind]
  obtain ⟨g, hg, eg⟩ := create_usable (A.rand (s.pos + 1)).junk seed (b := (nonzeros : Int) * o) (by omega) (by unfold nonzeros; omega)
  have eg' : RNG.create (B.rand (r.pos + 1)).junk seed ((nonzeros : Int) * o) = .ok g := by
    rw [create_junk _ (A.rand (s.pos + 1)).junk]; exact eg
  dsimp only
  rw [eg, eg', VM.lift_ok_bind, VM.lift_ok_bind, W.sec]
  cases hcan : Scalar.canHash T (ROT.secPerLeaf A.sec ((nonzeros : Int) * o)) 128 with
  | false =>
    simp only [Bool.not_false, if_true]
    exact Pair.failL (hP _ (Expected.invalid _) (fun S => by rw [S.1.elements o hM] at hcan; cases hcan))
  | true =>
    simp only [Bool.not_true, Bool.false_eq_true, if_false]
    rw [VM.get_bind, VM.get_bind]
    dsimp only
    rw [W.lib, W.aes, hvs, hvr]
    have F : Fine (fun c : Sparse T => SampledOk c vs o) (sampleCode A.lib A.aes (vs : Int) (o : Int).toNat g) := by
      have := sampleCode_fine (T := T) W.conforms (rows := (vs : Int)) (by omega) o hg
      simpa using this
    rcases F.cases (P := P) (fun hno x hx => hP x hx (fun S => hno (S.1.sampling _ seed vs o g hv hM eg))) with ⟨c, ec, hc⟩ | hb
    · rw [ec, VM.lift_ok_bind, VM.lift_ok_bind]
      exact Pair.ret ⟨st, st', c, _, _, h1, h2, hc, by rw [← hns, ← hvs], by rw [← hnr, ← hvr]⟩
    · refine Pair.liftL ?_ (.inr hb)
      intro c ec
      rw [ec] at hb
      exact absurd hb id

end DVO.VOLE
