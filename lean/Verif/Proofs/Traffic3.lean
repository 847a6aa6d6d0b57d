/-
How much the sender of the vector OLE sends.
-/
import Verif.Proofs.Traffic2
import Verif.Proofs.Local8
import Mathlib.Algebra.BigOperators.Intervals

namespace DVO.VOLE
open MPFSS
set_option linter.unusedSectionVars false
variable {T α β : Type} [Scalar T] {P : Price} {h : Cuckoo.Hasher}

/-- Every run of a member function costs at most `N`, exactly `N` if it succeeds, and leaves coherent buckets. -/
def Toll (P : Price) (h : Cuckoo.Hasher) (p : Proc (Msg T) (Out α × VState T)) (N : Nat) : Prop :=
  ∀ o s' n, Runs P p (o, s') n → Coherent h s'.mpfss ∧ n ≤ N ∧ (o.IsOk → n = N)

theorem Toll.costs {p : Proc (Msg T) (Out α × VState T)} {N : Nat} (H : Toll P h p N) : Costs P (fun r => r.1.IsOk) p N := by
  refine Fee.costs ?_
  rintro ⟨o, s⟩ n hr
  exact (H o s n hr).2

theorem Toll.coherent {p : Proc (Msg T) (Out α × VState T)} {N : Nat} (H : Toll P h p N) {o : Out α} {s : VState T} (hr : Returns p (o, s)) :
    Coherent h s.mpfss := by
  suffices ∃ n, Runs P p (o, s) n by
    obtain ⟨n, hn⟩ := this
    exact (H o s n hn).1
  clear H
  generalize he : (o, s) = r at hr ⊢
  clear he
  induction hr with
  | ret a => exact ⟨_, .ret a⟩
  | send _ _ _ _ _ ih => obtain ⟨n, ih⟩ := ih; exact ⟨_, .send _ _ _ _ _ ih⟩
  | recv _ _ _ _ _ ih => obtain ⟨n, ih⟩ := ih; exact ⟨_, .recv _ _ _ _ _ ih⟩
  | otSend _ _ _ _ _ _ ih => obtain ⟨n, ih⟩ := ih; exact ⟨_, .otSend _ _ _ _ _ _ ih⟩
  | otRecv _ _ _ _ _ _ _ ih => obtain ⟨n, ih⟩ := ih; exact ⟨_, .otRecv _ _ _ _ _ _ _ ih⟩

theorem Toll.ret {o : Out α} {s : VState T} (hc : Coherent h s.mpfss) : Toll P h (.ret (o, s)) 0 := by
  intro o' s' n hr
  cases hr
  exact ⟨hc, le_refl _, fun _ => rfl⟩

theorem Toll.fail {o : Out α} {s : VState T} {N : Nat} (hc : Coherent h s.mpfss) (ho : ∀ a, o ≠ .ok a) : Toll P h (.ret (o, s)) N := by
  intro o' s' n hr
  cases hr
  exact ⟨hc, Nat.zero_le _, fun hk => absurd hk (not_ok ho)⟩

theorem Toll.bind {x : VM T α} {f : α → VM T β} {s : VState T} {N M : Nat} (H : Toll P h (x s) N)
    (hk : ∀ a s', Returns (x s) (.ok a, s') → Coherent h s'.mpfss → Toll P h (f a s') M) : Toll P h ((x >>= f) s) (N + M) := by
  intro o s' n hr
  rw [VM.bind_apply] at hr
  obtain ⟨⟨o1, s1⟩, n1, n2, h1, h2, rfl⟩ := hr.bind
  obtain ⟨hc, hle, heq⟩ := H _ _ _ h1
  cases o1 with
  | ok a =>
    obtain ⟨hc', hle', heq'⟩ := hk a s1 h1.returns hc _ _ _ h2
    have := heq ⟨a, rfl⟩
    exact ⟨hc', by omega, fun hok => by have := heq' hok; omega⟩
  | _ =>
    cases h2
    exact ⟨hc, by omega, fun hok => by obtain ⟨a, e⟩ := hok; cases e⟩

theorem Toll.liftBind {x : Out α} {f : α → VM T β} {s : VState T} {M : Nat} (hc : Coherent h s.mpfss)
    (hk : ∀ a, x = .ok a → Toll P h (f a s) M) : Toll P h ((VM.lift x >>= f) s) M := by
  have := Toll.bind (P := P) (h := h) (x := VM.lift x) (f := f) (s := s) (N := 0) (M := M) (Toll.ret hc) (fun a s' hr _ => by
    generalize hy : ((.ok a, s') : Out α × VState T) = y at hr
    cases hr
    cases hy
    exact hk a rfl)
  rwa [Nat.zero_add] at this

theorem Toll.runBind {p : PM (Msg T) α} {f : α → VM T β} {s : VState T} {N M : Nat} (hc : Coherent h s.mpfss) (hp : PFee P p N)
    (hk : ∀ a, Returns (α := Out α) p (.ok a) → Toll P h (f a s) M) : Toll P h ((VM.run p >>= f) s) (N + M) := by
  refine Toll.bind ?_ ?_
  · intro o s' n hr
    obtain ⟨o1, n1, n2, h1, h2, rfl⟩ := Runs.bind (T := T) (p := p) hr
    cases h2
    exact ⟨hc, hp _ _ h1⟩
  · intro a s' hr _
    obtain ⟨o1, h1, h2⟩ := Returns.bind (M := Msg T) hr
    cases h2
    exact hk a h1

theorem Toll.runMpfssBind {p : MPFSS.State → Proc (Msg T) (MPFSS.Res T)} {f : List T → VM T β} {s : VState T} {N M : Nat}
    (hp : Fee P Res.Good (p s.mpfss) N) (hc : ∀ r, Returns (p s.mpfss) r → Coherent h r.st)
    (hk : ∀ r, Returns (p s.mpfss) r → Toll P h (f r.output { s with mpfss := r.st }) M) : Toll P h ((VM.runMpfss p >>= f) s) (N + M) := by
  refine Toll.bind ?_ ?_
  · intro o s' n hr
    obtain ⟨r, n1, n2, h1, h2, rfl⟩ := Runs.bind hr
    have := hp r n1 h1
    have hcr := hc r h1.returns
    cases hst : r.status with
    | ok a =>
      rw [hst] at h2
      cases h2
      exact ⟨hcr, this.1, fun _ => this.2 ⟨_, hst⟩⟩
    | _ =>
      rw [hst] at h2
      cases h2
      exact ⟨hcr, this.1, fun hok => by obtain ⟨a, e⟩ := hok; cases e⟩
  · intro a s' hr _
    obtain ⟨r, h1, h2⟩ := Returns.bind hr
    cases hst : r.status with
    | ok a =>
      rw [hst] at h2
      cases h2
      exact hk r h1
    | _ => rw [hst] at h2; cases h2

theorem Toll.weaken {p : Proc (Msg T) (Out α × VState T)} {N M : Nat} (H : Toll P h p N) (e : N = M) : Toll P h p M := e ▸ H

theorem getSenderCached_toll {n : Int} {s : VState T} (hc : Coherent h s.mpfss) : Toll P h (getSenderCached n s) 0 := by
  unfold getSenderCached
  rw [VM.get_bind]
  refine Toll.liftBind hc (fun a _ => ?_)
  exact Toll.ret hc

theorem getReceiverCached_toll {n : Int} {s : VState T} (hc : Coherent h s.mpfss) : Toll P h (getReceiverCached n s) 0 := by
  unfold getReceiverCached
  rw [VM.get_bind]
  refine Toll.liftBind hc (fun a _ => ?_)
  exact Toll.ret hc

theorem Toll.getSenderBind {n : Int} {f : SRes T → VM T β} {s : VState T} {M : Nat} (hc : Coherent h s.mpfss)
    (hk : ∀ rest a, getSender s.sCached n = .ok (rest, a) → Toll P h (f a { s with sCached := rest }) M) : Toll P h ((getSenderCached n >>= f) s) M := by
  rw [← Nat.zero_add M]
  refine Toll.bind (getSenderCached_toll hc) (fun a s' hr _ => ?_)
  obtain ⟨rest, hg, rfl⟩ := (getSenderCached_loc n s).ok hr
  exact hk rest a hg

theorem Toll.getReceiverBind {n : Int} {f : RRes T → VM T β} {s : VState T} {M : Nat} (hc : Coherent h s.mpfss)
    (hk : ∀ rest a, getReceiver s.rCached n = .ok (rest, a) → Toll P h (f a { s with rCached := rest }) M) : Toll P h ((getReceiverCached n >>= f) s) M := by
  rw [← Nat.zero_add M]
  refine Toll.bind (getReceiverCached_toll hc) (fun a s' hr _ => ?_)
  obtain ⟨rest, hg, rfl⟩ := (getReceiverCached_loc n s).ok hr
  exact hk rest a hg

theorem index_coherent {aes fl c thr} (ht : Threads thr) {st : State} (hc : Coherent h st) {y : List T} {is : List Int} {u v output : List T} {r : Res T}
    (hr : Returns (runIndexProviderVectorOLE aes fl c thr st y is u v output) r) : Coherent h r.st := by
  rcases index_st hr with e | e <;> rw [e]
  · exact hc
  · exact hc.update ht _ _

theorem value_coherent {aes fl c sec key seed thr} (ht : Threads thr) {st : State} (hc : Coherent h st) {x : T} {t : Int} {w output : List T} {r : Res T}
    (hr : Returns (runValueProviderVectorOLE aes fl c sec key seed thr st x t w output) r) : Coherent h r.st := by
  rcases value_st hr with e | e <;> rw [e]
  · exact hc
  · exact hc.update ht _ _

theorem expandSender_toll {E : Env T} (ht : Threads E.thr) {t o : Nat} (ht31 : t < 2 ^ 31) (hb : h.optimal t < 2 ^ 31) (nv nm : Int) {s : VState T}
    (hc : Coherent h s.mpfss) (hn : s.noise = t) : Toll P h (expandSender E o nv nm s) (senderFee P E.fl h t o) := by
  unfold expandSender
  rw [VM.get_bind]
  split
  · exact Toll.fail hc (by intro a e; cases e)
  split
  · exact Toll.fail hc (by intro a e; cases e)
  rw [VM.draw_bind]
  refine Toll.liftBind hc (fun rng _ => ?_)
  split
  · exact Toll.fail hc (by intro a e; cases e)
  refine Toll.liftBind hc (fun set _ => ?_)
  rw [VM.draw_bind]
  refine Toll.liftBind hc (fun y hy => ?_)
  rw [VM.draw_bind]
  refine Toll.liftBind hc (fun v0 hv0 => ?_)
  have ly : y.length = t := by rw [(vecOf_ok hy).2, hn]; simp
  have lv : v0.length = o := by rw [(vecOf_ok hv0).2]; simp
  rw [← Nat.add_zero (senderFee P E.fl h t o)]
  refine Toll.runMpfssBind ?_ (fun r hr => index_coherent ht hc hr) (fun r hr => ?_)
  · have := index_fee (P := P) E.aes E.fl E.c ht hc (y := y) (by omega) (by rw [ly]; exact hb) ((E.rand s.pos).order set) s.sMpfss.u s.sMpfss.v v0
    rw [ly, lv] at this
    exact this
  have hc' := index_coherent ht hc hr
  refine Toll.liftBind hc' (fun mu _ => Toll.liftBind hc' (fun u _ => Toll.liftBind hc' (fun u2 _ => Toll.liftBind hc' (fun v _ => Toll.liftBind hc' (fun v2 _ => ?_)))))
  rw [VM.modify_bind]
  refine Toll.bind (N := 0) (M := 0) (getSenderCached_toll hc') (fun a s' _ hs' => ?_)
  rw [VM.modify_bind]
  refine Toll.bind (N := 0) (M := 0) (getSenderCached_toll hs') (fun a s' _ hs' => ?_)
  exact Toll.ret hs'

theorem exchangeSeed_toll {E : Env T} {s : VState T} (hc : Coherent h s.mpfss) : Toll P h (exchangeSeed E s) (seedFee P E) := by
  unfold exchangeSeed seedFee
  rw [VM.draw_bind]
  split
  · refine Toll.runBind (M := 0) hc ?_ (fun _ _ => Toll.ret hc)
    exact Fee.send (M := P.byte * 32) (N := 0) (by simp [Price.msg]) Fee.ret
  · refine Toll.runBind (N := 0) (M := 0) hc ?_ (fun m _ => Toll.ret hc)
    exact Fee.recv (fun m => Fee.ret)

theorem precomputeCommon_toll {E : Env T} (ht : Threads E.thr) (o : Int) {s : VState T} (hc : Coherent h s.mpfss) : Toll P h (precomputeCommon E o s) (seedFee P E) := by
  unfold precomputeCommon
  rw [VM.get_bind, ← Nat.zero_add (seedFee P E)]
  refine Toll.bind (N := 0) ?_ (fun _ s1 _ h1 => ?_)
  · exact Toll.ret (hc.update ht _ _)
  split
  · exact Toll.fail h1 (by intro a e; cases e)
  rw [VM.modify_bind, ← Nat.add_zero (seedFee P E)]
  refine Toll.bind (M := 0) (exchangeSeed_toll h1) (fun seed s2 _ h2 => ?_)
  rw [VM.draw_bind]
  refine Toll.liftBind h2 (fun rng _ => ?_)
  split
  · exact Toll.fail h2 (by intro a e; cases e)
  rw [VM.get_bind]
  refine Toll.liftBind h2 (fun code _ => ?_)
  exact Toll.ret h2

/-! ### The parameters -/

theorem noise_row {i : Nat} {n : Int} (e : rd noiseSizes i = .ok n) : i ≤ 4 ∧ n = noiseOf i := by
  obtain ⟨hi, hx⟩ : i < noiseSizes.length ∧ noiseSizes[i]? = some n := by
    unfold rd at e
    split at e
    · next x hx => cases e; exact ⟨(List.getElem?_eq_some_iff.1 hx).1, hx⟩
    · cases e
  have : i ≤ 4 := by simpa [noiseSizes] using Nat.le_of_lt_succ hi
  refine ⟨this, ?_⟩
  interval_cases i <;> simp [noiseSizes] at hx <;> simp [noiseOf, ← hx]

theorem seed_row {i : Nat} {n : Int} (e : rd seedSizes i = .ok n) : n = seedOf i := by
  have hx : seedSizes[i]? = some n := by
    unfold rd at e
    split at e
    · next x hx => cases e; exact hx
    · cases e
  have : i < 5 := (List.getElem?_eq_some_iff.1 hx).1
  interval_cases i <;> simp [seedSizes] at hx <;> simp [seedOf, ← hx]

theorem output_row {i : Nat} {n : Int} (e : rd outputSizes i = .ok n) : n = outputOf i := by
  have hx : outputSizes[i]? = some n := by
    unfold rd at e
    split at e
    · next x hx => cases e; exact hx
    · cases e
  have : i < 5 := (List.getElem?_eq_some_iff.1 hx).1
  interval_cases i <;> simp [outputSizes] at hx <;> simp [outputOf, ← hx]

theorem noiseOf_pos (i : Nat) : 0 < noiseOf i := by
  unfold noiseOf; split <;> omega

theorem noiseOf_lt (i : Nat) : noiseOf i < 2 ^ 31 := by
  unfold noiseOf; split <;> omega

theorem numBuckets_row (hm : ModerateBuckets h) {i : Nat} (hi : i ≤ 4) {m : Int} (e : numBuckets h (noiseOf i) = .ok m) : m = bucketsOf h i := by
  obtain ⟨h1, h2⟩ := hm i hi
  have h3 := noiseOf_pos i
  unfold numBuckets Cuckoo.getOptimalNumberOfBuckets at e
  rw [if_neg (by omega), if_neg (by omega)] at e
  split at e
  · rw [Int.toNat_natCast, toInt64_ok (by omega) (by omega), Out.ok_bind] at e
    cases e
    rw [BitVec.toInt_ofInt, Int.bmod_def, bucketsOf]
    have : h.optimal (noiseOf i) % ((2 ^ 32 : Nat) : Int) = h.optimal (noiseOf i) := Int.emod_eq_of_lt (by omega) (by push_cast; omega)
    rw [this]
    push_cast
    rw [if_pos (by omega)]
    omega
  · cases e

theorem rowFor_le (h : Cuckoo.Hasher) (b : Int) : rowFor h b ≤ 4 := by
  have := List.findIdx_le_length (xs := List.range 4) (p := fun i => decide (b + bucketsOf h i + seedOf i ≤ outputOf i))
  simpa [rowFor] using this

theorem rowFor_eq {b : Int} {i : Nat} (hi : i ≤ 4) (hs : ∀ k < i, ¬ b + bucketsOf h k + seedOf k ≤ outputOf k)
    (hl : i = 4 ∨ b + bucketsOf h i + seedOf i ≤ outputOf i) : rowFor h b = i := by
  unfold rowFor
  by_cases h4 : i < 4
  · rw [List.findIdx_eq (by simpa using h4)]
    refine ⟨?_, fun j hj => ?_⟩
    · rcases hl with e | e
      · omega
      · simpa using e
    · simpa using hs j hj
  · have : i = 4 := by omega
    subst this
    have := List.findIdx_eq_length (xs := List.range 4) (p := fun i => decide (b + bucketsOf h i + seedOf i ≤ outputOf i))
    rw [List.length_range] at this
    rw [this]
    intro x hx
    simpa using hs x (by simpa using hx)

theorem rowFor_gt {b : Int} {i : Nat} (hi : i < 4) (hs : ∀ k ≤ i, ¬ b + bucketsOf h k + seedOf k ≤ outputOf k) : i < rowFor h b := by
  by_contra hc
  have h1 : rowFor h b < (List.range 4).length := by rw [List.length_range]; omega
  unfold rowFor at h1 hc
  have h2 := List.findIdx_getElem (w := h1)
  simp only [List.getElem_range, decide_eq_true_eq] at h2
  exact hs _ (Nat.le_of_not_lt hc) h2

theorem bootSender_toll {E : Env T} (ht : Threads E.thr) (hm : ModerateBuckets h) (b : Int) : ∀ (k i : Nat) (s : VState T), i + k = 4 → SFit s → Row i s →
    Coherent h s.mpfss → (∀ k < i, ¬ b + bucketsOf h k + seedOf k ≤ outputOf k) →
    Toll P h (bootSender E b k i s) (∑ r ∈ Finset.Ico i (rowFor h b), (seedFee P E + senderFee P E.fl h (noiseOf r) (seedOf (r + 1) + bucketsOf h (r + 1)))) := by
  intro k
  induction k with
  | zero =>
    intro i s hi _ _ hc hs
    rw [rowFor_eq (by omega) hs (.inl (by omega)), Finset.Ico_self, Finset.sum_empty]
    exact Toll.ret hc
  | succ k ih =>
    intro i s hi hf hr hc hs
    obtain ⟨hi4, en⟩ := noise_row hr.1
    have ev := seed_row hr.2
    have hh : s.mpfss.hasher = h := hc.hasher
    have em : s.mpfssSize = bucketsOf h i := numBuckets_row hm hi4 (by have := hf.buckets; rwa [hh, en] at this)
    unfold bootSender
    rw [VM.get_bind]
    refine Toll.liftBind hc (fun o ho => Toll.liftBind hc (fun need hneed => ?_))
    have hneed : need = b + s.mpfssSize + s.voleSize := by
      obtain ⟨x, h1, h2⟩ := Out.bind_eq_ok.1 hneed
      rw [i64_eq h2, i64_eq h1]
    have eo := output_row ho
    rw [em, ev] at hneed
    split
    · next hge =>
      rw [rowFor_eq (i := i) hi4 hs (.inr (by omega)), Finset.Ico_self, Finset.sum_empty]
      exact Toll.ret hc
    next hge =>
    have hs' : ∀ k < i + 1, ¬ b + bucketsOf h k + seedOf k ≤ outputOf k := by
      intro k' hk'
      by_cases hk : k' = i
      · subst hk; omega
      · exact hs k' (by omega)
    have hgt : i < rowFor h b := rowFor_gt (by omega) (fun k' hk' => hs' k' (by omega))
    refine Toll.liftBind hc (fun nv hnv => Toll.liftBind hc (fun nn hnn => Toll.liftBind hc (fun nm hnm => Toll.liftBind hc (fun out hout => ?_))))
    have hout := i32_eq hout
    obtain ⟨hi5, enn⟩ := noise_row hnn
    have env := seed_row hnv
    have enm : nm = bucketsOf h (i + 1) := numBuckets_row hm hi5 (by rwa [hh, enn] at hnm)
    obtain ⟨hb0, hb1⟩ := hm i hi4
    rw [Finset.sum_eq_sum_Ico_succ_bot hgt, Nat.add_assoc]
    have eout : out = ((seedOf (i + 1) + bucketsOf h (i + 1) : Nat) : Int) := by rw [hout, env, enm]; push_cast; rfl
    have hl1 := precomputeCommon_loc E out s
    refine Toll.bind (precomputeCommon_toll ht out hc) (fun _ s1 hr1 hc1 => ?_)
    obtain ⟨st, code, pos, rfl, hst, hrows, hcols⟩ := hl1.ok hr1
    have hl2 := expandSender_loc E out nv nm { s with mpfss := st, code := code, pos := pos }
    rw [eout] at hl2 ⊢
    refine Toll.bind (expandSender_toll ht (noiseOf_lt i) hb1 nv nm hc1 en) (fun _ s2 hr2 hc2 => ?_)
    have hx := hl2.ok hr2
    rw [VM.modify_bind]
    have hfit : SFit { s2 with noise := nn } := by
      constructor
      · exact hx.volU.trans hx.voleSize.symm
      · exact hx.volV.trans hx.voleSize.symm
      · exact hx.mpU.trans hx.mpfssSize.symm
      · exact hx.mpV.trans hx.mpfssSize.symm
      · dsimp only
        rw [hx.hasher, hx.mpfssSize]
        dsimp only
        rw [hst]; exact hnm
    exact ih (i + 1) { s2 with noise := nn } (by omega) hfit ⟨hnn, hx.voleSize ▸ hnv⟩ hc2 hs'

theorem finishPrecompute_toll {E : Env T} (ht : Threads E.thr) (b : Int) {s : VState T} (hc : Coherent h s.mpfss) :
    Toll P h (finishPrecompute E b s) (seedFee P E) := by
  unfold finishPrecompute
  rw [VM.get_bind]
  refine Toll.liftBind hc (fun last _ => Toll.liftBind hc (fun cap _ => ?_))
  rw [VM.modify_bind, VM.get_bind]
  exact precomputeCommon_toll ht _ hc

theorem startPrecompute_toll {s : VState T} (hc : Coherent h s.mpfss) : Toll P h (startPrecompute s) 0 := by
  unfold startPrecompute
  rw [VM.modify_bind]
  refine Toll.liftBind hc (fun noise _ => Toll.liftBind hc (fun vole _ => ?_))
  rw [VM.modify_bind, VM.get_bind]
  refine Toll.liftBind hc (fun m _ => ?_)
  rw [VM.modify_bind]
  exact Toll.ret hc

set_option maxHeartbeats 1000000 in
theorem precomputeSender_toll {E : Env T} (ht : Threads E.thr) (hm : ModerateBuckets h) (b : Int) {s : VState T} (hc : Coherent h s.mpfss) :
    Toll P h (precomputeSender E b s) (precomputeSenderFee P E h b) := by
  unfold precomputeSender
  split
  · exact Toll.fail hc (by intro a e; cases e)
  rw [← Nat.zero_add (precomputeSenderFee P E h b)]
  refine Toll.bind (startPrecompute_toll hc) (fun n s1 hr1 hc1 => ?_)
  obtain ⟨m, hmm, hn, rfl⟩ := (startPrecompute_loc s).ok hr1
  have em : m = bucketsOf h 0 := numBuckets_row hm (by omega) (by rw [hc.hasher] at hmm; exact hmm)
  have en : n.toNat = seedOf 0 + bucketsOf h 0 := by rw [hn, em]; simp only [seedOf]; omega
  unfold precomputeSenderFee
  generalize seedOf 0 + bucketsOf h 0 = n0 at en ⊢
  rw [Nat.add_assoc]
  rw [VM.draw_bind]
  refine Toll.liftBind hc (fun w hw => ?_)
  rw [VM.draw_bind]
  refine Toll.liftBind hc (fun u hu => ?_)
  rw [VM.draw_bind]
  refine Toll.liftBind hc (fun v hv => ?_)
  rw [VM.modify_bind]
  obtain ⟨hn0, hw⟩ := vecOf_ok hw
  obtain ⟨-, hu⟩ := vecOf_ok hu
  obtain ⟨-, hv⟩ := vecOf_ok hv
  have lw : w.length = n0 := by rw [hw, ← en]; simp
  have lu : u.length = n.toNat := by rw [hu]; simp
  have lv : v.length = n.toNat := by rw [hv]; simp
  refine Toll.runBind hc ?_ (fun w1 _ => ?_)
  · rw [← lw]
    exact Gilboa.vector_fee E.c E.sec _ _ u w
  refine Toll.liftBind hc (fun w2 hw2 => ?_)
  have lw2 : w2.length = n0 := by
    unfold vecOp at hw2
    split at hw2
    · cases hw2
    · cases hw2
      rw [List.length_zipWith]
      omega
  refine Toll.runBind hc ?_ (fun _ _ => ?_)
  · rw [← lw2]
    exact Fee.send (M := P.elem * w2.length) (N := 0) rfl Fee.ret
  rw [VM.get_bind]
  dsimp only
  refine Toll.getSenderBind hc (fun rest a hg => ?_)
  rw [VM.modify_bind]
  refine Toll.getSenderBind hc (fun rest2 c hg2 => ?_)
  rw [VM.modify_bind]
  obtain ⟨g1, g2, g3, rfl, rfl⟩ := getSender_ok hg
  obtain ⟨g4, g5, g6, rfl, rfl⟩ := getSender_ok hg2
  dsimp only at g2 g3 g5 g6 ⊢
  generalize hs4 : ({ s with batch := 0, noise := 98, voleSize := 1589, mpfssSize := m, pos := _, sCached := _, sVole := _, sMpfss := _, sMade := _, sUsed := _ } : VState T) = s4
  have hfit : SFit s4 := by
    subst hs4
    simp only [List.length_take] at g2 g3 g5 g6
    constructor
    · simp only [List.length_drop]; omega
    · simp only [List.length_drop]; omega
    · simp only [List.length_drop, List.length_take]; omega
    · simp only [List.length_drop, List.length_take]; omega
    · exact hmm
  have hrow : Row 0 s4 := by subst hs4; exact ⟨rfl, rfl⟩
  have hc4 : Coherent h s4.mpfss := by subst hs4; exact hc
  clear hs4
  unfold bootFee
  refine Toll.bind (N := ∑ i ∈ Finset.range (rowFor h b), (seedFee P E + senderFee P E.fl h (noiseOf i) (seedOf (i + 1) + bucketsOf h (i + 1)))) ?_ (fun _ s5 _ hc5 => ?_)
  · rw [Finset.range_eq_Ico]
    exact bootSender_toll ht hm b _ 0 s4 rfl hfit hrow hc4 (fun k hk => by omega)
  · refine Toll.bind (M := 0) (finishPrecompute_toll ht b hc5) (fun _ s6 _ hc6 => ?_)
    exact Toll.ret hc6

/-! ### Runs -/

theorem senderStep_toll {n : Int} {res : SRes T} {copied : Nat} {s : VState T} (hc : Coherent h s.mpfss) : Toll P h ((
        if (copied : Int) + s.sCached.u.length ≤ n then do
          let u ← VM.lift (setSeg res.u copied s.sCached.u)
          let v ← VM.lift (setSeg res.v copied s.sCached.v)
          VM.modify (fun s => { s with sCached := ⟨[], [], []⟩ })
          pure (⟨u, v, putIds res.ids copied s.sCached.ids⟩, copied + s.sCached.u.length)
        else do
          let remaining := n - copied
          let c ← getSenderCached remaining
          let u ← VM.lift (setTail res.u remaining c.u)
          let v ← VM.lift (setTail res.v remaining c.v)
          pure (⟨u, v, putIds res.ids copied c.ids⟩, n.toNat) : VM T (SRes T × Nat)) s) 0 := by
  split
  · refine Toll.liftBind hc (fun u _ => Toll.liftBind hc (fun v _ => ?_))
    rw [VM.modify_bind]
    exact Toll.ret hc
  · refine Toll.bind (N := 0) (M := 0) (getSenderCached_toll hc) (fun c s' _ hc' => ?_)
    exact Toll.liftBind hc' (fun u _ => Toll.liftBind hc' (fun v _ => Toll.ret hc'))

theorem runSenderLoop_toll {E : Env T} (ht : Threads E.thr) (n b t o : Nat) (hb : 1 ≤ b) (ht31 : t < 2 ^ 31) (hbk : h.optimal t < 2 ^ 31) (f : Nat) :
    ∀ (res : SRes T) (copied : Nat) (s : VState T), SReady s → s.batch = b → s.noise = t → s.batch + s.voleSize + s.mpfssSize = o → copied ≤ n → Coherent h s.mpfss →
    Toll P h (runSenderLoop E n f res copied s) (cdiv (n - copied - s.sCached.u.length) b * senderFee P E.fl h t o) := by
  induction f with
  | zero => intro res copied s _ _ _ _ _ hc; exact Toll.fail hc (by intro a e; cases e)
  | succ f ih =>
    intro res copied s hs hbat hno ho hle hc
    unfold runSenderLoop
    by_cases h1 : (copied : Int) < n
    · rw [if_pos h1, VM.get_bind]
      have hl := senderStep_ready (F := fun _ _ => True) n res copied s hs h1 (fun _ _ _ _ _ _ _ => True.intro)
      rw [← Nat.zero_add (cdiv (n - copied - s.sCached.u.length) b * senderFee P E.fl h t o)]
      refine Toll.bind (senderStep_toll hc) ?_
      rintro ⟨r, c⟩ s1 hr1 hc1
      obtain ⟨h1, h2, h2l, h3, h4⟩ := hl.ok hr1
      dsimp only at h3 ⊢
      have hno1 : s1.noise = t := h2.noise.trans hno
      have ho1 : s1.batch + s1.voleSize + s1.mpfssSize = o := by rw [h2.batch, h2.vole, h2.mpfss, ho]
      by_cases h5 : (c : Int) < n
      · rw [if_pos h5, VM.get_bind, ho1]
        have hl2 := expandSender_loc E o s1.voleSize s1.mpfssSize s1
        rw [cdiv_step hb (by omega), Nat.succ_mul, Nat.add_comm]
        refine Toll.bind (expandSender_toll ht ht31 hbk _ _ hc1 hno1) (fun _ s2 hr2 hc2 => ?_)
        have hx := hl2.ok hr2
        obtain ⟨h6, h7⟩ := hx.ready h1
        have hu := hx.u
        have hbb := h2.batch
        have hc2' : s2.sCached.u.length = b := by omega
        have := ih r c s2 h6 (h7.batch.trans (h2.batch.trans hbat)) (h7.noise.trans hno1) (by rw [h7.batch, h7.vole, h7.mpfss, ho1]) (by omega) hc2
        rw [hc2'] at this
        rwa [show n - copied - s.sCached.u.length - b = n - c - b by omega]
      · rw [if_neg h5]
        have := ih r c s1 h1 (h2.batch.trans hbat) hno1 ho1 (by omega) hc1
        rw [show n - c - s1.sCached.u.length = 0 by omega, cdiv_zero hb, Nat.zero_mul] at this
        rw [show n - copied - s.sCached.u.length = 0 by omega, cdiv_zero hb, Nat.zero_mul]
        exact this
    · rw [if_neg h1, show n - copied - s.sCached.u.length = 0 by omega, cdiv_zero hb, Nat.zero_mul]
      exact Toll.ret hc

theorem senderRest_toll {E : Env T} (ht : Threads E.thr) (n b t o : Nat) (hb : 1 ≤ b) (ht31 : t < 2 ^ 31) (hbk : h.optimal t < 2 ^ 31) {s : VState T}
    (hs : SReady s) (hbat : s.batch = b) (hno : s.noise = t) (ho : s.batch + s.voleSize + s.mpfssSize = o) (hc : Coherent h s.mpfss) :
    Toll P h (senderRest E n s) (cdiv (n - s.sCached.u.length) b * senderFee P E.fl h t o) := by
  rcases senderRest_cases E n s with ⟨rest, res, hg, e⟩ | ⟨hg, e⟩ | ⟨w, e⟩
  · rw [e]
    obtain ⟨g1, g2, g3, rfl, -⟩ := getSender_ok hg
    rw [show n - s.sCached.u.length = 0 by omega, cdiv_zero hb, Nat.zero_mul]
    exact Toll.ret hc
  · rw [e]
    exact runSenderLoop_toll ht n b t o hb ht31 hbk _ _ 0 { s with pos := s.pos + 1 + 1 } (hs.adj s.mpfss _ rfl) hbat hno ho (by omega) hc
  · rw [e]; exact Toll.fail hc (by intro a e; cases e)

end DVO.VOLE
