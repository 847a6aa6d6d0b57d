/-
The buckets are those of the hasher in every state that an object can reach.
-/
import Verif.Proofs.Traffic4

namespace DVO.VOLE
open MPFSS
set_option linter.unusedSectionVars false
variable {T α β : Type} [Scalar T] {P : Price} {h : Cuckoo.Hasher}

/-- Every run of a member function leaves coherent buckets, however it ends. -/
def Coh (h : Cuckoo.Hasher) (p : Proc (Msg T) (Out α × VState T)) : Prop := ∀ o s', Returns p (o, s') → Coherent h s'.mpfss

theorem Coh.ret {o : Out α} {s : VState T} (hc : Coherent h s.mpfss) : Coh h (.ret (o, s)) := by
  intro o' s' hr
  cases hr
  exact hc

theorem Coh.bind {x : VM T α} {f : α → VM T β} {s : VState T} (H : Coh h (x s)) (hk : ∀ a s', Coherent h s'.mpfss → Coh h (f a s')) : Coh h ((x >>= f) s) := by
  intro o s' hr
  rw [VM.bind_apply] at hr
  obtain ⟨⟨o1, s1⟩, h1, h2⟩ := Returns.bind hr
  have hc := H _ _ h1
  cases o1 with
  | ok a => exact hk a s1 hc _ _ h2
  | _ => cases h2; exact hc

theorem Coh.liftBind {x : Out α} {f : α → VM T β} {s : VState T} (hc : Coherent h s.mpfss) (hk : ∀ a, Coh h (f a s)) : Coh h ((VM.lift x >>= f) s) := by
  intro o s' hr
  rw [VM.bind_apply] at hr
  cases x with
  | ok a => exact hk a _ _ hr
  | _ => cases hr; exact hc

theorem Coh.runBind {p : PM (Msg T) α} {f : α → VM T β} {s : VState T} (hc : Coherent h s.mpfss) (hk : ∀ a, Coh h (f a s)) : Coh h ((VM.run p >>= f) s) := by
  intro o s' hr
  rw [VM.bind_apply] at hr
  obtain ⟨⟨o1, s1⟩, h1, h2⟩ := Returns.bind hr
  obtain ⟨o2, h3, h4⟩ := Returns.bind (M := Msg T) h1
  cases h4
  cases o1 with
  | ok a => exact hk a _ _ h2
  | _ => cases h2; exact hc

theorem Coh.runMpfssBind {p : MPFSS.State → Proc (Msg T) (MPFSS.Res T)} {f : List T → VM T β} {s : VState T}
    (hc : ∀ r, Returns (p s.mpfss) r → Coherent h r.st) (hk : ∀ r : MPFSS.Res T, Coherent h r.st → Coh h (f r.output { s with mpfss := r.st })) :
    Coh h ((VM.runMpfss p >>= f) s) := by
  intro o s' hr
  rw [VM.bind_apply] at hr
  obtain ⟨⟨o1, s1⟩, h1, h2⟩ := Returns.bind hr
  obtain ⟨r, h3, h4⟩ := Returns.bind h1
  have hcr := hc r h3
  cases hst : r.status with
  | ok a =>
    rw [hst] at h4
    cases h4
    exact hk r hcr _ _ h2
  | _ =>
    rw [hst] at h4
    cases h4
    cases h2
    exact hcr

theorem getSenderCached_coh {n : Int} {s : VState T} (hc : Coherent h s.mpfss) : Coh h (getSenderCached n s) := by
  unfold getSenderCached
  rw [VM.get_bind]
  exact Coh.liftBind hc (fun a => Coh.ret hc)

theorem getReceiverCached_coh {n : Int} {s : VState T} (hc : Coherent h s.mpfss) : Coh h (getReceiverCached n s) := by
  unfold getReceiverCached
  rw [VM.get_bind]
  exact Coh.liftBind hc (fun a => Coh.ret hc)

theorem expandSender_coh {E : Env T} (ht : Threads E.thr) (o nv nm : Int) {s : VState T} (hc : Coherent h s.mpfss) : Coh h (expandSender E o nv nm s) := by
  unfold expandSender
  rw [VM.get_bind]
  split
  · exact Coh.ret hc
  split
  · exact Coh.ret hc
  rw [VM.draw_bind]
  refine Coh.liftBind hc (fun rng => ?_)
  split
  · exact Coh.ret hc
  refine Coh.liftBind hc (fun set => ?_)
  rw [VM.draw_bind]
  refine Coh.liftBind hc (fun y => ?_)
  rw [VM.draw_bind]
  refine Coh.liftBind hc (fun v0 => ?_)
  refine Coh.runMpfssBind (fun r hr => index_coherent ht hc hr) (fun r hc' => ?_)
  refine Coh.liftBind hc' (fun mu => Coh.liftBind hc' (fun u => Coh.liftBind hc' (fun u2 => Coh.liftBind hc' (fun v => Coh.liftBind hc' (fun v2 => ?_)))))
  rw [VM.modify_bind]
  refine Coh.bind (getSenderCached_coh hc') (fun a s' hs' => ?_)
  rw [VM.modify_bind]
  exact Coh.bind (getSenderCached_coh hs') (fun a s' hs' => Coh.ret hs')

theorem expandReceiver_coh {E : Env T} (ht : Threads E.thr) (o nv nm : Int) {s : VState T} (hc : Coherent h s.mpfss) : Coh h (expandReceiver E o nv nm s) := by
  unfold expandReceiver
  rw [VM.get_bind]
  split
  · exact Coh.ret hc
  rw [VM.draw_bind]
  refine Coh.liftBind hc (fun garbage => ?_)
  rw [VM.modify_bind, VM.draw_bind]
  refine Coh.liftBind hc (fun v0 => ?_)
  refine Coh.runMpfssBind (fun r hr => value_coherent ht hc hr) (fun r hc' => ?_)
  refine Coh.liftBind hc' (fun w => Coh.liftBind hc' (fun w2 => ?_))
  rw [VM.modify_bind]
  refine Coh.bind (getReceiverCached_coh hc') (fun a s' hs' => ?_)
  rw [VM.modify_bind]
  exact Coh.bind (getReceiverCached_coh hs') (fun a s' hs' => Coh.ret hs')

theorem Toll.coh {p : Proc (Msg T) (Out α × VState T)} {N : Nat} (H : Toll P h p N) : Coh h p := fun _ _ hr => H.coherent hr

theorem precomputeCommon_coh {E : Env T} (ht : Threads E.thr) (o : Int) {s : VState T} (hc : Coherent h s.mpfss) : Coh h (precomputeCommon E o s) :=
  (precomputeCommon_toll (P := ⟨0, 0, 0, 0⟩) ht o hc).coh

theorem bootSender_coh {E : Env T} (ht : Threads E.thr) (b : Int) : ∀ (k i : Nat) (s : VState T), Coherent h s.mpfss → Coh h (bootSender E b k i s) := by
  intro k
  induction k with
  | zero => intro i s hc; exact Coh.ret hc
  | succ k ih =>
    intro i s hc
    unfold bootSender
    rw [VM.get_bind]
    refine Coh.liftBind hc (fun o => Coh.liftBind hc (fun need => ?_))
    split
    · exact Coh.ret hc
    refine Coh.liftBind hc (fun nv => Coh.liftBind hc (fun nn => Coh.liftBind hc (fun nm => Coh.liftBind hc (fun out => ?_))))
    refine Coh.bind (precomputeCommon_coh ht out hc) (fun _ s1 hc1 => ?_)
    refine Coh.bind (expandSender_coh ht _ _ _ hc1) (fun _ s2 hc2 => ?_)
    rw [VM.modify_bind]
    exact ih _ _ hc2

theorem bootReceiver_coh {E : Env T} (ht : Threads E.thr) (b : Int) : ∀ (k i : Nat) (s : VState T), Coherent h s.mpfss → Coh h (bootReceiver E b k i s) := by
  intro k
  induction k with
  | zero => intro i s hc; exact Coh.ret hc
  | succ k ih =>
    intro i s hc
    unfold bootReceiver
    rw [VM.get_bind]
    refine Coh.liftBind hc (fun o => Coh.liftBind hc (fun need => ?_))
    split
    · exact Coh.ret hc
    refine Coh.liftBind hc (fun nv => Coh.liftBind hc (fun nn => Coh.liftBind hc (fun nm => Coh.liftBind hc (fun out => ?_))))
    refine Coh.bind (precomputeCommon_coh ht out hc) (fun _ s1 hc1 => ?_)
    refine Coh.bind (expandReceiver_coh ht _ _ _ hc1) (fun _ s2 hc2 => ?_)
    rw [VM.modify_bind]
    exact ih _ _ hc2

theorem precomputeSender_coh {E : Env T} (ht : Threads E.thr) (b : Int) {s : VState T} (hc : Coherent h s.mpfss) : Coh h (precomputeSender E b s) := by
  unfold precomputeSender
  split
  · exact Coh.ret hc
  refine Coh.bind (startPrecompute_toll (P := ⟨0, 0, 0, 0⟩) hc).coh (fun n s1 hc => ?_)
  rw [VM.draw_bind]
  refine Coh.liftBind hc (fun w => ?_)
  rw [VM.draw_bind]
  refine Coh.liftBind hc (fun u => ?_)
  rw [VM.draw_bind]
  refine Coh.liftBind hc (fun v => ?_)
  rw [VM.modify_bind]
  refine Coh.runBind hc (fun w1 => Coh.liftBind hc (fun w2 => Coh.runBind hc (fun _ => ?_)))
  rw [VM.get_bind]
  refine Coh.bind (getSenderCached_coh hc) (fun a s2 hc2 => ?_)
  rw [VM.modify_bind]
  refine Coh.bind (getSenderCached_coh hc2) (fun a s3 hc3 => ?_)
  rw [VM.modify_bind]
  refine Coh.bind (bootSender_coh ht b _ _ _ hc3) (fun _ s4 hc4 => ?_)
  exact Coh.bind (finishPrecompute_toll (P := ⟨0, 0, 0, 0⟩) ht b hc4).coh (fun _ s5 hc5 => Coh.ret hc5)

theorem precomputeReceiver_coh {E : Env T} (ht : Threads E.thr) (b : Int) (d : T) {s : VState T} (hc : Coherent h s.mpfss) : Coh h (precomputeReceiver E b d s) := by
  unfold precomputeReceiver
  split
  · exact Coh.ret hc
  refine Coh.bind (startPrecompute_toll (P := ⟨0, 0, 0, 0⟩) hc).coh (fun n s1 hc => ?_)
  rw [VM.draw_bind]
  refine Coh.liftBind hc (fun w => ?_)
  rw [VM.modify_bind]
  refine Coh.runBind hc (fun w1 => ?_)
  rw [VM.modify_bind]
  refine Coh.runBind hc (fun mm => Coh.liftBind hc (fun w2 => Coh.liftBind hc (fun w3 => ?_)))
  rw [VM.modify_bind, VM.get_bind]
  refine Coh.bind (getReceiverCached_coh hc) (fun a s2 hc2 => ?_)
  rw [VM.modify_bind]
  refine Coh.bind (getReceiverCached_coh hc2) (fun a s3 hc3 => ?_)
  rw [VM.modify_bind]
  refine Coh.bind (bootReceiver_coh ht b _ _ _ hc3) (fun _ s4 hc4 => ?_)
  exact Coh.bind (finishPrecompute_toll (P := ⟨0, 0, 0, 0⟩) ht b hc4).coh (fun _ s5 hc5 => Coh.ret hc5)

theorem precomputeReceiver'_coh {E : Env T} (ht : Threads E.thr) (b : Int) {s : VState T} (hc : Coherent h s.mpfss) : Coh h (precomputeReceiver' E b s) := by
  unfold precomputeReceiver'
  rw [VM.draw_bind]
  exact precomputeReceiver_coh ht b _ hc

theorem runSenderLoop_coh {E : Env T} (ht : Threads E.thr) (n : Int) (f : Nat) : ∀ (res : SRes T) (copied : Nat) (s : VState T), Coherent h s.mpfss →
    Coh h (runSenderLoop E n f res copied s) := by
  induction f with
  | zero => intro res copied s hc; exact Coh.ret hc
  | succ f ih =>
    intro res copied s hc
    unfold runSenderLoop
    split
    · rw [VM.get_bind]
      refine Coh.bind (senderStep_toll (P := ⟨0, 0, 0, 0⟩) hc).coh ?_
      rintro ⟨r, c⟩ s1 hc1
      dsimp only
      split
      · rw [VM.get_bind]
        exact Coh.bind (expandSender_coh ht _ _ _ hc1) (fun _ s2 hc2 => ih _ _ _ hc2)
      · exact ih _ _ _ hc1
    · exact Coh.ret hc

theorem runReceiverLoop_coh {E : Env T} (ht : Threads E.thr) (n : Int) (f : Nat) : ∀ (res : RRes T) (copied : Nat) (s : VState T), Coherent h s.mpfss →
    Coh h (runReceiverLoop E n f res copied s) := by
  induction f with
  | zero => intro res copied s hc; exact Coh.ret hc
  | succ f ih =>
    intro res copied s hc
    unfold runReceiverLoop
    split
    · rw [VM.get_bind]
      refine Coh.bind (receiverStep_toll (P := ⟨0, 0, 0, 0⟩) hc).coh ?_
      rintro ⟨r, c⟩ s1 hc1
      dsimp only
      split
      · rw [VM.get_bind]
        exact Coh.bind (expandReceiver_coh ht _ _ _ hc1) (fun _ s2 hc2 => ih _ _ _ hc2)
      · exact ih _ _ _ hc1
    · exact Coh.ret hc

theorem senderRest_coh {E : Env T} (ht : Threads E.thr) (n : Int) {s : VState T} (hc : Coherent h s.mpfss) : Coh h (senderRest E n s) := by
  rcases senderRest_cases E n s with ⟨rest, res, hg, e⟩ | ⟨hg, e⟩ | ⟨w, e⟩ <;> rw [e]
  · exact Coh.ret hc
  · exact runSenderLoop_coh ht _ _ _ _ _ hc
  · exact Coh.ret hc

theorem receiverRest_coh {E : Env T} (ht : Threads E.thr) (n : Int) {s : VState T} (hc : Coherent h s.mpfss) : Coh h (receiverRest E n s) := by
  rcases receiverRest_cases E n s with ⟨rest, res, hg, e⟩ | ⟨hg, e⟩ | ⟨-, w, e⟩ <;> rw [e]
  · exact Coh.ret hc
  · exact runReceiverLoop_coh ht _ _ _ _ _ hc
  · exact Coh.ret hc

theorem runSender_coh {E : Env T} (ht : Threads E.thr) (n : Int) {s : VState T} (hc : Coherent h s.mpfss) : Coh h (runSender E n s) := by
  rw [runSender_eq]
  split
  · exact senderRest_coh ht n hc
  · exact Coh.bind (precomputeSender_coh ht n hc) (fun _ s1 hc1 => senderRest_coh ht n hc1)

theorem runReceiver_coh {E : Env T} (ht : Threads E.thr) (n : Int) {s : VState T} (hc : Coherent h s.mpfss) : Coh h (runReceiver E n s) := by
  rw [runReceiver_eq]
  split
  · exact receiverRest_coh ht n hc
  · exact Coh.bind (precomputeReceiver'_coh ht n hc) (fun _ s1 hc1 => receiverRest_coh ht n hc1)

/-- In every state that an object can reach, by any calls in any roles with any outcomes. -/
theorem Lives.coherent {E : Env T} (ht : Threads E.thr) {s0 : VState T} (h0 : Coherent h s0.mpfss) {l} {s : VState T} (hl : Lives E s0 l s) : Coherent h s.mpfss := by
  induction hl with
  | new => exact h0
  | @call l s op o s' _ hr ih =>
    have : Coh h ((if op.fwd then asSender E op else asReceiver E op) s) := by
      split <;> cases op
      · exact Coh.bind (precomputeSender_coh ht _ ih) (fun _ _ hc => Coh.ret hc)
      · exact Coh.bind (precomputeSender_coh ht _ ih) (fun _ _ hc => Coh.ret hc)
      · exact Coh.bind (runSender_coh ht _ ih) (fun _ _ hc => Coh.ret hc)
      · exact Coh.bind (precomputeReceiver_coh ht _ _ ih) (fun _ _ hc => Coh.ret hc)
      · exact Coh.bind (precomputeReceiver'_coh ht _ ih) (fun _ _ hc => Coh.ret hc)
      · exact Coh.bind (runReceiver_coh ht _ ih) (fun _ _ hc => Coh.ret hc)
    exact this _ _ hr

end DVO.VOLE
