/-
Lemmas about the multi-point FSS.
-/
import Verif.Spec.MPFSS
import Verif.Proofs.Cuckoo
import Verif.Proofs.SPFSS
import Mathlib.Tactic.Ring

namespace DVO.MPFSS
open Cuckoo ROT Net
variable {T : Type} [Scalar T]

theorem toInt32_eq {n : Nat} (h : n < 2 ^ 31) : toInt32 n = n := by
  unfold toInt32
  rw [← BitVec.ofInt_natCast, BitVec.toInt_ofInt, Int.bmod_def]
  have : ((n : Int) % ((2 ^ 32 : Nat) : Int)) = n := Int.emod_eq_of_lt (by omega) (by push_cast; omega)
  rw [this, if_pos (by push_cast; omega)]

theorem accumulateInt_eq (l : List Nat) (h : l.sum < 2 ^ 31) : accumulateInt l = l.sum := by
  unfold accumulateInt
  have key : ∀ (l : List Nat) (a : Nat), a + l.sum < 2 ^ 31 →
      l.foldl (fun (a : Int) (n : Nat) => (BitVec.ofInt 32 (a + (n : Int))).toInt) (a : Int) = ((a + l.sum : Nat) : Int) := by
    intro l
    induction l with
    | nil => intro a _; simp
    | cons n l ih =>
      intro a ha
      rw [List.sum_cons] at ha
      have e : (BitVec.ofInt 32 ((a : Int) + (n : Int))).toInt = ((a + n : Nat) : Int) := by
        rw [BitVec.toInt_ofInt, Int.bmod_def]
        have : (((a : Int) + (n : Int)) % ((2 ^ 32 : Nat) : Int)) = (a : Int) + n := Int.emod_eq_of_lt (by omega) (by push_cast; omega)
        rw [this, if_pos (by push_cast; omega)]
        push_cast; rfl
      rw [List.foldl_cons, e, ih (a + n) (by omega), List.sum_cons, Nat.add_assoc]
  simpa using key l 0 (by simpa using h)

/-! ### The bucket cache -/

/-- The cached buckets are those computed from scratch. -/
structure Coherent (h : Hasher) (st : State) : Prop where
  hasher : st.hasher = h
  cache : ∀ o n, st.cachedOutputSize = some o → st.cachedNumIndices = some n →
    ∀ thr, Threads thr → computeBuckets thr h o n = .ok st.buckets

theorem getOptimal_lt {h : Hasher} {n r : Int} (hr : getOptimalNumberOfBuckets h n = .ok r) : r < 2 ^ 63 := by
  unfold getOptimalNumberOfBuckets at hr
  split at hr
  · cases hr
  · split at hr
    · cases hr; decide
    · split at hr
      · unfold toInt64 at hr
        split at hr
        · next h2 => cases hr; exact h2.2
        · cases hr
      · cases hr

theorem toInt64_ok {x : Int} (h1 : -2 ^ 63 ≤ x) (h2 : x < 2 ^ 63) : toInt64 x = .ok x := if_pos ⟨h1, h2⟩

theorem allIndices_length (n : Nat) : (allIndices n).length = n := by simp [allIndices]

theorem computeBuckets_thr {h : Hasher} {thr thr' : Nat → List Nat} (ht : Threads thr) (ht' : Threads thr')
    (o n : Int) : computeBuckets thr h o n = computeBuckets thr' h o n := by
  unfold computeBuckets
  split
  · rfl
  · cases hb : getOptimalNumberOfBuckets h n with
    | ok nb =>
      simp only [Out.ok_bind]
      have hlt := getOptimal_lt hb
      have e : (thr o.toNat).sum = (allIndices o.toNat).length := by rw [ht, allIndices_length]
      have e' : (thr' o.toNat).sum = (allIndices o.toNat).length := by rw [ht', allIndices_length]
      by_cases h0 : 0 < nb
      · by_cases hbit : h.tooManyBits (allIndices o.toNat).length nb.toNat = true
        · unfold hashSimple
          rw [if_pos hbit, if_pos hbit]
        · rw [hashSimple_eq h h0 hlt _ _ e (by simpa using hbit), hashSimple_eq h h0 hlt _ _ e' (by simpa using hbit)]
      · unfold hashSimple
        rw [if_pos (by omega), if_pos (by omega)]
    | _ => rfl

theorem Coherent.new (h : Hasher) : Coherent h (State.new h) := ⟨rfl, by intro o n h; cases h⟩

theorem Coherent.update {h : Hasher} {thr : Nat → List Nat} (ht : Threads thr) {st : State} (hc : Coherent h st)
    (o n : Int) : Coherent h (updateBuckets thr st o n).2 := by
  unfold updateBuckets
  split
  · rw [hc.hasher]
    cases hb : computeBuckets thr h o n with
    | ok b =>
      refine ⟨rfl, ?_⟩
      intro o' n' h1 h2 thr' ht'
      simp only [Option.some.injEq] at h1 h2
      subst h1; subst h2
      rw [computeBuckets_thr ht' ht, hb]
    | _ => exact hc
  · exact hc

/-- What `updateBuckets` does on a coherent state: the same as on a new object. -/
theorem updateBuckets_coherent {h : Hasher} {thr : Nat → List Nat} (ht : Threads thr) {st : State} (hc : Coherent h st)
    (o n : Int) : (updateBuckets thr st o n).1 = (updateBuckets thr (State.new h) o n).1 ∧
      ((updateBuckets thr st o n).1 = .ok () → (updateBuckets thr st o n).2 = (updateBuckets thr (State.new h) o n).2) := by
  have hnew : updateBuckets thr (State.new h) o n = (match computeBuckets thr h o n with
    | .ok b => (.ok (), ⟨h, b, some o, some n⟩)
    | .err c m => (.err c m, State.new h)
    | .throws m => (.throws m, State.new h)
    | .ub w => (.ub w, State.new h)
    | .diverge => (.diverge, State.new h)) := by
    unfold updateBuckets State.new
    rw [if_pos (by simp)]
    rfl
  rw [hnew]
  unfold updateBuckets
  by_cases hn : st.cachedOutputSize ≠ some o ∨ st.cachedNumIndices ≠ some n
  · rw [if_pos hn, hc.hasher]
    cases hb : computeBuckets thr h o n <;> simp
  · rw [if_neg hn]
    simp only [ne_eq, not_or, not_not] at hn
    rw [hc.cache o n hn.1 hn.2 thr ht]
    refine ⟨rfl, fun _ => ?_⟩
    dsimp only
    rw [← hc.hasher, ← hn.1, ← hn.2]

theorem updateBuckets_ok {h : Hasher} {thr : Nat → List Nat} (ht : Threads thr) {st : State} (hc : Coherent h st)
    {o n : Int} {b : List (List Nat)} (hb : computeBuckets thr h o n = .ok b) :
    updateBuckets thr st o n = (.ok (), ⟨h, b, some o, some n⟩) := by
  have h1 := updateBuckets_coherent ht hc o n
  have hnew : updateBuckets thr (State.new h) o n = (.ok (), ⟨h, b, some o, some n⟩) := by
    unfold updateBuckets State.new
    rw [if_pos (by simp)]
    dsimp only
    rw [hb]
  rw [hnew] at h1
  exact Prod.ext h1.1 (h1.2 h1.1)

theorem Returns.bind {M α β : Type} {p : Proc M α} {f : α → Proc M β} {b : β} (h : Returns (p.bind f) b) :
    ∃ a, Returns p a ∧ Returns (f a) b := by
  induction p with
  | ret a => exact ⟨a, .ret a, h⟩
  | send ch m k ih =>
    cases h with
    | send _ _ _ _ h => obtain ⟨a, h1, h2⟩ := ih h; exact ⟨a, .send _ _ _ _ h1, h2⟩
  | recv ch k ih =>
    cases h with
    | recv _ _ m _ h => obtain ⟨a, h1, h2⟩ := ih m h; exact ⟨a, .recv _ _ m _ h1, h2⟩
  | otSend ch kd ms k ih =>
    cases h with
    | otSend _ _ _ _ _ h => obtain ⟨a, h1, h2⟩ := ih h; exact ⟨a, .otSend _ _ _ _ _ h1, h2⟩
  | otRecv ch kd cs k ih =>
    cases h with
    | otRecv _ _ _ _ r _ h => obtain ⟨a, h1, h2⟩ := ih r h; exact ⟨a, .otRecv _ _ _ _ r _ h1, h2⟩

theorem finish_st (st : State) (m : Nat) (r : Out (List (List T))) : (finish st m r).st = st := by
  unfold finish
  split
  · split <;> rfl
  all_goals rfl

/-- The value provider leaves the object as it was or as after `UpdateBuckets`. -/
theorem value_st {aes fl c sec key seed thr} {st : State} {x : T} {yLen : Int} {w output : List T} {r : Res T}
    (h : Returns (runValueProviderVectorOLE aes fl c sec key seed thr st x yLen w output) r) :
    r.st = st ∨ r.st = (updateBuckets thr st output.length yLen).2 := by
  unfold runValueProviderVectorOLE at h
  split at h
  · cases h; left; rfl
  · right
    split at h
    · next st' heq =>
      rw [heq]
      cases h with
      | recv _ _ m _ h =>
        dsimp only at h
        split at h
        · obtain ⟨a, _, h2⟩ := Returns.bind h
          cases h2
          exact finish_st _ _ _
        all_goals (cases h; rfl)
    · next e st' _ heq => cases h; rw [heq]

/-- The same for the index provider. -/
theorem index_st {aes fl c thr} {st : State} {y : List T} {indices : List Int} {u v output : List T} {r : Res T}
    (h : Returns (runIndexProviderVectorOLE aes fl c thr st y indices u v output) r) :
    r.st = st ∨ r.st = (updateBuckets thr st output.length (toInt32 y.length)).2 := by
  unfold runIndexProviderVectorOLE at h
  split at h
  · cases h; left; rfl
  split at h
  · cases h; left; rfl
  split at h
  · cases h; left; rfl
  split at h
  · cases h; left; rfl
  · right
    split at h
    · next st' heq =>
      rw [heq]
      split at h
      · cases h with
        | send _ _ _ _ h =>
          split at h
          · obtain ⟨a, _, h2⟩ := Returns.bind h
            cases h2
            exact finish_st _ _ _
          all_goals (cases h; rfl)
      all_goals (cases h; rfl)
    · next e st' _ heq => cases h; rw [heq]

theorem Reached.coherent {h : Hasher} {st : State} (hr : Reached T h st) : Coherent h st := by
  induction hr with
  | new => exact Coherent.new h
  | update thr o n ht _ ih => exact ih.update ht o n
  | value aes fl c sec key seed thr x yLen w output ht _ hret ih =>
    rcases value_st hret with e | e
    · rw [e]; exact ih
    · rw [e]; exact ih.update ht _ _
  | index aes fl c thr y indices u v output ht _ hret ih =>
    rcases index_st hret with e | e
    · rw [e]; exact ih
    · rw [e]; exact ih.update ht _ _

end DVO.MPFSS
