/-
C80: what a call of `MPFSSKnownIndices::UpdateBuckets` does to the object.
-/
import Verif.Props.MPFSS

namespace DVO.MPFSS
open Cuckoo
variable {T : Type} [Scalar T]

/-- C80: a call that does not return OK, for whatever reason, leaves the object as it was. -/
theorem C80_failure (thr : Nat → List Nat) (st : State) (o n : Int) (h : (updateBuckets thr st o n).1 ≠ .ok ()) : (updateBuckets thr st o n).2 = st := by
  unfold updateBuckets at h ⊢
  split
  · rename_i hc
    rw [if_pos hc] at h
    cases e : computeBuckets thr st.hasher o n with
    | ok b => rw [e] at h; exact absurd rfl h
    | _ => rfl
  · rfl

/-- C80: after a call that returns OK the object remembers its arguments and has the hasher it had, and a second call with
    the same arguments returns OK and changes nothing, however its threads share the work. -/
theorem C80_success (thr thr' : Nat → List Nat) (st : State) (o n : Int) (h : (updateBuckets thr st o n).1 = .ok ()) :
    (updateBuckets thr st o n).2.cachedOutputSize = some o ∧ (updateBuckets thr st o n).2.cachedNumIndices = some n ∧
    (updateBuckets thr st o n).2.hasher = st.hasher ∧
    updateBuckets thr' (updateBuckets thr st o n).2 o n = (.ok (), (updateBuckets thr st o n).2) := by
  have key : (updateBuckets thr st o n).2.cachedOutputSize = some o ∧ (updateBuckets thr st o n).2.cachedNumIndices = some n ∧
      (updateBuckets thr st o n).2.hasher = st.hasher := by
    unfold updateBuckets at h ⊢
    by_cases hc : st.cachedOutputSize ≠ some o ∨ st.cachedNumIndices ≠ some n
    · rw [if_pos hc] at h ⊢
      cases e : computeBuckets thr st.hasher o n with
      | ok b => exact ⟨rfl, rfl, rfl⟩
      | _ => rw [e] at h; cases h
    · rw [if_neg hc]
      push Not at hc
      exact ⟨hc.1, hc.2, rfl⟩
  refine ⟨key.1, key.2.1, key.2.2, ?_⟩
  generalize (updateBuckets thr st o n).2 = st' at key ⊢
  unfold updateBuckets
  rw [if_neg (by simp [key.1, key.2.1])]

/-- C80: in any history, a negative output size ends in an exception (of `std::vector`, not a status), and a negative number of
    indices is rejected. -/
theorem C80_negative (h : Hasher) (st : State) (hst : Reached T h st) (thr : Nat → List Nat) (ht : Threads thr) (o n : Int) :
    (o < 0 → updateBuckets thr st o n = (.throws "std::length_error", st)) ∧
    (0 ≤ o → n < 0 → updateBuckets thr st o n = (.err .invalidArgument "`num_inputs` must be positive", st)) := by
  have h1 := (C19_updateBuckets h st hst thr ht o n).1
  have hnew : ∀ e : Out (List (List Nat)), computeBuckets thr h o n = e → (updateBuckets thr (State.new h) o n).1 = e >>= fun _ => .ok () := by
    intro e he
    unfold updateBuckets State.new
    rw [if_pos (by simp)]
    dsimp only
    rw [he]
    cases e <;> rfl
  constructor
  · intro ho
    have e : computeBuckets thr h o n = .throws "std::length_error" := by
      unfold computeBuckets; rw [if_pos ho]
    rw [hnew _ e] at h1
    exact Prod.ext h1 (C80_failure thr st o n (by rw [h1]; intro e; cases e))
  · intro ho hn
    have e : computeBuckets thr h o n = .err .invalidArgument "`num_inputs` must be positive" := by
      unfold computeBuckets getOptimalNumberOfBuckets
      rw [if_neg (by omega), if_pos hn]
      rfl
    rw [hnew _ e] at h1
    exact Prod.ext h1 (C80_failure thr st o n (by rw [h1]; intro e; cases e))

/-- A new object: a call that returns OK, then one with a negative size and one with a negative number of indices, which leave
    the buckets of the first, and the same call again. -/
example : (updateBuckets exThr (State.new exH) 12 3).1 = .ok () ∧
    updateBuckets exThr (updateBuckets exThr (State.new exH) 12 3).2 (-1) 3 = (.throws "std::length_error", (updateBuckets exThr (State.new exH) 12 3).2) ∧
    updateBuckets exThr (updateBuckets exThr (State.new exH) 12 3).2 7 (-3) =
      (.err .invalidArgument "`num_inputs` must be positive", (updateBuckets exThr (State.new exH) 12 3).2) ∧
    updateBuckets exThr (updateBuckets exThr (State.new exH) 12 3).2 12 3 = (.ok (), (updateBuckets exThr (State.new exH) 12 3).2) := by
  have h0 : (updateBuckets exThr (State.new exH) 12 3).1 = .ok () := by
    have hs := (exH_supported (t := 3) (m := 12) (by omega) (by omega) (by omega) none).toSized
    have := updateBuckets_ok exThr_threads (Coherent.new exH) (computeBuckets_eq hs exThr_threads)
    exact congrArg Prod.fst this
  have hr : Reached (BitVec 64) exH (updateBuckets exThr (State.new exH) 12 3).2 := .update _ _ _ exThr_threads .new
  exact ⟨h0, (C80_negative exH _ hr exThr exThr_threads (-1) 3).1 (by omega), (C80_negative exH _ hr exThr exThr_threads 7 (-3)).2 (by omega) (by omega),
    (C80_success exThr exThr _ 12 3 h0).2.2.2⟩

end DVO.MPFSS
