/-
Model of distributed_vector_ole/mpfss_known_indices.{h,cpp}.
-/
import Verif.Model.Cuckoo
import Verif.Model.SPFSS
import Mathlib.Data.List.Dedup

namespace DVO.MPFSS
open Cuckoo

/-- Conversion of a size to `int` (e.g. `int num_buckets = buckets_.size()`, mpfss_known_indices.h:147). -/
def toInt32 (n : Nat) : Int := (BitVec.ofNat 32 n).toInt

/-- State of an `MPFSSKnownIndices` object (mpfss_known_indices.h:119-137). The SPFSS object has no
    state besides its channel and statistical security, which are passed to the functions below. -/
structure State where
  hasher : Hasher
  buckets : List (List Nat)
  cachedOutputSize : Option Int
  cachedNumIndices : Option Int

/-- A newly created object (mpfss_known_indices.cpp:25-28). -/
def State.new (h : Hasher) : State := ⟨h, [], none, none⟩

/-- `all_indices` converted to `uint128` (mpfss_known_indices.cpp:74-75, cuckoo_hasher.h:236). -/
def allIndices (outputSize : Nat) : List Block := (List.range outputSize).map (BitVec.ofNat 128)

/-- The part of `UpdateBuckets` that computes the buckets (mpfss_known_indices.cpp:74-80).
    `std::vector(n)` throws for a negative (i.e. huge unsigned) size. `thr` describes how the OpenMP
    threads share `n` inputs. -/
def computeBuckets (thr : Nat → List Nat) (h : Hasher) (outputSize numIndices : Int) : Out (List (List Nat)) := do
  if outputSize < 0 then .throws "std::length_error" else
  let numBuckets ← getOptimalNumberOfBuckets h numIndices
  hashSimple h (thr outputSize.toNat) (allIndices outputSize.toNat) numBuckets

/-- `MPFSSKnownIndices::UpdateBuckets` (mpfss_known_indices.cpp:68-85). -/
def updateBuckets (thr : Nat → List Nat) (st : State) (outputSize numIndices : Int) : Out Unit × State :=
  if st.cachedOutputSize ≠ some outputSize ∨ st.cachedNumIndices ≠ some numIndices then
    match computeBuckets thr st.hasher outputSize numIndices with
    | .ok b => (.ok (), ⟨st.hasher, b, some outputSize, some numIndices⟩)
    | .err c m => (.err c m, st)
    | .throws m => (.throws m, st)
    | .ub w => (.ub w, st)
    | .diverge => (.diverge, st)
  else (.ok (), st)

/-- `MPFSSKnownIndices::NumBuckets` (mpfss_known_indices.h:67-69): the 64-bit count is converted to
    `int`. -/
def numBuckets (h : Hasher) (numIndices : Int) : Out Int := do
  let n ← getOptimalNumberOfBuckets h numIndices
  .ok (BitVec.ofInt 32 n).toInt

/-- Outcome of a `Run` call: status, contents of the caller's `output` span, object state.
    (mpfss_known_indices.h:140-142, 176-180.) -/
structure Res (T : Type) where
  status : Out Unit
  output : List T
  st : State

/-- The final loop of both roles (mpfss_known_indices.h:168-172 and 263-267). -/
def scatter {T : Type} [Scalar T] (buckets : List (List Nat)) (bucketOutputs : List (List T))
    (output : List T) : Out (List T) :=
  loop (fun i out => do
    let b ← rd buckets i
    loop (fun j out => do
      let k ← rd2 buckets i j
      let x ← rd2 bucketOutputs i j
      let o ← rd out k
      wr out k (o + x)) 0 b.length out) 0 (toInt32 buckets.length).toNat output

/-- `bucket_outputs` before the SPFSS call: one zero vector per bucket (mpfss_known_indices.h:159-164
    and 233-248). -/
def emptyOutputs {T : Type} [Scalar T] (buckets : List (List Nat)) : List (List T) :=
  (buckets.take (toInt32 buckets.length).toNat).map (fun b => List.replicate b.length 0)

/-- End of a role: scatter the SPFSS result or pass on its error. `output` has been zeroed before.
    (mpfss_known_indices.h:166-173, 260-268.) -/
def finish {T : Type} [Scalar T] (st : State) (outputSize : Nat) : Out (List (List T)) → Res T
  | .ok bo =>
    match scatter st.buckets bo (List.replicate outputSize 0) with
    | .ok out => ⟨.ok (), out, st⟩
    | .err c m => ⟨.err c m, List.replicate outputSize 0, st⟩
    | .throws m => ⟨.throws m, List.replicate outputSize 0, st⟩
    | .ub w => ⟨.ub w, List.replicate outputSize 0, st⟩
    | .diverge => ⟨.diverge, List.replicate outputSize 0, st⟩
  | .err c m => ⟨.err c m, List.replicate outputSize 0, st⟩
  | .throws m => ⟨.throws m, List.replicate outputSize 0, st⟩
  | .ub w => ⟨.ub w, List.replicate outputSize 0, st⟩
  | .diverge => ⟨.diverge, List.replicate outputSize 0, st⟩

/-- `y_masked * x - w` (mpfss_known_indices.h:153-154). Eigen vectors of different lengths fail an
    assertion (or are read out of bounds). -/
def valueShares {T : Type} [Scalar T] (x : T) (yMasked w : List T) : Out (List T) :=
  if yMasked.length ≠ w.length then .ub "Eigen size mismatch" else
  .ok (List.zipWith (fun y w => y * x - w) yMasked w)

/-- `MPFSSKnownIndices::RunValueProviderVectorOLE` (mpfss_known_indices.h:140-174). -/
def runValueProviderVectorOLE {T : Type} [Scalar T] (aes : Cipher) (fl : Nat → Nat → Nat) (c : Chans) (sec : Sec)
    (key seed : Nat → Block) (thr : Nat → List Nat) (st : State) (x : T) (yLen : Int) (w output : List T) :
    Proc (Msg T) (Res T) :=
  if yLen < 1 then .ret ⟨.err .invalidArgument "`y_len` must be positive", output, st⟩ else
  match updateBuckets thr st output.length yLen with
  | (.ok _, st) =>
    .recv c.main (fun m =>
      match PM.unElems m >>= fun yMasked => valueShares x yMasked w with
      | .ok valShare =>
        Proc.bind (SPFSS.runValueProviderBatched aes fl c sec key seed valShare (emptyOutputs st.buckets))
          (fun r => .ret (finish st output.length r))
      | .err cd m => .ret ⟨.err cd m, output, st⟩
      | .throws m => .ret ⟨.throws m, output, st⟩
      | .ub w => .ret ⟨.ub w, output, st⟩
      | .diverge => .ret ⟨.diverge, output, st⟩)
  | (e, st) => .ret ⟨e, output, st⟩

/-- Conversion of an `int64_t` index to `uint128` (cuckoo_hasher.h:236): sign extension. -/
def indexBlock (i : Int) : Block := BitVec.ofInt 128 i

/-- The cuckoo-hashing step with its error handling (mpfss_known_indices.h:202-212). -/
def hashIndices (h : Hasher) (indices : List Int) (numBuckets : Int) : Out (List Int) :=
  match hashCuckoo h (indices.map indexBlock) numBuckets with
  | .err .internal "Failed to insert element, maximum number of tries exhausted" =>
    if indices.dedup.length ≠ indices.length then .err .invalidArgument "All `indices` must be unique"
    else .err .internal "Failed to insert element, maximum number of tries exhausted"
  | r => r

/-- `y_permuted` before masking (mpfss_known_indices.h:217-223). -/
def permuteY {T : Type} [Scalar T] (y : List T) (hashed : List Int) (numBuckets : Int) : Out (List T) :=
  loop (fun i yp => do
    let e ← rd hashed i
    if e ≠ -1 then
      let v ← rdI y e
      wr yp i v
    else .ok yp) 0 numBuckets.toNat (List.replicate numBuckets.toNat 0)

/-- `y_permuted += u` (mpfss_known_indices.h:226). -/
def addMask {T : Type} [Scalar T] (yp u : List T) : Out (List T) :=
  if yp.length ≠ u.length then .ub "Eigen size mismatch" else .ok (List.zipWith (· + ·) yp u)

/-- `std::lower_bound(l.begin(), l.end(), x) - l.begin()` on a sorted range: the number of elements
    before the first one that is not less than `x`. (mpfss_known_indices.h:254-256.) -/
def lowerBound (l : List Nat) (x : Int) : Nat := (l.takeWhile (fun (k : Nat) => decide ((k : Int) < x))).length

/-- `index_in_bucket` (mpfss_known_indices.h:235-259); the iterations are independent (C51). -/
def indexInBucket (buckets : List (List Nat)) (indices hashed : List Int) (numBuckets : Int) : Out (List Int) :=
  loop (fun i iib => do
    let b ← rd buckets i
    if b.length = 0 then .ok iib else
    let e ← rd hashed i
    if e ≠ -1 then
      let ix ← rdI indices e
      wr iib i (lowerBound b ix : Int)
    else .ok iib) 0 numBuckets.toNat (List.replicate numBuckets.toNat 0)

/-- The computations of the index provider before its first message
    (mpfss_known_indices.h:200-226): the hashed indices and the message. -/
def maskedY {T : Type} [Scalar T] (st : State) (y : List T) (indices : List Int) (u : List T) :
    Out (List Int × List T) := do
  let hashed ← hashIndices st.hasher indices (toInt32 st.buckets.length)
  let yp ← permuteY y hashed (toInt32 st.buckets.length)
  let yp ← addMask yp u
  .ok (hashed, yp)

/-- `MPFSSKnownIndices::RunIndexProviderVectorOLE` (mpfss_known_indices.h:176-269). The index check
    of lines 192-197 looks at the first `static_cast<int>(indices.size())` indices. -/
def runIndexProviderVectorOLE {T : Type} [Scalar T] (aes : Cipher) (fl : Nat → Nat → Nat) (c : Chans)
    (thr : Nat → List Nat) (st : State) (y : List T) (indices : List Int) (u v output : List T) :
    Proc (Msg T) (Res T) :=
  if y.length ≠ indices.length then
    .ret ⟨.err .invalidArgument "`y` and `indices` must have the same size", output, st⟩ else
  if output.length < indices.length then
    .ret ⟨.err .invalidArgument "`output` must be at least as long as `indices`", output, st⟩ else
  if y.length = 0 then
    .ret ⟨.err .invalidArgument "`y` and `indices` must not be empty", output, st⟩ else
  if (indices.take (toInt32 indices.length).toNat).any (fun i => decide (i > (output.length : Int))) then
    .ret ⟨.err .invalidArgument "`indices[i]` out of range", output, st⟩ else
  match updateBuckets thr st output.length (toInt32 y.length) with
  | (.ok _, st) =>
    match maskedY st y indices u with
    | .ok (hashed, yp) =>
      .send c.main (.elems yp)
        (match indexInBucket st.buckets indices hashed (toInt32 st.buckets.length) with
        | .ok iib =>
          Proc.bind (SPFSS.runIndexProviderBatched aes fl c v iib (emptyOutputs st.buckets))
            (fun r => .ret (finish st output.length r))
        | .err cd m => .ret ⟨.err cd m, List.replicate output.length 0, st⟩
        | .throws m => .ret ⟨.throws m, List.replicate output.length 0, st⟩
        | .ub w => .ret ⟨.ub w, List.replicate output.length 0, st⟩
        | .diverge => .ret ⟨.diverge, List.replicate output.length 0, st⟩)
    | .err cd m => .ret ⟨.err cd m, output, st⟩
    | .throws m => .ret ⟨.throws m, output, st⟩
    | .ub w => .ret ⟨.ub w, output, st⟩
    | .diverge => .ret ⟨.diverge, output, st⟩
  | (e, st) => .ret ⟨e, output, st⟩

/-- `MPFSSKnownIndices::RunValueProvider` (mpfss_known_indices.h:73-78): not implemented. -/
def runValueProvider {T : Type} (st : State) (_valShare output : List T) : Proc (Msg T) (Res T) :=
  .ret ⟨.err .unimplemented "MPFSSKnownIndices::RunValueProvider is unimplemented", output, st⟩

/-- `MPFSSKnownIndices::RunIndexProvider` (mpfss_known_indices.h:83-89): not implemented. -/
def runIndexProvider {T : Type} (st : State) (_valShare : List T) (_indices : List Int) (output : List T) : Proc (Msg T) (Res T) :=
  .ret ⟨.err .unimplemented "MPFSSKnownIndices::RunIndexProvider is unimplemented", output, st⟩

end DVO.MPFSS
