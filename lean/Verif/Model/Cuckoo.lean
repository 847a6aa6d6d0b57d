/-
Model of distributed_vector_ole/cuckoo_hasher.{h,cpp}.
-/
import Verif.Model.GGM

namespace DVO.Cuckoo

/-- Private state of a `CuckooHasher` (cuckoo_hasher.h:106-108). `enc` is AES under the seed;
    `statistical_security_` only enters two floating-point formulas, represented by their results:
    `tooManyBits inputs buckets` is `bits_needed > 128` (cuckoo_hasher.h:137-139 and 190-192),
    `optimal n` is the estimate of cuckoo_hasher.cpp:67-111 for `n > 0` inputs, before its conversion
    to `int64_t`; for NaN and infinities, which no integer represents, it is any value outside the
    range of this type. -/
structure Hasher where
  enc : Block → Block
  numHash : Nat
  tooManyBits : Nat → Nat → Bool
  optimal : Nat → Int

/-- `CuckooHasher::Create` (cuckoo_hasher.cpp:32-46). -/
def create (aes : Cipher) (tooManyBits : Nat → Nat → Nat → Bool) (optimal : Nat → Nat → Int)
    (seed : Block) (numHashFunctions : Int) : Out Hasher :=
  if numHashFunctions ≤ 0 then .err .invalidArgument "`num_hash_functions` must be positive" else
  .ok ⟨aes seed, numHashFunctions.toNat, tooManyBits numHashFunctions.toNat, optimal numHashFunctions.toNat⟩

/-- `CuckooHasher::HashToUint128` (cuckoo_hasher.h:233-242), on an input already converted to
    `absl::uint128`. -/
def hashToU128 (h : Hasher) (x : Block) : Block := h.enc x ^^^ x

/-- `CuckooHasher::HashToBucket` (cuckoo_hasher.cpp:48-56). `hash % num_buckets` and
    `Uint128Low64` are 128- and 64-bit operations; the result is used as a non-negative `int64_t`. -/
def hashToBucket (h : Hasher) (hash : Block) (numBuckets : Int) (hf : Nat) : Nat :=
  let hash := if hf > 0 then hashToU128 h (hash ^^^ BitVec.ofNat 128 hf) else hash
  ((hash % BitVec.ofInt 128 numBuckets).setWidth 64).toNat

/-- Body of the parallel loop of `Hash` (cuckoo_hasher.h:123-126). -/
def hashRow (h : Hasher) (numBuckets : Int) (x : Block) (row : List Nat) : Out (List Nat) :=
  let current := hashToU128 h x
  loop (fun j row => wr row j (hashToBucket h current numBuckets j)) 0 h.numHash row

/-- `CuckooHasher::Hash` (cuckoo_hasher.h:111-129). The iterations of the parallel loop are run in
    order (they write different rows; see C51 for other orders). -/
def hash (h : Hasher) (inputs : List Block) (numBuckets : Int) : Out (List (List Nat)) :=
  if numBuckets ≤ 0 then .err .invalidArgument "`num_buckets` must be positive" else
  loop (fun i (result : List (List Nat)) => do
    let x ← rd inputs i
    let row ← rd result i
    let row' ← hashRow h numBuckets x row
    wr result i row') 0 inputs.length (List.replicate inputs.length (List.replicate h.numHash 0))

/-- `v[b].push_back(i)`. cuckoo_hasher.h:157. -/
def pushBack (v : List (List Nat)) (b i : Nat) : Out (List (List Nat)) := do
  let l ← rd v b
  wr v b (l ++ [i])

/-- What one thread does with the inputs `lo, ..., lo + len - 1` (cuckoo_hasher.h:153-159). -/
def threadResult (h : Hasher) (hashes : List (List Nat)) (numBuckets : Int) (lo len : Nat) :
    Out (List (List Nat)) :=
  loop (fun i tr =>
    loop (fun j tr => do
      let b ← rd2 hashes i j
      pushBack tr b i) 0 h.numHash tr) lo len (List.replicate numBuckets.toNat [])

/-- One iteration of the ordered merging loop (cuckoo_hasher.h:166-169). -/
def mergeThread (numBuckets : Int) (tr result : List (List Nat)) : Out (List (List Nat)) :=
  loop (fun i (result : List (List Nat)) => do
    let a ← rd result i
    let b ← rd tr i
    wr result i (a ++ b)) 0 numBuckets.toNat result

/-- The parallel region (cuckoo_hasher.h:148-171). `chunks` are the lengths of the consecutive
    pieces of the input that `schedule(static)` gives to threads 0, 1, ...; the `ordered` loop
    merges the threads' results in this order. -/
def parallelRegion (h : Hasher) (hashes : List (List Nat)) (numBuckets : Int) :
    (lo : Nat) → (chunks : List Nat) → (result : List (List Nat)) → Out (List (List Nat))
  | _, [], result => .ok result
  | lo, len :: chunks, result => do
    let tr ← threadResult h hashes numBuckets lo len
    let result ← mergeThread numBuckets tr result
    parallelRegion h hashes numBuckets (lo + len) chunks result

/-- `CuckooHasher::HashSimple` (cuckoo_hasher.h:131-173). -/
def hashSimple (h : Hasher) (chunks : List Nat) (inputs : List Block) (numBuckets : Int) :
    Out (List (List Nat)) := do
  if numBuckets ≤ 0 then .err .invalidArgument "`num_buckets` must be positive" else
  if h.tooManyBits inputs.length numBuckets.toNat then .err .invalidArgument "The given sizes would require too long hashes" else
  let hashes ← hash h inputs numBuckets
  parallelRegion h hashes numBuckets 0 chunks (List.replicate numBuckets.toNat [])

/-- The inner loop of `HashCuckoo` (cuckoo_hasher.h:210-227), with `rem = num_tries - tries` and
    state `buckets`, `next_hash_function`. -/
def insertLoop (h : Hasher) (hashes : List (List Nat)) : (rem : Nat) → (element : Int) → (hf : Nat) →
    (buckets : List Int) → (next : List Nat) → Out (List Int × List Nat)
  | 0, _, _, _, _ => .err .internal "Failed to insert element, maximum number of tries exhausted"
  | rem + 1, element, hf, buckets, next => do
    let row ← rdI hashes element
    let index ← rd row hf
    let b ← rd buckets index
    if b = -1 then
      let buckets ← wr buckets index element
      .ok (buckets, next)
    else
      let buckets ← wr buckets index element
      let nx ← rd next index
      if h.numHash = 0 then .ub "modulo by zero" else
      let next ← wr next index ((hf + 1) % h.numHash)
      insertLoop h hashes rem b nx buckets next

/-- `CuckooHasher::HashCuckoo` (cuckoo_hasher.h:175-231). -/
def hashCuckoo (h : Hasher) (inputs : List Block) (numBuckets : Int) : Out (List Int) := do
  if h.numHash = 1 then
    .err .invalidArgument "`HashCuckoo` can only be called when at least 2 hash functions were specified at construction" else
  if numBuckets ≤ 0 then .err .invalidArgument "`num_buckets` must be positive" else
  if (inputs.length : Int) > numBuckets then
    .err .invalidArgument "`inputs.size()` must not be larger than `num_buckets`" else
  if h.tooManyBits inputs.length numBuckets.toNat then .err .invalidArgument "The given sizes would require too long hashes" else
  let hashes ← hash h inputs numBuckets
  let r ← loop (fun i (st : List Int × List Nat) =>
      insertLoop h hashes inputs.length (i : Int) 0 st.1 st.2) 0 inputs.length
    (List.replicate numBuckets.toNat (-1), List.replicate numBuckets.toNat 0)
  .ok r.1

/-- `static_cast<int64_t>` of a `double` with an integral value (cuckoo_hasher.cpp:90-91, 111); out of
    range is undefined behaviour. -/
def toInt64 (x : Int) : Out Int :=
  if -2 ^ 63 ≤ x ∧ x < 2 ^ 63 then .ok x else .ub "conversion to int64_t out of range"

/-- `CuckooHasher::GetOptimalNumberOfBuckets` (cuckoo_hasher.cpp:58-116). For two hash functions the
    code searches for an expansion factor in a loop; that it stops is part of the assumption that
    `optimal` is a function. -/
def getOptimalNumberOfBuckets (h : Hasher) (numInputs : Int) : Out Int :=
  if numInputs < 0 then .err .invalidArgument "`num_inputs` must be positive" else
  if numInputs = 0 then .ok 1 else
  if h.numHash = 3 ∨ h.numHash = 2 then toInt64 (h.optimal numInputs.toNat) else
  .err .unimplemented "Automatic estimation of the number of buckets only implemented for 2 or 3 hash functions."

end DVO.Cuckoo
