/-
Model of distributed_vector_ole/distributed_vector_ole.{h,cpp}.
-/
import Verif.Model.MPFSS
import Verif.Model.Gilboa
import Verif.Model.RNG

namespace DVO.VOLE
variable {T : Type}

/-! ### Parameters and state -/

/-- `VOLEParameters::output_size` (distributed_vector_ole.cpp:5). -/
def outputSizes : List Int := [4096, 16384, 65536, 616092, 10616092]
/-- `VOLEParameters::seed_size` (distributed_vector_ole.cpp:6). -/
def seedSizes : List Int := [1589, 3482, 7391, 37248, 588160]
/-- `VOLEParameters::num_noise_indices` (distributed_vector_ole.cpp:7). -/
def noiseSizes : List Int := [98, 198, 382, 1254, 1324]
/-- `VOLEParameters::kCodeGeneratorNonzeros` (distributed_vector_ole.cpp:8). -/
def nonzeros : Nat := 10

/-- `SenderResult` (distributed_vector_ole.h:55-58). `ids` is a ghost component that says for every
    element which generated correlation it is: its position in `sMade` (see `VState`), or `none` for
    uninitialised memory. -/
structure SRes (T : Type) where
  u : List T
  v : List T
  ids : List (Option Nat)

/-- `ReceiverResult` (distributed_vector_ole.h:59-63), with the same ghost component for `rMade`. -/
structure RRes (T : Type) where
  w : List T
  delta : T
  ids : List (Option Nat)

/-- `Eigen::SparseMatrix<T, ColMajor>` (distributed_vector_ole.h:138): number of rows, and for each
    column its entries (row, value). -/
structure Sparse (T : Type) where
  rows : Int
  cols : List (List (Nat × T))

/-- The members of `DistributedVectorOLE` (distributed_vector_ole.h:131-182), except for those that
    never change (see `Env`). The last six are ghost: how often randomness was drawn; the
    noise, seed size and output size of every expansion; the correlations generated as a sender
    (`u`, `v`) and as a receiver (`w`); and which of them were ever used as seeds. -/
structure VState (T : Type) where
  mpfss : MPFSS.State
  code : Sparse T
  sCached : SRes T
  sVole : SRes T
  sMpfss : SRes T
  rCached : RRes T
  rVole : RRes T
  rMpfss : RRes T
  batch : Int
  voleSize : Int
  mpfssSize : Int
  noise : Int
  sDone : Bool
  rDone : Bool
  pos : Nat
  log : List (Int × Int × Int)
  sMade : List (T × T)
  rMade : List T
  sUsed : List (Option Nat)
  rUsed : List (Option Nat)

/-- The constructor (distributed_vector_ole.h:185-201). `junk`: the uninitialised `delta`s. -/
def VState.new (mpfss : MPFSS.State) (junk : T) : VState T :=
  { mpfss := mpfss, code := ⟨0, []⟩, sCached := ⟨[], [], []⟩, sVole := ⟨[], [], []⟩, sMpfss := ⟨[], [], []⟩,
    rCached := ⟨[], junk, []⟩, rVole := ⟨[], junk, []⟩, rMpfss := ⟨[], junk, []⟩,
    batch := 0, voleSize := 0, mpfssSize := 0, noise := 0, sDone := false, rDone := false, pos := 0, log := [], sMade := [], rMade := [], sUsed := [], rUsed := [] }

/-- What the compiler and standard library choose: whether the first argument of
    `absl::MakeUint128(rng(), rng())` (distributed_vector_ole.h:399) is evaluated first, and the
    algorithm of `std::uniform_int_distribution` (distributed_vector_ole.h:406 and 440), which calls
    the generator. -/
structure Lib where
  hiFirst : Bool
  unif : Cipher → RNG.Gen → Int → Int → Out (Int × RNG.Gen)

/-- Values obtained from outside by one call: `RAND_bytes`, `Randomize`, uninitialised memory, the
    iteration order of a hash set, randomness of the subprotocols.
    (distributed_vector_ole.h:252-253, 373, 436, 439-446; all_but_one_random_ot.h:155-226;
    internal/gilboa_internal.h:94-147.) -/
structure Rand (T : Type) where
  elems : Nat → T
  byte : Nat → BitVec 8
  junk : RNG.Gen
  order : List Int → List Int
  key : Nat → Block
  seed : Nat → Block
  m0 : Nat → Block
  rnd : Nat → List T

/-- What does not change during the life of an object: cipher, float oracle, channels, statistical
    security, compiler, threads, the order of the party ids, randomness; and the number of iterations
    after which a `while` loop counts as divergent.
    (Set up by distributed_vector_ole.h:185-235; fields 131-182.) -/
structure Env (T : Type) where
  aes : Cipher
  fl : Nat → Nat → Nat
  c : Chans
  sec : Sec
  lib : Lib
  thr : Nat → List Nat
  lower : Bool
  rand : Nat → Rand T
  fuel : Nat

/-! ### Member functions: the state survives errors -/

/-- A member function: changes the state, communicates, returns a status.
    (Declared in distributed_vector_ole.h:66-182.) -/
def VM (T : Type) (α : Type) : Type := VState T → Proc (Msg T) (Out α × VState T)

namespace VM
variable {α β : Type}

/-- Continue with `f`, or return early with an error and the state reached.
    (The macros `RETURN_IF_ERROR` and `ASSIGN_OR_RETURN`, e.g. distributed_vector_ole.h:254, 259.) -/
def next (f : α → VM T β) : Out α × VState T → Proc (Msg T) (Out β × VState T)
  | (.ok a, s) => f a s
  | (.err c m, s) => .ret (.err c m, s)
  | (.throws m, s) => .ret (.throws m, s)
  | (.ub w, s) => .ret (.ub w, s)
  | (.diverge, s) => .ret (.diverge, s)

/-- Sequencing with early return (`RETURN_IF_ERROR`, `ASSIGN_OR_RETURN`).
    (E.g. distributed_vector_ole.h:254, 259.) -/
protected def bind (p : VM T α) (f : α → VM T β) : VM T β := fun s => Proc.bind (p s) (next f)

/-- Sequencing and `return` (e.g. distributed_vector_ole.h:254-260). -/
instance : Monad (VM T) where
  pure a := fun s => .ret (.ok a, s)
  bind := VM.bind

/-- A local computation. (E.g. distributed_vector_ole.h:402-416.) -/
def lift (x : Out α) : VM T α := fun s => .ret (x, s)
/-- The members. (distributed_vector_ole.h:131-182.) -/
def get : VM T (VState T) := fun s => .ret (.ok s, s)
/-- Assignments to members. (E.g. distributed_vector_ole.h:243-248.) -/
def modify (f : VState T → VState T) : VM T Unit := fun s => .ret (.ok (), f s)
/-- A call of a function that does not change this object. (E.g. distributed_vector_ole.h:254-257.) -/
def run (p : PM (Msg T) α) : VM T α := fun s => Proc.bind (M := Msg T) p (fun r => .ret (r, s))
/-- A call of a member function of `mpfss_`. (distributed_vector_ole.h:447-449, 489-491.) -/
def runMpfss (p : MPFSS.State → Proc (Msg T) (MPFSS.Res T)) : VM T (List T) := fun s =>
  Proc.bind (p s.mpfss) (fun r =>
    match r.status with
    | .ok () => .ret (.ok r.output, { s with mpfss := r.st })
    | .err c m => .ret (.err c m, { s with mpfss := r.st })
    | .throws m => .ret (.throws m, { s with mpfss := r.st })
    | .ub w => .ret (.ub w, { s with mpfss := r.st })
    | .diverge => .ret (.diverge, { s with mpfss := r.st }))
/-- Fresh outside values. (distributed_vector_ole.h:252-253, 373, 436, 446.) -/
def draw (E : Env T) : VM T (Rand T) := fun s => .ret (.ok (E.rand s.pos), { s with pos := s.pos + 1 })

end VM

/-- Signed 32-bit and 64-bit arithmetic: overflow is undefined. (E.g. distributed_vector_ole.h:249,
    266, 275, 292.) -/
def i32 (x : Int) : Out Int := if x < -2 ^ 31 ∨ x ≥ 2 ^ 31 then .ub "signed overflow" else .ok x
/-- See `i32`. (E.g. distributed_vector_ole.h:266, 295, 327, 356.) -/
def i64 (x : Int) : Out Int := if x < -2 ^ 63 ∨ x ≥ 2 ^ 63 then .ub "signed overflow" else .ok x

/-- `Vector<T> x(n)`, uninitialised or followed by `Randomize` (e.g. distributed_vector_ole.h:249-253).
    Eigen requires `n >= 0`. -/
def vecOf (r : Rand T) (n : Int) : Out (List T) :=
  if n < 0 then .ub "Eigen: negative size" else .ok ((List.range n.toNat).map r.elems)

/-- `x.tail(n)` and `x.conservativeResize(x.size() - n)` (distributed_vector_ole.h:514-517): the rest
    and the tail. Eigen requires `0 <= n <= x.size()`. -/
def splitTail {α : Type} (l : List α) (n : Int) : Out (List α × List α) :=
  if n < 0 ∨ n > l.length then .ub "Eigen: tail" else
  .ok (l.take (l.length - n.toNat), l.drop (l.length - n.toNat))

/-- `GetSenderCached` (distributed_vector_ole.h:505-519): remaining cache and result. -/
def getSender (c : SRes T) (size : Int) : Out (SRes T × SRes T) :=
  if (c.u.length : Int) < size then .err .outOfRange "Requested cached sender elements" else do
  let (u0, u1) ← splitTail c.u size
  let (v0, v1) ← splitTail c.v size
  .ok (⟨u0, v0, c.ids.take (c.ids.length - size.toNat)⟩, ⟨u1, v1, c.ids.drop (c.ids.length - size.toNat)⟩)

/-- `GetReceiverCached` (distributed_vector_ole.h:521-535). -/
def getReceiver (c : RRes T) (size : Int) : Out (RRes T × RRes T) :=
  if (c.w.length : Int) < size then .err .outOfRange "Requested cached receiver elements" else do
  let (w0, w1) ← splitTail c.w size
  .ok (⟨w0, c.delta, c.ids.take (c.ids.length - size.toNat)⟩, ⟨w1, c.delta, c.ids.drop (c.ids.length - size.toNat)⟩)

/-- `GetSenderCached` as a member function (distributed_vector_ole.h:505-519). -/
def getSenderCached (size : Int) : VM T (SRes T) := do
  let s ← VM.get
  let (rest, res) ← VM.lift (getSender s.sCached size)
  VM.modify (fun s => { s with sCached := rest })
  pure res

/-- `GetReceiverCached` as a member function (distributed_vector_ole.h:521-535). -/
def getReceiverCached (size : Int) : VM T (RRes T) := do
  let s ← VM.get
  let (rest, res) ← VM.lift (getReceiver s.rCached size)
  VM.modify (fun s => { s with rCached := rest })
  pure res

/-! ### The code generator -/

/-- One call of the generator; an exception destroys it. (`rng()`, distributed_vector_ole.h:399.) -/
def word (aes : Cipher) (g : RNG.Gen) : Out (BitVec 64 × RNG.Gen) :=
  match RNG.next aes g with
  | (.ok w, g) => .ok (w, g)
  | (.err c m, _) => .err c m
  | (.throws m, _) => .throws m
  | (.ub w, _) => .ub w
  | (.diverge, _) => .diverge

/-- `absl::MakeUint128(rng(), rng())` (distributed_vector_ole.h:399). -/
def word128 (lib : Lib) (aes : Cipher) (g : RNG.Gen) : Out (Block × RNG.Gen) := do
  let (a, g) ← word aes g
  let (b, g) ← word aes g
  .ok (if lib.hiFirst then a ++ b else b ++ a, g)

/-- `code_generator_.coeffRef(row, col) = x` (distributed_vector_ole.h:412-413) on the entries of one
    column: overwrites or inserts. -/
def setEntry (col : List (Nat × T)) (row : Nat) (x : T) : List (Nat × T) :=
  if col.any (fun e => e.1 == row) then col.map (fun e => if e.1 = row then (row, x) else e) else col ++ [(row, x)]

/-- Sampling of the elements (distributed_vector_ole.h:395-401). -/
def sampleElems [Scalar T] (lib : Lib) (aes : Cipher) (n : Nat) (g : RNG.Gen) : Out (List T × RNG.Gen) :=
  loop (fun _ (s : List T × RNG.Gen) => do
    let (r, g) ← word128 lib aes s.2
    .ok (s.1 ++ [Scalar.ofU128 r], g)) 0 n ([], g)

/-- Sampling of the rows of one column (distributed_vector_ole.h:410-414). Rows outside the matrix
    violate an Eigen assertion. -/
def sampleCol (lib : Lib) (aes : Cipher) (rows : Int) (elems : List T) (col : Nat) (g : RNG.Gen) :
    Out (List (Nat × T) × RNG.Gen) :=
  loop (fun i (s : List (Nat × T) × RNG.Gen) => do
    let (row, g) ← lib.unif aes s.2 0 (rows - 1)
    if row < 0 ∨ row ≥ rows then .ub "Eigen: coeffRef" else
    let x ← rd elems (col * nonzeros + i)
    .ok (setEntry s.1 row.toNat x, g)) 0 nonzeros ([], g)

/-- Sampling of the matrix (distributed_vector_ole.h:394-416). The distribution requires a non-empty
    range. -/
def sampleCode [Scalar T] (lib : Lib) (aes : Cipher) (rows : Int) (cols : Nat) (g : RNG.Gen) : Out (Sparse T) := do
  let (elems, g) ← sampleElems lib aes (nonzeros * cols) g
  if rows < 1 then .ub "uniform_int_distribution: empty range" else
  let (cs, _) ← loop (fun col (s : List (List (Nat × T)) × RNG.Gen) => do
    let (c, g) ← sampleCol lib aes rows elems col s.2
    .ok (s.1 ++ [c], g)) 0 cols ([], g)
  .ok ⟨rows, cs⟩

/-- Product of a row vector with one column.
    (Part of `u * code_generator_`, distributed_vector_ole.h:462, 464, 493.) -/
def colDot [Scalar T] (u : List T) : List (Nat × T) → Out T
  | [] => .ok 0
  | (r, x) :: l => do
    let a ← rd u r
    let rest ← colDot u l
    .ok (a * x + rest)

/-- Apply `f` to all elements in turn.
    (The columns of `u * code_generator_`, distributed_vector_ole.h:462, 464, 493.) -/
def mapOut {α β : Type} (f : α → Out β) : List α → Out (List β)
  | [] => .ok []
  | a :: l => do
    let b ← f a
    let r ← mapOut f l
    .ok (b :: r)

/-- `u * code_generator_` (distributed_vector_ole.h:462, 464, 493). Eigen requires matching sizes. -/
def vecMat [Scalar T] (u : List T) (c : Sparse T) : Out (List T) :=
  if (u.length : Int) ≠ c.rows then .ub "Eigen: size mismatch" else mapOut (colDot u) c.cols

/-- Sum or difference of two vectors; Eigen requires matching sizes.
    (distributed_vector_ole.h:256, 318, 462, 464, 493.) -/
def vecOp (op : T → T → T) (a b : List T) : Out (List T) :=
  if a.length ≠ b.length then .ub "Eigen: size mismatch" else .ok (List.zipWith op a b)

/-- The seed exchange (distributed_vector_ole.h:371-378). -/
def exchangeSeed (E : Env T) : VM T (List (BitVec 8)) := do
  let r ← VM.draw E
  if E.lower then
    let seed := (List.range 32).map r.byte
    VM.run (PM.send E.c.main (.bytes seed))
    pure seed
  else
    let m ← VM.run (PM.recv E.c.main)
    VM.lift (PM.unBytes m)

/-- `mpfss_->UpdateBuckets` (distributed_vector_ole.h:365). -/
def updateBuckets (E : Env T) (outputSize numIndices : Int) : VM T Unit := fun s =>
  let r := MPFSS.updateBuckets E.thr s.mpfss outputSize numIndices
  .ret (r.1, { s with mpfss := r.2 })

/-- `PrecomputeCommon` (distributed_vector_ole.h:361-418). Up to the sampling, the matrix is empty;
    after an exception during sampling it would be partly filled, here it is empty. -/
def precomputeCommon [Scalar T] (E : Env T) (outputSize : Int) : VM T Unit := do
  let s ← VM.get
  updateBuckets E outputSize s.noise
  if outputSize < 0 then VM.lift (.throws "std::length_error") else
  VM.modify (fun s => { s with code := ⟨s.voleSize, List.replicate outputSize.toNat []⟩ })
  let seed ← exchangeSeed E
  let r ← VM.draw E
  let rng ← VM.lift (RNG.create r.junk seed (nonzeros * outputSize))
  if !(Scalar.canHash T (ROT.secPerLeaf E.sec (nonzeros * outputSize)) 128) then
    VM.lift (.err .invalidArgument "Cannot sample enough random elements for the code generator with the given statistical security") else
  let s ← VM.get
  let code ← VM.lift (sampleCode E.lib E.aes s.voleSize outputSize.toNat rng)
  VM.modify (fun s => { s with code := code })

/-! ### Expansion -/

/-- The loop that samples the noise indices (distributed_vector_ole.h:439-443); the set as a list
    without repetitions. -/
def sampleIndices (lib : Lib) (aes : Cipher) (outputSize n : Int) : (fuel : Nat) → RNG.Gen → List Int → Out (List Int)
  | 0, _, _ => .diverge
  | fuel + 1, g, set =>
    if (set.length : Int) < n then do
      let (i, g) ← lib.unif aes g 0 (outputSize - 1)
      sampleIndices lib aes outputSize n fuel g (if i ∈ set then set else set ++ [i])
    else .ok set

/-- `mu` (distributed_vector_ole.h:452-456). -/
def spread [Scalar T] (outputSize : Nat) (noise : Int) (indices : List Int) (y : List T) : Out (List T) :=
  loop (fun i mu => do
    let k ← rd indices i
    let yi ← rd y i
    if k < 0 then .ub "negative index" else
    wr mu k.toNat yi) 0 noise.toNat (List.replicate outputSize 0)

/-- Fresh ghost ids. (No code; marks the elements appended in distributed_vector_ole.h:459-464.) -/
def freshIds (next n : Nat) : List (Option Nat) := (List.range n).map (fun i => some (next + i))

/-- `ExpandSender` (distributed_vector_ole.h:420-473). -/
def expandSender [Scalar T] (E : Env T) (outputSize newVole newMpfss : Int) : VM T Unit := do
  let s ← VM.get
  if s.sVole.u.length ≠ s.sVole.v.length then
    VM.lift (.err .internal "Both seeds must have the same size") else
  if s.code.rows ≠ s.sVole.u.length ∨ (s.code.cols.length : Int) ≠ outputSize then
    VM.lift (.err .internal "Code generator has the wrong dimensions") else
  let r ← VM.draw E
  let rng ← VM.lift (RNG.create r.junk ((List.range 32).map r.byte) s.noise)
  if outputSize < 1 then VM.lift (.ub "uniform_int_distribution: empty range") else
  let set ← VM.lift (sampleIndices E.lib E.aes outputSize s.noise E.fuel rng [])
  let indices := r.order set
  let ry ← VM.draw E
  let y ← VM.lift (vecOf ry s.noise)
  let rv ← VM.draw E
  let v0 ← VM.lift (vecOf rv outputSize)
  let v0 ← VM.runMpfss (fun st =>
    MPFSS.runIndexProviderVectorOLE E.aes E.fl E.c E.thr st y indices s.sMpfss.u s.sMpfss.v v0)
  let mu ← VM.lift (spread outputSize.toNat s.noise indices y)
  let u ← VM.lift (vecMat s.sVole.u s.code)
  let u ← VM.lift (vecOp (· + ·) u mu)
  let v ← VM.lift (vecMat s.sVole.v s.code)
  let v ← VM.lift (vecOp (· - ·) v v0)
  VM.modify (fun s => { s with
    sCached := ⟨s.sCached.u ++ u, s.sCached.v ++ v, s.sCached.ids ++ freshIds s.sMade.length outputSize.toNat⟩,
    sMade := s.sMade ++ List.zip u v, log := s.log ++ [(s.noise, s.voleSize, outputSize)] })
  let a ← getSenderCached newVole
  VM.modify (fun s => { s with sVole := a, sUsed := s.sUsed ++ a.ids })
  let b ← getSenderCached newMpfss
  VM.modify (fun s => { s with sMpfss := b, sUsed := s.sUsed ++ b.ids, voleSize := newVole, mpfssSize := newMpfss })

/-- `ExpandReceiver` (distributed_vector_ole.h:475-503). The cache is enlarged with uninitialised
    elements before MPFSS is run; they are overwritten if that succeeds. -/
def expandReceiver [Scalar T] (E : Env T) (outputSize newVole newMpfss : Int) : VM T Unit := do
  let s ← VM.get
  if s.code.rows ≠ s.rVole.w.length ∨ (s.code.cols.length : Int) ≠ outputSize then
    VM.lift (.err .internal "Code generator has the wrong dimensions") else
  let rg ← VM.draw E
  let garbage ← VM.lift (vecOf rg outputSize)
  VM.modify (fun s => { s with rCached := { s.rCached with
    w := s.rCached.w ++ garbage, ids := s.rCached.ids ++ List.replicate outputSize.toNat none } })
  let rv ← VM.draw E
  let v1 ← VM.lift (vecOf rv outputSize)
  let v1 ← VM.runMpfss (fun st =>
    MPFSS.runValueProviderVectorOLE E.aes E.fl E.c (E.sec.map (· * 2)) rv.key rv.seed E.thr st s.rMpfss.delta s.noise s.rMpfss.w v1)
  let w ← VM.lift (vecMat s.rVole.w s.code)
  let w ← VM.lift (vecOp (· + ·) w v1)
  VM.modify (fun s => { s with
    rCached := { s.rCached with
      w := s.rCached.w.take (s.rCached.w.length - outputSize.toNat) ++ w
      ids := s.rCached.ids.take (s.rCached.ids.length - outputSize.toNat) ++ freshIds s.rMade.length outputSize.toNat },
    rMade := s.rMade ++ w, log := s.log ++ [(s.noise, s.voleSize, outputSize)] })
  let a ← getReceiverCached newVole
  VM.modify (fun s => { s with rVole := a, rUsed := s.rUsed ++ a.ids })
  let b ← getReceiverCached newMpfss
  VM.modify (fun s => { s with rMpfss := b, rUsed := s.rUsed ++ b.ids, voleSize := newVole, mpfssSize := newMpfss })

/-! ### Precomputation -/

/-- The bootstrapping loop of the sender (distributed_vector_ole.h:262-285): `k` iterations left,
    the next one being number `i`. -/
def bootSender [Scalar T] (E : Env T) (batchSize : Int) : (k i : Nat) → VM T Unit
  | 0, _ => pure ()
  | k + 1, i => do
    let s ← VM.get
    let o ← VM.lift (rd outputSizes i)
    let need ← VM.lift (i64 (batchSize + s.mpfssSize) >>= fun x => i64 (x + s.voleSize))
    if o ≥ need then pure () else do
    let nextVole ← VM.lift (rd seedSizes (i + 1))
    let nextNoise ← VM.lift (rd noiseSizes (i + 1))
    let nextMpfss ← VM.lift (MPFSS.numBuckets s.mpfss.hasher nextNoise)
    let outputSize ← VM.lift (i32 (nextVole + nextMpfss))
    precomputeCommon E outputSize
    expandSender E outputSize nextVole nextMpfss
    VM.modify (fun s => { s with noise := nextNoise })
    bootSender E batchSize k (i + 1)

/-- The bootstrapping loop of the receiver (distributed_vector_ole.h:323-346). -/
def bootReceiver [Scalar T] (E : Env T) (batchSize : Int) : (k i : Nat) → VM T Unit
  | 0, _ => pure ()
  | k + 1, i => do
    let s ← VM.get
    let o ← VM.lift (rd outputSizes i)
    let need ← VM.lift (i64 (batchSize + s.voleSize) >>= fun x => i64 (x + s.mpfssSize))
    if o ≥ need then pure () else do
    let nextVole ← VM.lift (rd seedSizes (i + 1))
    let nextNoise ← VM.lift (rd noiseSizes (i + 1))
    let nextMpfss ← VM.lift (MPFSS.numBuckets s.mpfss.hasher nextNoise)
    let outputSize ← VM.lift (i32 (nextVole + nextMpfss))
    precomputeCommon E outputSize
    expandReceiver E outputSize nextVole nextMpfss
    VM.modify (fun s => { s with noise := nextNoise })
    bootReceiver E batchSize k (i + 1)

/-- The start of both precomputations (distributed_vector_ole.h:243-249 and 306-312): sets the sizes
    of the first row and returns the size of the first seeds. -/
def startPrecompute : VM T Int := do
  VM.modify (fun s => { s with batch := 0 })
  let noise ← VM.lift (rd noiseSizes 0)
  let vole ← VM.lift (rd seedSizes 0)
  VM.modify (fun s => { s with noise := noise, voleSize := vole })
  let s ← VM.get
  let m ← VM.lift (MPFSS.numBuckets s.mpfss.hasher noise)
  VM.modify (fun s => { s with mpfssSize := m })
  VM.lift (i32 (vole + m))

/-- The end of both precomputations (distributed_vector_ole.h:287-295 and 348-356). -/
def finishPrecompute [Scalar T] (E : Env T) (batchSize : Int) : VM T Unit := do
  let s ← VM.get
  let last ← VM.lift (rd outputSizes (outputSizes.length - 1))
  let cap ← VM.lift (i32 (last - s.mpfssSize) >>= fun x => i32 (x - s.voleSize))
  VM.modify (fun s => { s with batch := min batchSize cap })
  let s ← VM.get
  precomputeCommon E (s.batch + s.voleSize + s.mpfssSize)

/-- `PrecomputeSender` (distributed_vector_ole.h:237-298). -/
def precomputeSender [Scalar T] (E : Env T) (batchSize : Int) : VM T Unit := do
  if batchSize < 1 then VM.lift (.err .invalidArgument "`batch_size` must be positive") else
  let n ← startPrecompute
  let rw ← VM.draw E
  let w ← VM.lift (vecOf rw n)
  let ru ← VM.draw E
  let u ← VM.lift (vecOf ru n)
  let rv ← VM.draw E
  let v ← VM.lift (vecOf rv n)
  VM.modify (fun s => { s with sCached := ⟨u, v, freshIds s.sMade.length n.toNat⟩, sMade := s.sMade ++ List.zip u v })
  let w ← VM.run (Gilboa.runVectorProvider E.c E.sec rw.m0 rw.rnd u w)
  let w ← VM.lift (vecOp (· + ·) w v)
  VM.run (PM.send E.c.main (.elems w))
  let s ← VM.get
  let a ← getSenderCached s.voleSize
  VM.modify (fun s => { s with sVole := a, sUsed := s.sUsed ++ a.ids })
  let b ← getSenderCached s.mpfssSize
  VM.modify (fun s => { s with sMpfss := b, sUsed := s.sUsed ++ b.ids })
  bootSender E batchSize (seedSizes.length - 1) 0
  finishPrecompute E batchSize
  VM.modify (fun s => { s with sDone := true })

/-- `PrecomputeReceiver` (distributed_vector_ole.h:300-359). -/
def precomputeReceiver [Scalar T] (E : Env T) (batchSize : Int) (delta : T) : VM T Unit := do
  if batchSize < 1 then VM.lift (.err .invalidArgument "`batch_size` must be positive") else
  let n ← startPrecompute
  let r ← VM.draw E
  let w ← VM.lift (vecOf r n)
  VM.modify (fun s => { s with rCached := ⟨w, delta, List.replicate n.toNat none⟩ })
  let w ← VM.run (Gilboa.runValueProvider E.c E.sec delta w)
  VM.modify (fun s => { s with rCached := { s.rCached with w := w } })
  let m ← VM.run (PM.recv E.c.main)
  let w2 ← VM.lift (PM.unElems m)
  let w ← VM.lift (vecOp (· + ·) w w2)
  VM.modify (fun s => { s with rCached := ⟨w, delta, freshIds s.rMade.length n.toNat⟩, rMade := s.rMade ++ w })
  let s ← VM.get
  let a ← getReceiverCached s.voleSize
  VM.modify (fun s => { s with rVole := a, rUsed := s.rUsed ++ a.ids })
  let b ← getReceiverCached s.mpfssSize
  VM.modify (fun s => { s with rMpfss := b, rUsed := s.rUsed ++ b.ids })
  bootReceiver E batchSize (seedSizes.length - 1) 0
  finishPrecompute E batchSize
  VM.modify (fun s => { s with rDone := true })

/-- `PrecomputeReceiver` without `delta` (distributed_vector_ole.h:78-82). -/
def precomputeReceiver' [Scalar T] (E : Env T) (batchSize : Int) : VM T Unit := do
  let r ← VM.draw E
  precomputeReceiver E batchSize (r.elems 0)

/-! ### Run -/

/-- `x.segment(off, y.size()) = y` (distributed_vector_ole.h:563-564, 611; also `tail`, lines 572-573,
    619). Eigen requires the segment to lie inside the vector. -/
def setSeg {α : Type} (l : List α) (off : Nat) (y : List α) : Out (List α) :=
  if off + y.length ≤ l.length then .ok (l.take off ++ y ++ l.drop (off + y.length)) else .ub "Eigen: segment"

/-- `x.tail(n) = y` (distributed_vector_ole.h:572-573, 619). Eigen requires `y.size() == n` and
    `0 <= n <= x.size()`. -/
def setTail {α : Type} (l : List α) (n : Int) (y : List α) : Out (List α) :=
  if n < 0 ∨ n > l.length ∨ n ≠ y.length then .ub "Eigen: tail" else .ok (l.take (l.length - n.toNat) ++ y)

/-- Ghost version of `setSeg`. (No code; follows distributed_vector_ole.h:562-563.) -/
def putIds (l : List (Option Nat)) (off : Nat) (y : List (Option Nat)) : List (Option Nat) :=
  l.take off ++ y ++ l.drop (off + y.length)

/-- The loop of `RunSender` (distributed_vector_ole.h:559-580) with result so far and `num_copied`. -/
def runSenderLoop [Scalar T] (E : Env T) (size : Int) : (fuel : Nat) → SRes T → Nat → VM T (SRes T)
  | 0, _, _ => VM.lift .diverge
  | fuel + 1, res, copied =>
    if (copied : Int) < size then do
      let s ← VM.get
      let (res, copied) ← (
        if (copied : Int) + s.sCached.u.length ≤ size then do
          let u ← VM.lift (setSeg res.u copied s.sCached.u)
          let v ← VM.lift (setSeg res.v copied s.sCached.v)
          VM.modify (fun s => { s with sCached := ⟨[], [], []⟩ })
          pure (⟨u, v, putIds res.ids copied s.sCached.ids⟩, copied + s.sCached.u.length)
        else do
          let remaining := size - copied
          let c ← getSenderCached remaining
          let u ← VM.lift (setTail res.u remaining c.u)
          let v ← VM.lift (setTail res.v remaining c.v)
          pure (⟨u, v, putIds res.ids copied c.ids⟩, size.toNat) : VM T (SRes T × Nat))
      if (copied : Int) < size then do
        let s ← VM.get
        expandSender E (s.batch + s.voleSize + s.mpfssSize) s.voleSize s.mpfssSize
        runSenderLoop E size fuel res copied
      else runSenderLoop E size fuel res copied
    else pure res

/-- `RunSender` (distributed_vector_ole.h:537-583). -/
def runSender [Scalar T] (E : Env T) (size : Int) : VM T (SRes T) := do
  let s ← VM.get
  if s.sDone then pure () else precomputeSender E size
  let s ← VM.get
  match getSender s.sCached size with
  | .ok (rest, res) => do
    VM.modify (fun s => { s with sCached := rest })
    pure res
  | .err _ _ => do
    let ru ← VM.draw E
    let u ← VM.lift (vecOf ru size)
    let rv ← VM.draw E
    let v ← VM.lift (vecOf rv size)
    runSenderLoop E size E.fuel ⟨u, v, List.replicate size.toNat none⟩ 0
  | .throws m => VM.lift (.throws m)
  | .ub w => VM.lift (.ub w)
  | .diverge => VM.lift .diverge

/-- The loop of `RunReceiver` (distributed_vector_ole.h:607-626). -/
def runReceiverLoop [Scalar T] (E : Env T) (size : Int) : (fuel : Nat) → RRes T → Nat → VM T (RRes T)
  | 0, _, _ => VM.lift .diverge
  | fuel + 1, res, copied =>
    if (copied : Int) < size then do
      let s ← VM.get
      let (res, copied) ← (
        if (copied : Int) + s.rCached.w.length ≤ size then do
          let w ← VM.lift (setSeg res.w copied s.rCached.w)
          VM.modify (fun s => { s with rCached := { s.rCached with w := [], ids := [] } })
          pure (⟨w, res.delta, putIds res.ids copied s.rCached.ids⟩, copied + s.rCached.w.length)
        else do
          let remaining := size - copied
          let c ← getReceiverCached remaining
          let w ← VM.lift (setTail res.w remaining c.w)
          pure (⟨w, res.delta, putIds res.ids copied c.ids⟩, size.toNat) : VM T (RRes T × Nat))
      if (copied : Int) < size then do
        let s ← VM.get
        expandReceiver E (s.batch + s.voleSize + s.mpfssSize) s.voleSize s.mpfssSize
        runReceiverLoop E size fuel res copied
      else runReceiverLoop E size fuel res copied
    else pure res

/-- `RunReceiver` (distributed_vector_ole.h:585-629). -/
def runReceiver [Scalar T] (E : Env T) (size : Int) : VM T (RRes T) := do
  let s ← VM.get
  if s.rDone then pure () else precomputeReceiver' E size
  let s ← VM.get
  match getReceiver s.rCached size with
  | .ok (rest, res) => do
    VM.modify (fun s => { s with rCached := rest })
    pure res
  | .err _ _ => do
    let r ← VM.draw E
    let w ← VM.lift (vecOf r size)
    runReceiverLoop E size E.fuel ⟨w, s.rCached.delta, List.replicate size.toNat none⟩ 0
  | .throws m => VM.lift (.throws m)
  | .ub w => VM.lift (.ub w)
  | .diverge => VM.lift .diverge

end DVO.VOLE
