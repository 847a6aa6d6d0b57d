/-
Specification vocabulary for the vector OLE.
-/
import Verif.Model.VOLE
import Verif.Spec.MPFSS

namespace DVO.VOLE
variable {T : Type}

/-- A vector OLE correlation: `w = u * d + v`, element by element. -/
def Correlated [Scalar T] (d : T) (u v w : List T) : Prop :=
  u.length = v.length ∧ w = List.zipWith (fun a b => a * d + b) u v

/-- A random generator that has not been asked for too many numbers. -/
structure Usable (g : RNG.Gen) : Prop where
  size : 2 ≤ g.buffer.length
  size_lt : g.buffer.length < 2 ^ 40
  pos : 0 ≤ g.used
  le : g.used ≤ g.buffer.length
  counter : g.counter ≤ RNG.reseedInterval

/-- What the protocol relies on in the standard library: numbers drawn uniformly from a non-empty
    range lie in that range; drawing may fail only with an exception or by not terminating. -/
def Lib.Conforms (lib : Lib) (aes : Cipher) : Prop := ∀ g lo hi, Usable g → lo ≤ hi →
  match lib.unif aes g lo hi with
  | .ok (x, g') => lo ≤ x ∧ x ≤ hi ∧ Usable g'
  | .throws _ => True
  | .diverge => True
  | _ => False

/-- Two parties that are meant to work together: same cipher, library, security parameter and
    channels, different ids; working threads and hash sets; hashers with three hash functions and a
    sensible number of buckets; float results good enough for the sizes that occur. -/
structure Together (h : Cuckoo.Hasher) (A B : Env T) : Prop where
  aes : B.aes = A.aes
  fl : B.fl = A.fl
  chans : B.c = A.c
  sec : B.sec = A.sec
  lib : B.lib = A.lib
  ids : B.lower = !A.lower
  threadsA : MPFSS.Threads A.thr
  threadsB : MPFSS.Threads B.thr
  orderA : ∀ i l, List.Perm ((A.rand i).order l) l
  orderB : ∀ i l, List.Perm ((B.rand i).order l) l
  conforms : A.lib.Conforms A.aes
  numHash : h.numHash = 3
  buckets_pos : ∀ n ∈ noiseSizes, 0 < h.optimal n.toNat
  buckets_lt : ∀ n ∈ noiseSizes, h.optimal n.toNat < 10027932
  trees : ∀ n ≤ 3 * 10616092, ROT.GoodSize A.fl n

/-- Which outcomes other than success a party may see when two parties work together: no undefined
    behaviour; not the errors that the two seeds have different sizes, that the code generator has the wrong dimensions, or that the cache
    does not contain enough elements. -/
def Expected : Out Unit → Prop
  | .err c m => c ≠ .outOfRange ∧ ¬ (c = .internal ∧ (m = "Both seeds must have the same size" ∨ m = "Code generator has the wrong dimensions"))
  | .throws _ => True
  | .diverge => True
  | _ => False

/-- Nothing goes wrong in the probabilistic parts of the protocol: hashes are long enough, the element type is suitable for the statistical security, the
    random number generators are not exhausted, sampling distinct indices comes to an end, and
    hashing them (in any order) succeeds. -/
structure Smooth [Scalar T] (h : Cuckoo.Hasher) (E : Env T) : Prop where
  bits : ∀ t : Nat, (t : Int) ∈ noiseSizes → ∀ m ≤ 10616092, h.tooManyBits m (h.optimal t).toNat = false
  trees : ∀ m : Nat, m ≤ 10616092 → Scalar.canHash T (ROT.secPerLeaf (E.sec.map (· * 2)) ((h.numHash * m : Nat) : Int)) 128 = true
  elements : ∀ cols : Nat, cols ≤ 10616092 → Scalar.canHash T (ROT.secPerLeaf E.sec (nonzeros * cols)) 128 = true
  sampling : ∀ (junk : RNG.Gen) (seed : List (BitVec 8)) (rows cols : Nat) (g : RNG.Gen), 1 ≤ rows → cols ≤ 10616092 →
    RNG.create junk seed (nonzeros * cols) = .ok g → ∃ c : Sparse T, sampleCode E.lib E.aes rows cols g = .ok c
  indices : ∀ (junk : RNG.Gen) (seed : List (BitVec 8)) (t o : Nat) (g : RNG.Gen), (t : Int) ∈ noiseSizes → t ≤ o → o ≤ 10616092 →
    RNG.create junk seed t = .ok g → ∃ l, sampleIndices E.lib E.aes o t E.fuel g [] = .ok l ∧
      ∀ l' : List Int, l'.Perm l → ∃ hashed, Cuckoo.hashCuckoo h (l'.map MPFSS.indexBlock) (h.optimal t) = .ok hashed

/-- The same with smaller bounds: `M` for the sizes of code generators and `N` for the sizes of expansions. -/
structure SmoothTo [Scalar T] (M N : Nat) (h : Cuckoo.Hasher) (E : Env T) : Prop where
  bits : ∀ t : Nat, (t : Int) ∈ noiseSizes → ∀ m ≤ 10616092, h.tooManyBits m (h.optimal t).toNat = false
  trees : ∀ m : Nat, m ≤ N → Scalar.canHash T (ROT.secPerLeaf (E.sec.map (· * 2)) ((h.numHash * m : Nat) : Int)) 128 = true
  elements : ∀ cols : Nat, cols ≤ M → Scalar.canHash T (ROT.secPerLeaf E.sec (nonzeros * cols)) 128 = true
  sampling : ∀ (junk : RNG.Gen) (seed : List (BitVec 8)) (rows cols : Nat) (g : RNG.Gen), 1 ≤ rows → cols ≤ M →
    RNG.create junk seed (nonzeros * cols) = .ok g → ∃ c : Sparse T, sampleCode E.lib E.aes rows cols g = .ok c
  indices : ∀ (junk : RNG.Gen) (seed : List (BitVec 8)) (t o : Nat) (g : RNG.Gen), (t : Int) ∈ noiseSizes → t ≤ o → o ≤ N →
    RNG.create junk seed t = .ok g → ∃ l, sampleIndices E.lib E.aes o t E.fuel g [] = .ok l ∧
      ∀ l' : List Int, l'.Perm l → ∃ hashed, Cuckoo.hashCuckoo h (l'.map MPFSS.indexBlock) (h.optimal t) = .ok hashed

theorem Smooth.to [Scalar T] {h : Cuckoo.Hasher} {E : Env T} (S : Smooth h E) : SmoothTo 10616092 10616092 h E :=
  ⟨S.bits, S.trees, S.elements, S.sampling, S.indices⟩

/-! ### Histories of matching calls -/

/-- A call made by both parties, in matching roles. `fwd`: the first party is the sender. -/
inductive Op (T : Type)
  | precompute (fwd : Bool) (batch : Int) (delta : T)
  | precomputeRandom (fwd : Bool) (batch : Int)
  | run (fwd : Bool) (size : Int)

/-- The direction of a call. -/
def Op.fwd : Op T → Bool
  | .precompute f _ _ => f
  | .precomputeRandom f _ => f
  | .run f _ => f

/-- Arguments small enough not to overflow `int64_t` (distributed_vector_ole.h:265), and no
    negative sizes of results. -/
def Op.Small : Op T → Prop
  | .precompute _ b _ => b < 2 ^ 62
  | .precomputeRandom _ b => b < 2 ^ 62
  | .run _ n => 0 ≤ n ∧ n < 2 ^ 62

/-- What a call returns to a party. -/
inductive Answer (T : Type)
  | done
  | sent (res : SRes T)
  | rcvd (res : RRes T)

/-- A call as a sender. -/
def asSender [Scalar T] (E : Env T) : Op T → VM T (Answer T)
  | .precompute _ b _ => do precomputeSender E b; pure .done
  | .precomputeRandom _ b => do precomputeSender E b; pure .done
  | .run _ n => do let r ← runSender E n; pure (.sent r)

/-- A call as a receiver. -/
def asReceiver [Scalar T] (E : Env T) : Op T → VM T (Answer T)
  | .precompute _ b d => do precomputeReceiver E b d; pure .done
  | .precomputeRandom _ b => do precomputeReceiver' E b; pure .done
  | .run _ n => do let r ← runReceiver E n; pure (.rcvd r)

/-- A sequence of calls made by the first (`me = true`) or second party; stops at the first error. -/
def play [Scalar T] (E : Env T) (me : Bool) : List (Op T) → VM T (List (Answer T))
  | [] => pure []
  | op :: ops => do
    let a ← if op.fwd = me then asSender E op else asReceiver E op
    let l ← play E me ops
    pure (a :: l)

/-- What the answers to a call should be, `a` to the sender and `b` to the receiver, if `old` was the
    value of `delta` before (`none`: no precomputation yet) and `new` is its value after the call. -/
def Expect [Scalar T] (op : Op T) (old : Option T) (a b : Answer T) (new : T) : Prop :=
  match op with
  | .precompute _ _ d => a = .done ∧ b = .done ∧ new = d
  | .precomputeRandom _ _ => a = .done ∧ b = .done
  | .run _ n => (old = none ∨ old = some new) ∧ ∃ x y, a = .sent x ∧ b = .rcvd y ∧ y.delta = new ∧
      (x.u.length : Int) = n ∧ Correlated new x.u x.v y.w

/-- What the answers to a sequence of calls should be; `df` and `db` are the current values of
    `delta` in the two directions. -/
def Answers [Scalar T] : List (Op T) → Option T → Option T → List (Answer T) → List (Answer T) → Prop
  | [], _, _, as, bs => as = [] ∧ bs = []
  | op :: ops, df, db, as, bs => ∃ a as' b bs' d, as = a :: as' ∧ bs = b :: bs' ∧
      (if op.fwd then Expect op df a b d ∧ Answers ops (some d) db as' bs'
       else Expect op db b a d ∧ Answers ops df (some d) as' bs')

/-- The parties agree on how many elements are available and on everything about future
    expansions, and have made the same expansions. -/
structure InStep (s r : VState T) : Prop where
  forward : s.sCached.u.length = r.rCached.w.length
  backward : s.rCached.w.length = r.sCached.u.length
  batch : s.batch = r.batch
  vole : s.voleSize = r.voleSize
  mpfss : s.mpfssSize = r.mpfssSize
  noise : s.noise = r.noise
  code : s.code = r.code
  log : s.log = r.log
  doneF : s.sDone = r.rDone
  doneB : s.rDone = r.sDone

/-! ### The life of one object, with any peer -/

/-- The calls made on one object, with their outcomes, and the state reached: `op.fwd` says that the
    object is the sender. The peer may do anything, and calls may fail in any way. -/
inductive Lives [Scalar T] (E : Env T) (s0 : VState T) : List (Op T × Out (Answer T)) → VState T → Prop
  | new : Lives E s0 [] s0
  | call {l s} {op : Op T} {o : Out (Answer T)} {s'} : Lives E s0 l s →
      Returns ((if op.fwd then asSender E op else asReceiver E op) s) (o, s') → Lives E s0 (l ++ [(op, o)]) s'

/-- The results returned to the caller by `RunSender`. -/
def sentResults : List (Op T × Out (Answer T)) → List (SRes T)
  | [] => []
  | (_, .ok (.sent r)) :: l => r :: sentResults l
  | _ :: l => sentResults l

/-- The results returned to the caller by `RunReceiver`. -/
def rcvdResults : List (Op T × Out (Answer T)) → List (RRes T)
  | [] => []
  | (_, .ok (.rcvd r)) :: l => r :: rcvdResults l
  | _ :: l => rcvdResults l

/-- Every element of `r` is one of the correlations `made`, namely the one that its id says. -/
def FromMade (made : List (T × T)) (r : SRes T) : Prop :=
  r.v.length = r.u.length ∧ r.ids.length = r.u.length ∧
  ∀ (k : Nat) u v, r.u[k]? = some u → r.v[k]? = some v → ∃ j, r.ids[k]? = some (some j) ∧ made[j]? = some (u, v)

/-- The same for a receiver; elements without id are uninitialised. -/
def FromMadeR (made : List T) (r : RRes T) : Prop :=
  r.ids.length = r.w.length ∧ ∀ (k : Nat) w j, r.w[k]? = some w → r.ids[k]? = some (some j) → made[j]? = some w

/-- An expansion (noise parameter, seed size, output size) that stays within a row of the parameters
    of Schoppmann et al. (distributed_vector_ole.cpp:5-8): noise and seed size are those of the row,
    and the output is at most as long as the row allows. -/
def FitsRow (x : Int × Int × Int) : Prop :=
  ∃ (k : Nat) (o : Int), noiseSizes[k]? = some x.1 ∧ seedSizes[k]? = some x.2.1 ∧ outputSizes[k]? = some o ∧ x.2.2 ≤ o

end DVO.VOLE
