/-
Specification vocabulary for the multi-point FSS.
-/
import Verif.Model.MPFSS
import Verif.Spec.ROT

namespace DVO

/-- `p` can return `a`, for some behaviour of whoever it talks to. -/
inductive Returns {M α : Type} : Proc M α → α → Prop
  | ret (a) : Returns (.ret a) a
  | send (ch m k a) : Returns k a → Returns (.send ch m k) a
  | recv (ch k m a) : Returns (k m) a → Returns (.recv ch k) a
  | otSend (ch kd ms k a) : Returns k a → Returns (.otSend ch kd ms k) a
  | otRecv (ch kd cs k r a) : Returns (k r) a → Returns (.otRecv ch kd cs k) a

namespace MPFSS

/-- The threads process each input exactly once. -/
def Threads (thr : Nat → List Nat) : Prop := ∀ n, (thr n).sum = n

/-- States an object created with hasher `h` can be in, after any sequence of calls with any
    arguments, any peer and any outcome. -/
inductive Reached (T : Type) [Scalar T] (h : Cuckoo.Hasher) : State → Prop
  | new : Reached T h (State.new h)
  | update {st} (thr o n) : Threads thr → Reached T h st → Reached T h (updateBuckets thr st o n).2
  | value {st r} (aes fl c sec key seed thr) (x : T) (yLen w output) : Threads thr → Reached T h st →
      Returns (runValueProviderVectorOLE aes fl c sec key seed thr st x yLen w output) r → Reached T h r.st
  | index {st r} (aes fl c thr) (y : List T) (indices u v output) : Threads thr → Reached T h st →
      Returns (runIndexProviderVectorOLE aes fl c thr st y indices u v output) r → Reached T h r.st

/-- Sizes for which the protocol is meant to work: two or three hash functions, at least one and at
    most `m` indices into an output of size `m`, a positive number of buckets; sizes small enough for
    the `int`s in the code and for the hash length. -/
structure Sized (h : Cuckoo.Hasher) (fl : Nat → Nat → Nat) (t m : Nat) : Prop where
  numHash : h.numHash = 2 ∨ h.numHash = 3
  pos : 0 < t
  le : t ≤ m
  buckets_pos : 0 < h.optimal t
  buckets_lt : h.optimal t < 2 ^ 31
  bits : h.tooManyBits m (h.optimal t).toNat = false
  size : h.numHash * m < 2 ^ 31
  trees : ∀ n ≤ h.numHash * m, ROT.GoodSize fl n

/-- In addition, the output is small enough for the statistical security of the element type. -/
structure Supported (T : Type) [Scalar T] (h : Cuckoo.Hasher) (fl : Nat → Nat → Nat) (sec : Sec) (t m : Nat) : Prop
    extends Sized h fl t m where
  canHash : Scalar.canHash T (ROT.secPerLeaf sec ((h.numHash * m : Nat) : Int)) 128 = true

/-- The arguments of both roles fit together: `t` indices and values, outputs of size `m`, and a
    Vector OLE correlation `w = u x + v` with one element per bucket. -/
structure Args {T : Type} [Scalar T] (h : Cuckoo.Hasher) (t m : Nat) (x : T) (w outV y : List T) (indices : List Int)
    (u v outI : List T) : Prop where
  len_y : y.length = t
  len_indices : indices.length = t
  len_outV : outV.length = m
  len_outI : outI.length = m
  len_w : (w.length : Int) = h.optimal t
  len_u : (u.length : Int) = h.optimal t
  len_v : (v.length : Int) = h.optimal t
  corr : ∀ (j : Nat) (uj vj wj : T), u[j]? = some uj → v[j]? = some vj → w[j]? = some wj → wj = uj * x + vj

/-- All indices are valid positions of an output of size `m`. -/
def InRange (m : Nat) (indices : List Int) : Prop := ∀ i ∈ indices, 0 ≤ i ∧ i < m

/-- `o0` and `o1` have length `m` and are additive shares of the vector `f`. -/
def SharesOf {T : Type} [Scalar T] (m : Nat) (o0 o1 : List T) (f : Nat → T) : Prop :=
  o0.length = m ∧ o1.length = m ∧ ∀ k < m, ∃ a b, o0[k]? = some a ∧ o1[k]? = some b ∧ a + b = f k

/-- The multi-point function: the sum of `x * y[i]` over all `i` with `indices[i] = k`. -/
def pointSum {T : Type} [Scalar T] (x : T) (y : List T) (indices : List Int) (k : Nat) : T :=
  ((indices.zip y).map (fun p => if p.1 = (k : Int) then x * p.2 else 0)).sum

/-- What a `Run` call reports besides the state of the object. -/
def Res.visible {T : Type} (r : Res T) : Out Unit × List T := (r.status, r.output)

end MPFSS
end DVO
