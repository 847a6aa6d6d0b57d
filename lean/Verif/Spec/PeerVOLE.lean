/-
Specification vocabulary for one party of a vector OLE talking to any peer: the messages it counts on.
-/
import Verif.Spec.Peer
import Verif.Spec.VOLE

namespace DVO.VOLE

/-- What a party counts on receiving: a seed (of any length), the two keys of a tree, a vector of exactly `n` elements, a
    vector of `n` elements or more; in `Create` a token of `comm_channel::sync` or a block. -/
inductive Want
  | seed
  | keys
  | exactly (n : Nat)
  | atLeast (n : Nat)
  | token
  | block

/-- The message is as wanted, or the peer has closed the connection. -/
def Meets {T : Type} : Want → Msg T → Prop
  | _, .closed => True
  | .seed, .bytes _ => True
  | .keys, .blocks b => b.length = 2
  | .exactly n, .elems v => v.length = n
  | .atLeast n, .elems v => n ≤ v.length
  | .token, .token => True
  | .block, .blocks b => b.length = 1
  | _, _ => False

/-- The messages `l` are as wanted, as far as they go. -/
def MeetsAll {T : Type} (rs : List Want) (l : List (Msg T)) : Prop :=
  ∀ (i : Nat) (r : Want) (m : Msg T), rs[i]? = some r → l[i]? = some m → Meets r m

/-- One party, whoever it talks to: working threads and hash sets; a hasher with three hash functions and a sensible number of
    buckets; float results good enough for the sizes that occur. -/
structure Alone {T : Type} (h : Cuckoo.Hasher) (A : Env T) : Prop where
  threads : MPFSS.Threads A.thr
  order : ∀ i l, List.Perm ((A.rand i).order l) l
  conforms : A.lib.Conforms A.aes
  numHash : h.numHash = 3
  buckets_pos : ∀ n ∈ noiseSizes, 0 < h.optimal n.toNat
  buckets_lt : ∀ n ∈ noiseSizes, h.optimal n.toNat < 10027932
  trees : ∀ n ≤ 3 * 10616092, ROT.GoodSize A.fl n

/-- What a party wants to receive in `DistributedVectorOLE::Create`: three tokens; the party with the higher id then the seed of
    the hasher. -/
def createWants (lower : Bool) : List Want := [.token, .token, .token] ++ if lower then [] else [.block]

/-- The party with the lower id sends the seed of the code generator, the other one receives it. -/
def wantSeed (lower : Bool) : List Want := if lower then [] else [.seed]

/-- What is wanted in the bootstrapping, `k` rows of the table being left and the current one being `i`, if a row with `n`
    buckets wants `row n`: it ends at the first row whose outputs are enough for the batch. -/
def wantRows (h : Cuckoo.Hasher) (batch : Int) (row : Nat → List Want) : (k i : Nat) → List Want
  | 0, _ => []
  | k + 1, i =>
    let n := h.optimal (noiseSizes.getD i 0).toNat
    if outputSizes.getD i 0 ≥ batch + n + seedSizes.getD i 0 then [] else row n.toNat ++ wantRows h batch row k (i + 1)

/-- The row of the table at which the bootstrapping ends. -/
def lastRow (h : Cuckoo.Hasher) (batch : Int) : (k i : Nat) → Nat
  | 0, i => i
  | k + 1, i =>
    if outputSizes.getD i 0 ≥ batch + h.optimal (noiseSizes.getD i 0).toNat + seedSizes.getD i 0 then i else lastRow h batch k (i + 1)

/-- The number of buckets used from then on. -/
def lastBuckets (h : Cuckoo.Hasher) (batch : Int) : Nat := (h.optimal (noiseSizes.getD (lastRow h batch 4 0) 0).toNat).toNat

/-- What the receiver of the vector OLE wants to receive in its precomputation: a vector as long as its first seeds together;
    for each row of the bootstrapping, the seed of the code and a vector with one element per bucket; the last seed. -/
def receiverWants (h : Cuckoo.Hasher) (batch : Int) (lower : Bool) : List Want :=
  .exactly (1589 + (h.optimal 98).toNat) :: (wantRows h batch (fun n => wantSeed lower ++ [.exactly n]) 4 0 ++ wantSeed lower)

/-- What the sender wants to receive: for each row of the bootstrapping, the seed of the code, the keys of the trees and a
    vector with at least one element per bucket; the last seed. -/
def senderWants (h : Cuckoo.Hasher) (batch : Int) (lower : Bool) : List Want :=
  wantRows h batch (fun n => wantSeed lower ++ [.keys, .atLeast n]) 4 0 ++ wantSeed lower

/-- What the receiver wants in each of `k` expansions after its precomputation. -/
def receiverMore (h : Cuckoo.Hasher) (batch : Int) (k : Nat) : List Want := (List.replicate k [Want.exactly (lastBuckets h batch)]).flatten

/-- The same for the sender. -/
def senderMore (h : Cuckoo.Hasher) (batch : Int) (k : Nat) : List Want := (List.replicate k [Want.keys, .atLeast (lastBuckets h batch)]).flatten

/-- A receiver that asks for vectors of these sizes, one after the other, up to the first error. -/
def receives {T : Type} [Scalar T] (E : Env T) : List Int → VM T (List (RRes T))
  | [] => pure []
  | n :: ns => do
    let a ← runReceiver E n
    let l ← receives E ns
    pure (a :: l)

/-- The same for the sender. -/
def sends {T : Type} [Scalar T] (E : Env T) : List Int → VM T (List (SRes T))
  | [] => pure []
  | n :: ns => do
    let a ← runSender E n
    let l ← sends E ns
    pure (a :: l)

end DVO.VOLE
