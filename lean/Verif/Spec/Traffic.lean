/-
Specification vocabulary for the amount of communication.
-/
import Verif.Spec.VOLE
import Verif.Spec.Cuckoo
import Mathlib.Algebra.BigOperators.Group.Finset.Basic

namespace DVO
variable {T α : Type}

/-- What it costs to send an element, a 16-byte block and a byte, and to take part in the oblivious transfer of
    one out of two blocks. A bound for all prices is a bound on each of the four numbers. -/
structure Price where
  elem : Nat
  block : Nat
  byte : Nat
  ot : Nat

/-- The price of a message. -/
def Price.msg (P : Price) : Msg T → Nat
  | .blocks b => P.block * b.length
  | .elems v => P.elem * v.length
  | .bytes b => P.byte * b.length
  | .token => 0
  | .closed => 0

/-- The price of an event, to be paid by the party that sends or takes part in an oblivious transfer. -/
def Price.event (P : Price) : Event (Msg T) → Nat
  | .sent _ m => P.msg m
  | .rcvd _ _ => 0
  | .otSent _ ms => P.ot * ms.length
  | .otRcvd _ cs _ => P.ot * cs.length

/-- The price of all that a party has done. -/
def Price.spent (P : Price) (v : List (Event (Msg T))) : Nat := (v.map P.event).sum

/-- Whoever the peer is and whatever has happened so far, the party has spent at most `N`; and exactly `N` if it has
    returned with a `good` result. -/
def Costs (P : Price) (good : α → Prop) (p : Proc (Msg T) α) (N : Nat) : Prop :=
  ∀ (β : Type) (q : Proc (Msg T) β) (k : Nat) (s : Net (Msg T) α β), Net.Steps k (Net.init p q) s →
    P.spent s.pv ≤ N ∧ ∀ a, s.p = .ret a → good a → P.spent s.pv = N

/-- Success. -/
def Out.IsOk : Out α → Prop := fun o => ∃ a, o = .ok a

/-- The oblivious transfers for a tree with `n` leaves: one for each level below the root. -/
def treeOTs (fl : Nat → Nat → Nat) (n : Nat) : Nat := if n = 0 then 0 else fl n 2

namespace MPFSS

/-- The oblivious transfers for `t` indices in an output of size `m`: those for all the buckets. -/
def bucketOTs (fl : Nat → Nat → Nat) (h : Cuckoo.Hasher) (t m : Nat) : Nat :=
  ((List.range (h.optimal t).toNat).map (fun b =>
    treeOTs fl (Cuckoo.simpleBucket h.enc h.numHash (h.optimal t).toNat ((List.range m).map (BitVec.ofNat 128)) b).length)).sum

/-- Success of a call. -/
def Res.Good (r : Res T) : Prop := r.status.IsOk

end MPFSS

/-- The oblivious transfers for a product with a vector of length `n`: as many as an element has bits, for every
    group of elements that fill 16 bytes. -/
def Gilboa.productOTs (T : Type) [Scalar T] (n : Nat) : Nat :=
  Scalar.sizeOf T * 8 * ((n + 16 / Scalar.sizeOf T - 1) / (16 / Scalar.sizeOf T))

namespace VOLE

/-- The number of noise indices in row `i` of the parameters (0 to 4). -/
def noiseOf : Nat → Nat
  | 0 => 98
  | 1 => 198
  | 2 => 382
  | 3 => 1254
  | _ => 1324

/-- The seed size in row `i` of the parameters. -/
def seedOf : Nat → Nat
  | 0 => 1589
  | 1 => 3482
  | 2 => 7391
  | 3 => 37248
  | _ => 588160

/-- The output size in row `i` of the parameters. -/
def outputOf : Nat → Nat
  | 0 => 4096
  | 1 => 16384
  | 2 => 65536
  | 3 => 616092
  | _ => 10616092

/-- The number of buckets needed in row `i`. -/
def bucketsOf (h : Cuckoo.Hasher) (i : Nat) : Nat := (h.optimal (noiseOf i)).toNat

/-- The numbers of buckets fit into an `int`. -/
def ModerateBuckets (h : Cuckoo.Hasher) : Prop := ∀ i ≤ 4, 0 ≤ h.optimal (noiseOf i) ∧ h.optimal (noiseOf i) < 2 ^ 31

/-- The row that is used for batches of size `b`: the first one whose output leaves room for them and for new seeds; the
    last one if there is none. -/
def rowFor (h : Cuckoo.Hasher) (b : Int) : Nat :=
  (List.range 4).findIdx (fun i => decide (b + bucketsOf h i + seedOf i ≤ outputOf i))

/-- What an expansion with `t` noise indices and output size `o` costs the sender: the masked noise values, and the
    oblivious transfers. -/
def senderFee (P : Price) (fl : Nat → Nat → Nat) (h : Cuckoo.Hasher) (t o : Nat) : Nat :=
  P.elem * (h.optimal t).toNat + P.ot * MPFSS.bucketOTs fl h t o

/-- What it costs the receiver: one sum per bucket, two keys, and the oblivious transfers. -/
def receiverFee (P : Price) (fl : Nat → Nat → Nat) (h : Cuckoo.Hasher) (t o : Nat) : Nat :=
  P.ot * MPFSS.bucketOTs fl h t o + P.block * 2 + P.elem * (h.optimal t).toNat

/-- The random seed, sent by the party with the lower id. -/
def seedFee (P : Price) (E : Env T) : Nat := if E.lower then P.byte * 32 else 0

/-- What the expansions made during a precomputation cost, and the seeds for the code generators. -/
def bootFee (P : Price) (E : Env T) (h : Cuckoo.Hasher) (fee : Nat → Nat → Nat) (b : Int) : Nat :=
  (∑ i ∈ Finset.range (rowFor h b), (seedFee P E + fee (noiseOf i) (seedOf (i + 1) + bucketsOf h (i + 1)))) + seedFee P E

/-- What a precomputation costs the sender. -/
def precomputeSenderFee [Scalar T] (P : Price) (E : Env T) (h : Cuckoo.Hasher) (b : Int) : Nat :=
  P.ot * Gilboa.productOTs T (seedOf 0 + bucketsOf h 0) + P.elem * (seedOf 0 + bucketsOf h 0) + bootFee P E h (senderFee P E.fl h) b

/-- What a precomputation costs the receiver. -/
def precomputeReceiverFee [Scalar T] (P : Price) (E : Env T) (h : Cuckoo.Hasher) (b : Int) : Nat :=
  P.ot * Gilboa.productOTs T (seedOf 0 + bucketsOf h 0) + bootFee P E h (receiverFee P E.fl h) b

/-- The batch size used after a precomputation with batch size `b`. -/
def batchFor (h : Cuckoo.Hasher) (b : Int) : Int :=
  min b (10616092 - bucketsOf h (rowFor h b) - seedOf (rowFor h b))

end VOLE
end DVO
