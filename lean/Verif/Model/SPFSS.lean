/-
Model of distributed_vector_ole/spfss_known_index.h.
-/
import Verif.Model.ROT

namespace DVO.SPFSS
open ROT
variable {T : Type} [Scalar T]

/-- Inner loop of the value provider (spfss_known_index.h:120-123): accumulates the row into the
    sum and negates it. -/
def sumNegate (s : T) (row : List T) : Out (T × List T) :=
  loop (fun i (st : T × List T) => do
    let x ← rd st.2 i
    let row' ← wr st.2 i (-x)
    .ok (st.1 + x, row')) 0 row.length (s, row)

/-- Loop over the batch (spfss_known_index.h:118-125). -/
def sumNegateAll (shares : List T) (outputs : List (List T)) : Out (List T × List (List T)) :=
  loop (fun j (st : List T × List (List T)) => do
    let s ← rd st.1 j
    let row ← rd st.2 j
    let (s', row') ← sumNegate s row
    let sums ← wr st.1 j s'
    let outs ← wr st.2 j row'
    .ok (sums, outs)) 0 shares.length (shares, outputs)

/-- `SPFSSKnownIndex::RunValueProviderBatched` (spfss_known_index.h:103-130). -/
def runValueProviderBatched (aes : Cipher) (fl : Nat → Nat → Nat) (c : Chans) (sec : Sec)
    (key seed : Nat → Block) (shares : List T) (outputs : List (List T)) :
    PM (Msg T) (List (List T)) := do
  if shares.length ≠ outputs.length then
    PM.lift (.err .invalidArgument "`val-shares` and `outputs` must have the same size") else
  let outputs ← runSenderBatched aes fl c sec key seed outputs
  let (sums, outputs) ← PM.lift (sumNegateAll shares outputs)
  PM.send c.main (.elems sums)
  pure outputs

/-- Inner loop of the index provider (spfss_known_index.h:153-157). -/
def subOthers (s : T) (row : List T) (index : Int) : Out T :=
  loop (fun i s => if (i : Int) ≠ index then do
      let x ← rd row i
      .ok (s - x)
    else .ok s) 0 row.length s

/-- Loop over the batch (spfss_known_index.h:152-158). -/
def subOthersAll (shares : List T) (indices : List Int) (outputs : List (List T)) : Out (List T) :=
  loop (fun j sums => do
    let s ← rd sums j
    let row ← rd outputs j
    let idx ← rd indices j
    let s' ← subOthers s row idx
    wr sums j s') 0 shares.length shares

/-- Final loop of the index provider (spfss_known_index.h:161-166). -/
def fixIndices (sums sumsServer : List T) (indices : List Int) (outputs : List (List T)) :
    Out (List (List T)) :=
  loop (fun j outs => do
    let row ← rd outs j
    if row.length = 0 then .ok outs else
    let idx ← rd indices j
    let a ← rd sums j
    let b ← rd sumsServer j
    if idx < 0 then .ub "negative index" else
    let row' ← wr row idx.toNat (a + b)
    wr outs j row') 0 sums.length outputs

/-- `SPFSSKnownIndex::RunIndexProviderBatched` (spfss_known_index.h:132-168). -/
def runIndexProviderBatched (aes : Cipher) (fl : Nat → Nat → Nat) (c : Chans)
    (shares : List T) (indices : List Int) (outputs : List (List T)) :
    PM (Msg T) (List (List T)) := do
  if shares.length ≠ outputs.length ∨ shares.length ≠ indices.length then
    PM.lift (.err .invalidArgument "`val-shares`, `indices`, and `outputs` must have the same size") else
  let outputs ← runReceiverBatched aes fl c indices outputs
  let sums ← PM.lift (subOthersAll shares indices outputs)
  let m ← PM.recv c.main
  let sumsServer ← PM.lift (PM.unElems m)
  PM.lift (fixIndices sums sumsServer indices outputs)

/-- `SPFSSKnownIndex::RunValueProvider(val_share, size)` (spfss_known_index.h:60-66); a negative
    `size` makes the vector constructor throw. -/
def runValueProvider (aes : Cipher) (fl : Nat → Nat → Nat) (c : Chans) (sec : Sec)
    (key seed : Nat → Block) (share : T) (size : Int) : PM (Msg T) (List T) := do
  if size < 0 then PM.lift (.throws "std::length_error") else
  let r ← runValueProviderBatched aes fl c sec key seed [share] [List.replicate size.toNat 0]
  PM.lift (rd r 0)

/-- `SPFSSKnownIndex::RunIndexProvider(val_share, index, size)` (spfss_known_index.h:81-89). -/
def runIndexProvider (aes : Cipher) (fl : Nat → Nat → Nat) (c : Chans)
    (share : T) (index size : Int) : PM (Msg T) (List T) := do
  if size < 0 then PM.lift (.throws "std::length_error") else
  let r ← runIndexProviderBatched aes fl c [share] [index] [List.replicate size.toNat 0]
  PM.lift (rd r 0)

end DVO.SPFSS
