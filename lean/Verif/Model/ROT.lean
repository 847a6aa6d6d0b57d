/-
Model of distributed_vector_ole/all_but_one_random_ot.{h,cpp}.
-/
import Verif.Net
import Verif.Model.Scalar

namespace DVO.ROT
open GGM

/-- `GGMTreeToEMPBlock` (internal/all_but_one_random_ot_internal.h:58-63). An `emp::block` is a
    128-bit register whose lane 0 is the low half. -/
def ggmToEmp (x : Block) : Block :=
  let lane0 : BitVec 64 := x.extractLsb' 0 64
  let lane1 : BitVec 64 := x.extractLsb' 64 64
  lane1 ++ lane0

/-- `EMPToGGMTreeBlock` (internal/all_but_one_random_ot_internal.h:53-56). -/
def empToGgm (b : Block) : Block :=
  let lane0 : BitVec 64 := b.extractLsb' 0 64
  let lane1 : BitVec 64 := b.extractLsb' 64 64
  (lane1.setWidth 128 <<< 64) ||| lane0.setWidth 128

/-- `std::accumulate(num_leaves.begin(), num_leaves.end(), 0)` (all_but_one_random_ot.h:159-160):
    the accumulator is an `int`, so every partial sum is reduced to 32 bits. -/
def accumulateInt (l : List Nat) : Int :=
  l.foldl (fun (a : Int) (n : Nat) => (BitVec.ofInt 32 (a + (n : Int))).toInt) 0

/-- `log2(double(total)) + statistical_security_` (all_but_one_random_ot.h:163-164), as a factor.
    The logarithm of a negative number is NaN. -/
def secPerLeaf (sec : Sec) (total : Int) : Sec :=
  if total < 0 then none else sec.map (fun f => f * total)

/-- `UnpackLastLevel` (internal/all_but_one_random_ot_internal.h:43-50). `ValueOrDie` on an error
    aborts, modelled as `ub`. -/
def unpackLastLevel {T : Type} [Scalar T] (t : Tree) (output : List T) : Out (List T) :=
  loop (fun i out =>
    match t.getValueAtLeaf i with
    | .ok leaf => wr out i (Scalar.ofU128 leaf)
    | _ => .ub "ValueOrDie on an error") 0 t.numLeaves output

/-- The loop creating the trees (all_but_one_random_ot.h:181-191); entries of size 0 give no tree.
    `seed i` is the output of RAND_bytes for tree `i`. Iterations are independent (see C51). -/
def createTrees (aes : Cipher) (fl : Nat → Nat → Nat) (keys : List Block) (seed : Nat → Block)
    (numLeaves : List Nat) : List (Option (Out Tree)) :=
  numLeaves.mapIdx (fun i (n : Nat) => if n = 0 then none else some (create aes fl (n : Int) (seed i) keys))

/-- The loop collecting the OT messages (all_but_one_random_ot.h:196-217): returns the trees and
    the pairs `(opt0[k], opt1[k])`. The arrays `opt0`, `opt1` grow by `num_levels - 1` entries per
    tree and exactly these are written, so they are modelled as lists that are appended to. -/
def collectOT : List (Option (Out Tree)) → Out (List (Option Tree) × List (Block × Block))
  | [] => .ok ([], [])
  | none :: rest => do
    let r ← collectOT rest
    .ok (none :: r.1, r.2)
  | some st :: rest => do
    let t ← st
    let xors ← t.getSiblingWiseXOR
    let ms ← loop (fun j (ms : List (Block × Block)) => do
        let x0 ← rd2 xors j 0
        let x1 ← rd2 xors j 1
        .ok (ms ++ [(ggmToEmp x0, ggmToEmp x1)])) 0 (t.numLevels - 1) []
    let r ← collectOT rest
    .ok (some t :: r.1, ms ++ r.2)

/-- `AllButOneRandomOT::SendTrees<T>` with `arity = 2` (all_but_one_random_ot.h:155-226; the only
    caller passes 2). `key`, `seed`: output of RAND_bytes. -/
def sendTrees (T : Type) [Scalar T] (aes : Cipher) (fl : Nat → Nat → Nat) (c : Chans) (sec : Sec)
    (key seed : Nat → Block) (numLeaves : List Nat) : PM (Msg T) (List (Option Tree)) := do
  if !(Scalar.canHash T (secPerLeaf sec (accumulateInt numLeaves)) 128) then
    PM.lift (.err .invalidArgument "Cannot ensure statistical security with the given modulus") else
  let keys := (List.range 2).map key
  let (trees, ms) ← PM.lift (collectOT (createTrees aes fl keys seed numLeaves))
  if ms.length > 0 then PM.otSend c.rot .ot ms else pure ()
  PM.send c.rot (.blocks keys)
  pure trees

/-- Choice bits for one tree with `k + 1` levels (all_but_one_random_ot.cpp:84-88):
    `choices[offset + num_levels - 2 - j] = (~index_bits >> j) & 1`. Shifting a 64-bit value by 64
    or more is undefined. -/
def choiceBits (k : Nat) (index : Int) : Out (List Bool) :=
  let indexBits : BitVec 64 := BitVec.ofInt 64 index
  loop (fun j cs => if j ≥ 64 then .ub "shift" else
    wr cs (k - 1 - j) (((~~~indexBits) >>> j).getLsbD 0)) 0 k (List.replicate k false)

/-- All choice bits and the offsets of the trees (all_but_one_random_ot.cpp:71-91). -/
def allChoices (fl : Nat → Nat → Nat) : (numLeaves : List Nat) → (indices : List Int) → (offset : Nat) →
    Out (List Bool × List Nat)
  | [], _, off => .ok ([], [off])
  | _ :: _, [], _ => .ub "indices out of bounds"
  | n :: ns, i :: is, off =>
    if n = 0 then do
      let r ← allChoices fl ns is off
      .ok (r.1, off :: r.2)
    else do
      let cs ← choiceBits (fl n 2) i
      let r ← allChoices fl ns is (off + fl n 2)
      .ok (cs ++ r.1, off :: r.2)

/-- XOR table handed to CreateFromSiblingWiseXOR for one tree (all_but_one_random_ot.cpp:112-122). -/
def xorTable (choices : List Bool) (otResults : List Block) (off k : Nat) : Out (List (List Block)) :=
  loop (fun j xors => do
    let c ← rd choices (off + j)
    let r ← rd otResults (off + j)
    wr2 xors j (if c then 1 else 0) (empToGgm r)) 0 k (List.replicate k (List.replicate 2 0))

/-- The loop creating the punctured trees (all_but_one_random_ot.cpp:105-130). A failing
    CreateFromSiblingWiseXOR only sets `status`; the remaining trees are still built. Undefined
    behaviour and exceptions propagate. -/
def buildTrees (aes : Cipher) (fl : Nat → Nat → Nat) (keys : List Block) (choices : List Bool)
    (otResults : List Block) (offsets : List Nat) (numLeaves : List Nat) (indices : List Int) :
    Out (List (Option Tree) × Option (Code × String)) :=
  loop (fun i (st : List (Option Tree) × Option (Code × String)) => do
    let n ← rd numLeaves i
    if n = 0 then .ok (st.1 ++ [none], st.2) else
    let o0 ← rd offsets i
    let o1 ← rd offsets (i + 1)
    let xors ← xorTable choices otResults o0 (o1 - o0)
    let idx ← rd indices i
    match createFromXor aes fl 2 n idx xors keys with
    | .ok t => .ok (st.1 ++ [some t], st.2)
    | .err c m => .ok (st.1 ++ [none], some (c, m))
    | .throws m => .throws m
    | .ub w => .ub w
    | .diverge => .diverge) 0 numLeaves.length ([], none)

/-- `AllButOneRandomOT::ReceiveTrees` with `arity = 2` (all_but_one_random_ot.cpp:58-131). -/
def receiveTrees (T : Type) (aes : Cipher) (fl : Nat → Nat → Nat) (c : Chans)
    (numLeaves : List Nat) (indices : List Int) : PM (Msg T) (List (Option Tree)) := do
  if numLeaves.length ≠ indices.length then
    PM.lift (.err .invalidArgument "`num_leaves` and `indices` must have the same size") else
  let (choices, offsets) ← PM.lift (allChoices fl numLeaves indices 0)
  let otResults ← if choices.length > 0 then PM.otRecv c.rot .ot choices else pure []
  let m ← PM.recv c.rot
  let keys ← PM.lift (PM.unBlocks m)
  let (trees, status) ← PM.lift (buildTrees aes fl keys choices otResults offsets numLeaves indices)
  match status with
  | none => pure trees
  | some (cd, ms) => PM.lift (.err cd ms)

/-- The unpacking loops (all_but_one_random_ot.h:77-86 and 114-123). -/
def unpackAll {T : Type} [Scalar T] (trees : List (Option Tree)) (outputs : List (List T)) :
    Out (List (List T)) :=
  loop (fun i outs => do
    let o ← rd outs i
    if o.length = 0 then .ok outs else
    match ← rd trees i with
    | none => .ub "null pointer"
    | some t => do
      let o' ← unpackLastLevel t o
      wr outs i o') 0 outputs.length outputs

/-- `AllButOneRandomOT::RunSenderBatched` (all_but_one_random_ot.h:68-89). Returns the new contents
    of `outputs`. -/
def runSenderBatched {T : Type} [Scalar T] (aes : Cipher) (fl : Nat → Nat → Nat) (c : Chans)
    (sec : Sec) (key seed : Nat → Block) (outputs : List (List T)) : PM (Msg T) (List (List T)) := do
  let trees ← sendTrees T aes fl c sec key seed (outputs.map List.length)
  PM.lift (unpackAll trees outputs)

/-- The index check of `RunReceiverBatched` (all_but_one_random_ot.h:97-104). -/
def indicesOk (sizes : List Nat) (indices : List Int) : Bool :=
  (List.zip sizes indices).all (fun (n, i) => !(i < 0 || (i ≥ (n : Int) && n != 0)))

/-- `AllButOneRandomOT::RunReceiverBatched` (all_but_one_random_ot.h:91-126). -/
def runReceiverBatched {T : Type} [Scalar T] (aes : Cipher) (fl : Nat → Nat → Nat) (c : Chans)
    (indices : List Int) (outputs : List (List T)) : PM (Msg T) (List (List T)) := do
  if outputs.length ≠ indices.length then
    PM.lift (.err .invalidArgument "`indices` and `outputs` must have the same size") else
  if !indicesOk (outputs.map List.length) indices then
    PM.lift (.err .invalidArgument "`indices[i]` out of range") else
  let trees ← receiveTrees T aes fl c (outputs.map List.length) indices
  PM.lift (unpackAll trees outputs)

/-- `AllButOneRandomOT::RunSender` (all_but_one_random_ot.h:50-53). -/
def runSender {T : Type} [Scalar T] (aes : Cipher) (fl : Nat → Nat → Nat) (c : Chans)
    (sec : Sec) (key seed : Nat → Block) (output : List T) : PM (Msg T) (List T) := do
  let r ← runSenderBatched aes fl c sec key seed [output]
  PM.lift (rd r 0)

/-- `AllButOneRandomOT::RunReceiver` (all_but_one_random_ot.h:58-66). -/
def runReceiver {T : Type} [Scalar T] (aes : Cipher) (fl : Nat → Nat → Nat) (c : Chans)
    (index : Int) (output : List T) : PM (Msg T) (List T) := do
  if index < 0 ∨ (index ≥ (output.length : Int) ∧ output.length ≠ 0) then
    PM.lift (.err .invalidArgument "`index` out of range") else
  let r ← runReceiverBatched aes fl c [index] [output]
  PM.lift (rd r 0)

end DVO.ROT
