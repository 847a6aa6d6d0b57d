/-
Model of distributed_vector_ole/scalar_vector_gilboa_product.h and internal/gilboa_internal.h.
-/
import Verif.Net
import Verif.Model.Scalar
import Verif.Model.ROT
import Verif.Model.MPFSS

namespace DVO.Gilboa
open MPFSS (toInt32)
open ROT (secPerLeaf)
variable {T : Type} [Scalar T]

/-- `ScalarHelper<T>::SizeOf() * 8`, e.g. scalar_vector_gilboa_product.h:133. -/
def bitWidth (T : Type) [Scalar T] : Nat := Scalar.sizeOf T * 8

/-- `16 / ScalarHelper<T>::SizeOf()`, e.g. scalar_vector_gilboa_product.h:134. The callers have
    excluded division by zero. -/
def stride (T : Type) [Scalar T] : Nat := 16 / Scalar.sizeOf T

/-- `emp::makeBlock(high, low)` of the two halves of a `uint128` (gilboa_internal.h:60-62). Lane 0 of
    an `emp::block` is the low half. -/
def makeBlock (packed : Block) : Block :=
  let low : BitVec 64 := packed.extractLsb' 0 64
  let high : BitVec 64 := packed.extractLsb' 64 64
  high ++ low

/-- `absl::MakeUint128(b[1], b[0])` (gilboa_internal.h:70). -/
def unmakeBlock (b : Block) : Block :=
  ((b.extractLsb' 64 64).setWidth 128 <<< 64) ||| (b.extractLsb' 0 64).setWidth 128

/-- `GetBits` (gilboa_internal.h:36-43). -/
def getBits (x : T) : Out (List Bool) :=
  loop (fun i out => wr out i (Scalar.getBit x i)) 0 (bitWidth T) (List.replicate (bitWidth T) false)

/-- `SpanToEMPBlock` (gilboa_internal.h:48-63). Shifting an `absl::uint128` by 128 or more is
    undefined. The loop counts down; step `k` handles `i = v.size() - 1 - k`. -/
def spanToBlock (v : List T) (multiplier : T) : Out Block := do
  let packed ← loop (fun k packed => do
    let i := v.length - 1 - k
    let x ← rd v i
    let packed := packed ||| Scalar.toU128 (x * multiplier)
    if i > 0 then
      if bitWidth T ≥ 128 then .ub "shift" else .ok (packed <<< bitWidth T)
    else .ok packed) 0 v.length (0 : Block)
  .ok (makeBlock packed)

/-- `EMPBlockToSpan` (gilboa_internal.h:65-82), with the assertion of line 69 and the division by
    zero of line 68. -/
def blockToSpan (b : Block) (out : List T) : Out (List T) :=
  if Scalar.sizeOf T = 0 then .ub "division by zero" else
  if stride T ≠ out.length then .ub "assert" else
  loop (fun i out =>
    let current := unmakeBlock b >>> (i * bitWidth T)
    let current := if bitWidth T < 128 then current % ((1 : Block) <<< bitWidth T) else current
    wr out i (Scalar.ofU128 current)) 0 (stride T) out

/-- `EMPBlockToVector` (gilboa_internal.h:84-91). -/
def blockToVector (T : Type) [Scalar T] (b : Block) : Out (List T) :=
  if Scalar.sizeOf T = 0 then .ub "division by zero" else
  blockToSpan b (List.replicate (stride T) 0)

/-- The second message of the OT: the sum of the unpacked `delta` and the unpacked first message,
    packed again (the `correlator`, gilboa_internal.h:104-111, and lines 136-141). The buffers `d`,
    `m`, `res` are reused in the code; every call overwrites all their entries. -/
def correlate (T : Type) [Scalar T] (delta m0 : Block) : Out Block := do
  let d : List T ← blockToSpan delta (List.replicate (stride T) 0)
  let m : List T ← blockToSpan m0 (List.replicate (stride T) 0)
  let res ← loop (fun i res => do
    let a ← rd d i
    let b ← rd m i
    wr res i (a + b)) 0 d.length (List.replicate (stride T) 0)
  spanToBlock res 1

/-- The OT messages of `RunOTSenderCorrelated` (gilboa_internal.h:94-114). `send_cot_ft` chooses the
    first message of each pair (here: `m0`) and derives the second one with the correlator. -/
def correlatedMessages (T : Type) [Scalar T] (m0 : Nat → Block) (deltas : List Block) : Out (List (Block × Block)) :=
  loop (fun i ms => do
    let delta ← rd deltas i
    let m1 ← correlate T delta (m0 i)
    .ok (ms ++ [(m0 i, m1)])) 0 deltas.length []

/-- The OT messages of `RunOTSender1of2` (gilboa_internal.h:118-147). `rnd i` is the output of the
    `i`-th call of `Randomize`. The loop counter is an `int`. -/
def chosenMessages (rnd : Nat → List T) (deltas : List Block) : Out (List (Block × Block)) :=
  loop (fun i ms => do
    let o0 ← spanToBlock ((rnd i).take (stride T)) 1
    let delta ← rd deltas i
    let o1 ← correlate T delta o0
    wr ms i (o0, o1)) 0 (toInt32 deltas.length).toNat (List.replicate deltas.length (0, 0))

/-- `UseCorrelatedOT` (scalar_vector_gilboa_product.h:83-92). -/
def useCorrelated (T : Type) [Scalar T] (sec : Sec) (size : Int) : Bool :=
  Scalar.canHash T (secPerLeaf sec size) (bitWidth T)

/-- The deltas (scalar_vector_gilboa_product.h:136-154), for `cnt` groups of elements. Step `b` of the
    outer loop handles `i = b * stride`. `subspan` stops at the end of `y`. -/
def makeDeltas (y : List T) (cnt : Nat) : Out (List Block) := do
  let powers : List T ← loop (fun i p => wr p i (Scalar.setBit i)) 0 (bitWidth T) (List.replicate (bitWidth T) 0)
  loop (fun b deltas =>
    let i := b * stride T
    let data := (y.drop i).take (stride T)
    loop (fun j deltas => do
      let p ← rd powers j
      let x ← spanToBlock data p
      wr deltas ((i / stride T) * bitWidth T + j) x) 0 (bitWidth T) deltas) 0 cnt
    (List.replicate (bitWidth T * cnt) 0)

/-- The choice bits (scalar_vector_gilboa_product.h:188-194). -/
def makeChoices (x : T) (cnt : Nat) (n : Nat) : Out (List Bool) := do
  let xBits ← getBits x
  loop (fun b choices =>
    loop (fun j choices => do
      let c ← rd xBits j
      wr choices ((b * stride T / stride T) * bitWidth T + j) c) 0 (bitWidth T) choices) 0 cnt
    (List.replicate n false)

/-- The final loops of both roles (scalar_vector_gilboa_product.h:160-169 with `op = -`, 199-208 with
    `op = +`), for `cnt` groups of elements of which `yLen` exist in total. -/
def accumulate (op : T → T → T) (ot : List Block) (yLen cnt : Nat) (output : List T) : Out (List T) :=
  loop (fun b output =>
    let i := b * stride T
    loop (fun j output => do
      let blk ← rd ot ((i / stride T) * bitWidth T + j)
      let data : List T ← blockToSpan blk (List.replicate (stride T) 0)
      loop (fun k output => do
        let o ← rd output (i + k)
        let d ← rd data k
        wr output (i + k) (op o d)) 0 (min (stride T) (yLen - i)) output) 0 (bitWidth T) output) 0 cnt output

/-- `RunOTSender` (scalar_vector_gilboa_product.h:94-102). -/
def otMessages (sec : Sec) (m0 : Nat → Block) (rnd : Nat → List T) (deltas : List Block) (size : Int) :
    Out (List (Block × Block)) :=
  if useCorrelated T sec size then correlatedMessages T m0 deltas else chosenMessages rnd deltas

/-- Which OT is run (scalar_vector_gilboa_product.h:97, 108). -/
def otKind (T : Type) [Scalar T] (sec : Sec) (size : Int) : OTKind := if useCorrelated T sec size then .cot else .ot

/-- `ScalarVectorGilboaProduct::RunVectorProvider` (scalar_vector_gilboa_product.h:121-172). Returns
    the new contents of `output`. `m0`: randomness of the correlated OT, `rnd`: of `Randomize`. -/
def runVectorProvider (c : Chans) (sec : Sec) (m0 : Nat → Block) (rnd : Nat → List T) (y output : List T) :
    PM (Msg T) (List T) := do
  if y.length ≠ output.length then
    PM.lift (.err .invalidArgument "`y` and `output` must have the same size") else
  if Scalar.sizeOf T > 16 then
    PM.lift (.err .invalidArgument "Integers may be at most 16 bytes long") else
  if Scalar.sizeOf T = 0 then PM.lift (.ub "division by zero") else
  let cnt := (y.length + stride T - 1) / stride T
  let deltas ← PM.lift (makeDeltas y cnt)
  let ms ← PM.lift (otMessages sec m0 rnd deltas y.length)
  PM.otSend c.gilboa (otKind T sec y.length) ms
  PM.lift (accumulate (· - ·) (ms.map Prod.fst) y.length cnt (List.replicate output.length 0))

/-- The number of OTs as computed by the value provider (scalar_vector_gilboa_product.h:176-187), in
    `int`s: `y_len` is the size of `output` converted to `int`; overflow is undefined. -/
def numOTs (T : Type) [Scalar T] (yLen : Int) : Out Int :=
  if yLen + stride T > 2 ^ 31 - 1 then .ub "signed overflow" else
  let n := bitWidth T * ((yLen + stride T - 1).tdiv (stride T))
  if n > 2 ^ 31 - 1 ∨ n < - 2 ^ 31 then .ub "signed overflow" else .ok n

/-- `ScalarVectorGilboaProduct::RunValueProvider` (scalar_vector_gilboa_product.h:174-212). Returns
    the new contents of `output`. A container of negative size throws. -/
def runValueProvider (c : Chans) (sec : Sec) (x : T) (output : List T) : PM (Msg T) (List T) := do
  let yLen := toInt32 output.length
  if Scalar.sizeOf T > 16 then
    PM.lift (.err .invalidArgument "Integers may be at most 16 bytes long") else
  if Scalar.sizeOf T = 0 then PM.lift (.ub "division by zero") else
  let n ← PM.lift (numOTs T yLen)
  if n < 0 then PM.lift (.throws "std::length_error") else
  let cnt := (yLen.toNat + stride T - 1) / stride T
  let choices ← PM.lift (makeChoices x cnt n.toNat)
  let ot ← PM.otRecv c.gilboa (otKind T sec yLen) choices
  PM.lift (accumulate (· + ·) ot yLen.toNat cnt (List.replicate output.length 0))

/-- `RunVectorProvider` returning a vector (scalar_vector_gilboa_product.h:54-59). -/
def runVectorProvider' (c : Chans) (sec : Sec) (m0 : Nat → Block) (rnd : Nat → List T) (y : List T) :
    PM (Msg T) (List T) :=
  runVectorProvider c sec m0 rnd y (List.replicate y.length 0)

/-- `RunValueProvider` returning a vector (scalar_vector_gilboa_product.h:68-76). -/
def runValueProvider' (c : Chans) (sec : Sec) (x : T) (yLen : Int) : PM (Msg T) (List T) :=
  if yLen < 0 then PM.lift (.err .invalidArgument "`y_len` must not be negative") else
  runValueProvider c sec x (List.replicate yLen.toNat 0)

end DVO.Gilboa
