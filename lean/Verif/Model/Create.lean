/-
Model of the `Create` functions.
-/
import Verif.Model.VOLE

namespace DVO.Create

/-- The circumstances of a party: whether its id is the lower one (mpfss_known_indices.cpp:51), how the
    library's `comm_channel::sync` orders its two messages (both send first, or the lower id sends
    first), and the statuses returned by `CommChannelEMPAdapter::Create` (library) for the two
    adapters. Whatever the adapters exchange on connections of their own is not modelled. -/
structure Party where
  lower : Bool
  sendFirst : Bool
  rotAdapter : Out Unit
  gilboaAdapter : Out Unit

/-- `statistical_security < 0` (e.g. all_but_one_random_ot.cpp:46), for the factor `2^s`. All
    comparisons with NaN are false. -/
def negative (sec : Sec) : Bool :=
  match sec with
  | none => false
  | some f => decide (f < 1)

/-- A token arrives (`comm_channel::sync`, library; called in all_but_one_random_ot.cpp:51). -/
def unToken {T : Type} : Msg T → Out Unit
  | .token => .ok ()
  | .closed => .throws "connection closed"
  | _ => .ub "message of wrong type"

/-- `channel->sync()` (all_but_one_random_ot.cpp:51, mpfss_known_indices.cpp:45,
    scalar_vector_gilboa_product.cpp:41). -/
def sync {T : Type} (P : Party) (ch : Chans) : PM (Msg T) Unit :=
  if P.sendFirst || P.lower then do
    PM.send ch.main .token
    let m ← PM.recv ch.main
    PM.lift (unToken m)
  else do
    let m ← PM.recv ch.main
    PM.lift (unToken m)
    PM.send ch.main .token

/-- `AllButOneRandomOT::Create` (all_but_one_random_ot.cpp:40-56). A null channel is `none`. The object
    is represented by its statistical security. -/
def rotCreate {T : Type} (P : Party) (channel : Option Chans) (sec : Sec) : PM (Msg T) Sec :=
  match channel with
  | none => PM.lift (.err .invalidArgument "`channel` must not be NULL")
  | some ch =>
    if negative sec then PM.lift (.err .invalidArgument "`statistical_security` must not be negative.") else do
    sync P ch
    PM.lift P.rotAdapter
    pure sec

/-- `SPFSSKnownIndex::Create` (spfss_known_index.cpp:26-40). -/
def spfssCreate {T : Type} (P : Party) (channel : Option Chans) (sec : Sec) : PM (Msg T) Sec :=
  match channel with
  | none => PM.lift (.err .invalidArgument "`channel` must not be NULL")
  | some ch =>
    if negative sec then PM.lift (.err .invalidArgument "`statistical_security` must not be negative.") else
    rotCreate P (some ch) sec

/-- `ScalarVectorGilboaProduct::Create` (scalar_vector_gilboa_product.cpp:30-46). -/
def gilboaCreate {T : Type} (P : Party) (channel : Option Chans) (sec : Sec) : PM (Msg T) Sec :=
  match channel with
  | none => PM.lift (.err .invalidArgument "`channel` must not be NULL")
  | some ch =>
    if negative sec then PM.lift (.err .invalidArgument "`statistical_security` must not be negative.") else do
    sync P ch
    PM.lift P.gilboaAdapter
    pure sec

/-- `MPFSSKnownIndices::kNumHashFunctions` (mpfss_known_indices.h:117). -/
def numHashFunctions : Int := 3

/-- Receive one block (boost deserialisation into `absl::uint128`, mpfss_known_indices.cpp:56). -/
def unBlock {T : Type} : Msg T → Out Block
  | .blocks [b] => .ok b
  | .closed => .throws "connection closed"
  | _ => .ub "message of wrong type"

/-- The exchange of the seed of the hasher (mpfss_known_indices.cpp:50-57). `seed` is the random value
    drawn if the own id is the lower one. -/
def hasherSeed {T : Type} (P : Party) (ch : Chans) (seed : Block) : PM (Msg T) Block :=
  if P.lower then do
    PM.send ch.main (.blocks [seed])
    pure seed
  else do
    let m ← PM.recv ch.main
    PM.lift (unBlock m)

/-- The fields of an `MPFSSKnownIndices` that `Create` fills in: the hasher and the statistical security
    of the SPFSS object (mpfss_known_indices.h:111-117). -/
structure Mpfss where
  hasher : Cuckoo.Hasher
  spfss : Sec

/-- `MPFSSKnownIndices::Create` (mpfss_known_indices.cpp:30-66). `bits` and `optimal` are the
    floating-point formulas of the hasher for the given statistical security (see `Cuckoo.Hasher`).
    Adding 1 to `s` doubles `2^s`. -/
def mpfssCreate {T : Type} (aes : Cipher) (bits : Sec → Nat → Nat → Nat → Bool) (optimal : Sec → Nat → Nat → Int) (P : Party)
    (seed : Block) (channel : Option Chans) (sec : Sec) : PM (Msg T) Mpfss :=
  match channel with
  | none => PM.lift (.err .invalidArgument "`channel` must not be NULL")
  | some ch =>
    if negative sec then PM.lift (.err .invalidArgument "`statistical_security` must not be negative.") else do
    let sec := sec.map (· * 2)
    sync P ch
    let spfss ← spfssCreate P (some ch) sec
    let s ← hasherSeed P ch seed
    let h ← PM.lift (Cuckoo.create aes (bits sec) (optimal sec) s numHashFunctions)
    pure ⟨h, spfss⟩

/-- The fields of a `DistributedVectorOLE` that `Create` fills in (distributed_vector_ole.h:131-182);
    the others are as in `VState.new`. -/
structure Vole where
  mpfss : Mpfss
  gilboa : Sec
  sec : Sec

/-- `DistributedVectorOLE::Create` (distributed_vector_ole.h:203-235). Adding `log2(3)` to `s` triples
    `2^s`; the rounding of `log2(3)` is ignored. For the NTL context see C48 and C66. -/
def voleCreate {T : Type} (aes : Cipher) (bits : Sec → Nat → Nat → Nat → Bool) (optimal : Sec → Nat → Nat → Int) (P : Party)
    (seed : Block) (channel : Option Chans) (sec : Sec) : PM (Msg T) Vole :=
  match channel with
  | none => PM.lift (.err .invalidArgument "`channel` must not be NULL")
  | some ch =>
    if negative sec then PM.lift (.err .invalidArgument "`statistical_security` must not be negative.") else do
    let sec := sec.map (· * 3)
    let g ← gilboaCreate P (some ch) sec
    let m ← mpfssCreate aes bits optimal P seed (some ch) sec
    pure ⟨m, g, sec⟩

end DVO.Create
