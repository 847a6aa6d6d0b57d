/-
Model of the remaining entry points that the unit tests use.
-/
import Verif.Model.SPFSS

namespace DVO.GGM

/-- `GGMTree::Create(arity, num_leaves, seed)` (ggm_tree.h:61-68). `rand i` is the output of RAND_bytes for key
    `i`. A vector of negative size throws. -/
def createArity (aes : Cipher) (fl : Nat → Nat → Nat) (arity numLeaves : Int) (seed : Block) (rand : Nat → Block) : Out Tree :=
  if arity < 0 then .throws "std::length_error" else
  create aes fl numLeaves seed ((List.range arity.toNat).map rand)

end DVO.GGM

namespace DVO.SPFSS
variable {T : Type} [Scalar T]

/-- `SPFSSKnownIndex::RunValueProvider(val_share, output)` (spfss_known_index.h:55-59). Returns the new contents of
    `output`. -/
def runValueProviderSpan (aes : Cipher) (fl : Nat → Nat → Nat) (c : Chans) (sec : Sec) (key seed : Nat → Block)
    (share : T) (output : List T) : PM (Msg T) (List T) := do
  let r ← runValueProviderBatched aes fl c sec key seed [share] [output]
  PM.lift (rd r 0)

/-- `SPFSSKnownIndex::RunIndexProvider(val_share, index, output)` (spfss_known_index.h:74-80). Returns the new
    contents of `output`. -/
def runIndexProviderSpan (aes : Cipher) (fl : Nat → Nat → Nat) (c : Chans) (share : T) (index : Int) (output : List T) :
    PM (Msg T) (List T) := do
  let r ← runIndexProviderBatched aes fl c [share] [index] [output]
  PM.lift (rd r 0)

end DVO.SPFSS
