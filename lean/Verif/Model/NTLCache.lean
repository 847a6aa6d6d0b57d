/-
Model of internal/ntl_helpers.cpp: thread-local caches.
-/
import Verif.Model.ScalarTypes

namespace DVO.NTL

/-- Thread-local state: the modulus NTL has installed in this thread, `cached_modulus` and
    `cached_num_bits` (internal/ntl_helpers.cpp:28-29) and `temp` (line 41). -/
structure Thread where
  modulus : Nat
  cachedModulus : Option Nat := none
  cachedNumBits : Option Nat := none
  temp : Option Nat := none

/-- `NTLNumBitsCached<NTL::ZZ_p>` (internal/ntl_helpers.cpp:26-36). `*cached_num_bits` on an empty
    optional is undefined. -/
def numBitsCached (t : Thread) : Out (Nat × Thread) := do
  let t := if t.cachedNumBits.isNone ∨ t.cachedModulus.isNone ∨ some t.modulus ≠ t.cachedModulus then
      { t with cachedNumBits := some (numBits (t.modulus - 1)), cachedModulus := some t.modulus }
    else t
  match t.cachedNumBits with
  | none => .ub "empty optional"
  | some b => .ok (b, t)

/-- `ScalarHelper<NTL::ZZ_p>::SizeOf` (internal/scalar_helpers.h:183). -/
def sizeOfCached (t : Thread) : Out (Nat × Thread) := do
  let (b, t) ← numBitsCached t
  .ok ((b + 7) / 8, t)

/-- `ScalarHelperImpl<NTL::ZZ_p>::FromUint128` (internal/scalar_helpers.h:113-121) through the
    thread-local temporary of `NTLTemp` (internal/ntl_helpers.cpp:39-46). The result is the residue
    in `0..modulus-1`. -/
def fromUint128 (b : Block) (t : Thread) : Nat × Thread :=
  -- `*temp = 0; conv(*temp, high)`: both assign, so the previous value is not read
  let temp := (b.extractLsb' 64 64).toNat
  let temp := temp <<< 64
  let temp := temp ||| (b.extractLsb' 0 64).toNat
  (temp % t.modulus, { t with temp := some temp })

/-- What user code can do in a thread: install a modulus (`NTL::ZZ_p::init`, or restoring a
    context), or call one of the two helpers. The helpers are in internal/ntl_helpers.cpp:26-46. -/
inductive Op
  | setModulus (p : Nat)
  | callSizeOf
  | callFrom (b : Block)

/-- Result of an operation. (internal/ntl_helpers.cpp:26-46.) -/
inductive Res
  | none
  | size (n : Nat)
  | elem (v : Nat)
deriving DecidableEq, Repr

/-- One operation in one thread (internal/ntl_helpers.cpp:26-46). -/
def step (t : Thread) : Op → Out (Res × Thread)
  | .setModulus p => .ok (.none, { t with modulus := p })
  | .callSizeOf => do
    let (b, t) ← sizeOfCached t
    .ok (.size b, t)
  | .callFrom b =>
    let (v, t) := fromUint128 b t
    .ok (.elem v, t)

/-- A history of operations in arbitrary threads; all state is `thread_local`
    (internal/ntl_helpers.cpp:28-29, 41). -/
def run : (Nat → Thread) → List (Nat × Op) → Out (List Res)
  | _, [] => .ok []
  | ts, (i, op) :: rest => do
    let (r, t) ← step (ts i) op
    let rs ← run (fun j => if j = i then t else ts j) rest
    .ok (r :: rs)

end DVO.NTL
