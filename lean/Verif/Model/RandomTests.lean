/-
Model of the unit tests whose result depends on what random numbers look like: those of the random generator, and
that of the overflow of a cuckoo hash table. The result is whether the checks hold.
-/
import Verif.Model.VOLE
import Verif.Model.Cuckoo
import Mathlib.Algebra.Order.Ring.Rat
import Mathlib.Algebra.Order.Group.Unbundled.Abs

namespace DVO.RandomTests
open VOLE (word)

/-- `kDefaultBufferSize` (aes_uniform_bit_generator.h:28). -/
def defaultSize : Int := 2 ^ 20 / 8

/-- `NotObviouslyBroken` (aes_uniform_bit_generator_test.cpp:14-19), for a seed. -/
def notObviouslyBroken (aes : Cipher) (junk : RNG.Gen) (seed : List (BitVec 8)) : Out Bool := do
  let g ← RNG.create junk seed defaultSize
  let (a, g) ← word aes g
  let (b, _) ← word aes g
  .ok (decide (a ≠ b ∧ a ≠ 0 ∧ b ≠ 0))

/-- `AllBitsGetSampled` (aes_uniform_bit_generator_test.cpp:23, 27-33), for a seed. -/
def allBitsGetSampled (aes : Cipher) (junk : RNG.Gen) (seed : List (BitVec 8)) : Out Bool := do
  let g ← RNG.create junk seed defaultSize
  let (rand, _) ← loop (fun _ (s : BitVec 64 × RNG.Gen) => do
    let (w, g) ← word aes s.2
    .ok (s.1 ||| w, g)) 0 80 (0, g)
  .ok (decide (rand = 0xFFFFFFFFFFFFFFFF))

/-- `double` arithmetic as `UniformReals` uses it (aes_uniform_bit_generator_test.cpp:43-46): `real w` is what
    `std::uniform_real_distribution` makes of one word, `add` is addition. Values of `double` are rational. -/
structure Doubles where
  real : BitVec 64 → ℚ
  add : ℚ → ℚ → ℚ

/-- `UniformReals` (aes_uniform_bit_generator_test.cpp:37-38, 41-47), for a seed. The division by 2^24 and the
    subtraction of 0.5 in the check are taken as exact (the first is; the second is where the quotient is between
    1/4 and 1), and 0.01 as the number. -/
def uniformReals (F : Doubles) (aes : Cipher) (junk : RNG.Gen) (seed : List (BitVec 8)) : Out Bool := do
  let g ← RNG.create junk seed defaultSize
  let (rand, _) ← loop (fun _ (s : ℚ × RNG.Gen) => do
    let (w, g) ← word aes s.2
    .ok (F.add s.1 (F.real w), g)) 0 (2 ^ 24) (0, g)
  .ok (decide (|rand / 2 ^ 24 - 1 / 2| ≤ 1 / 100))

/-- `GenerateInputs` (cuckoo_hasher_test.cpp:30-35), converted to `absl::uint128`. -/
def generateInputs (n : Nat) : List Block := (List.range n).map fun i => BitVec.ofNat 128 (123 + i)

/-- `TestCuckooHashingOverflow` (cuckoo_hasher_test.cpp:167-176). -/
def cuckooOverflow (aes : Cipher) (tooManyBits : Nat → Nat → Nat → Bool) (optimal : Nat → Nat → Int) : Out Bool := do
  let hasher ← Cuckoo.create aes tooManyBits optimal (BitVec.ofInt 128 (-1234)) 2
  let numElements := 2 ^ 20
  match Cuckoo.hashCuckoo hasher (generateInputs numElements) numElements with
  | .err _ message => .ok (message == "Failed to insert element, maximum number of tries exhausted")
  | .ok _ => .ok false
  | .throws m => .throws m
  | .ub w => .ub w
  | .diverge => .diverge

end DVO.RandomTests
