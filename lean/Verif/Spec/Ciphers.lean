/-
Random functions and permutations in place of AES.
-/
import Verif.Model.GGM
import Mathlib.SetTheory.Cardinal.Finite
import Mathlib.Data.Rat.Defs
import Mathlib.Logic.Equiv.Defs

namespace DVO

/-- The fraction of all functions from blocks to blocks that have property `P`. -/
noncomputable def overCiphers (P : (Block → Block) → Prop) : ℚ := (Nat.card {enc // P enc} : ℚ) / Nat.card (Block → Block)

/-- The fraction of all permutations of the blocks that have property `P`. -/
noncomputable def overPermutations (P : (Block → Block) → Prop) : ℚ := (Nat.card {e : Equiv.Perm Block // P e} : ℚ) / Nat.card (Equiv.Perm Block)

/-- Property `P` holds for more than `2^-36` of the functions, and for more than `2^-36` of the permutations. -/
def Often (P : (Block → Block) → Prop) : Prop := 1 / 2 ^ 36 < overCiphers P ∧ 1 / 2 ^ 36 < overPermutations P

end DVO
