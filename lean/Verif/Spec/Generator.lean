/-
Code generators (C59).
-/
import Verif.Model.VOLE

namespace DVO.VOLE
variable {T : Type}

/-- A generator obtained from a seed, as in distributed_vector_ole.h:377-415. -/
def FromSeed [Scalar T] (E : Env T) (c : Sparse T) : Prop :=
  ∃ (junk : RNG.Gen) (seed : List (BitVec 8)) (g : RNG.Gen) (rows : Int) (cols : Nat),
    RNG.create junk seed (10 * cols) = .ok g ∧ sampleCode E.lib E.aes rows cols g = .ok c

/-- The number of elements that are not zero. -/
noncomputable def weight [Scalar T] (l : List T) : Nat := by
  classical exact l.countP (fun x => x ≠ 0)

end DVO.VOLE
