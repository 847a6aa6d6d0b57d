/-
What the value provider of the Gilboa product can tell about the vector, as a probability over the
blocks drawn by the OT extension.
-/
import Verif.Net
import Verif.Model.Gilboa
import Mathlib.Data.Fintype.Pi

namespace DVO.Gilboa
open Net
variable {T : Type} [Scalar T]

/-- The number of OTs for a vector of length `n`: as many as an element has bits, for each group of
    elements that fit in a block (scalar_vector_gilboa_product.h:137-140). -/
def otCount (T : Type) [Scalar T] (n : Nat) : Nat :=
  8 * Scalar.sizeOf T * ((n + 16 / Scalar.sizeOf T - 1) / (16 / Scalar.sizeOf T))

/-- The blocks drawn by the OT extension, from `N` numbers below `2^128`. -/
def drawn {N : Nat} (m : Fin N → Fin (2 ^ 128)) (i : Nat) : Block :=
  if h : i < N then BitVec.ofFin (m ⟨i, h⟩) else 0

open Classical in
/-- The probability that the view of the value provider with input `x`, in a run against the vector
    provider with input `y`, is in `A`, if the OT extension draws its blocks uniformly. -/
noncomputable def viewProb (c : Chans) (sec : Sec) (rnd : Nat → List T) (x : T) (y : List T) (A : Set (List (Event (Msg T)))) : ℚ :=
  ((Finset.univ : Finset (Fin (otCount T y.length) → Fin (2 ^ 128))).filter (fun m => ∃ r0 r1 va vb,
    Computes (runVectorProvider' c sec (drawn m) rnd y : PM (Msg T) _) (runValueProvider' c sec x y.length : PM (Msg T) _)
      (.ok r0) (.ok r1) va vb ∧ vb ∈ A)).card / ((2 : ℚ) ^ 128) ^ otCount T y.length

end DVO.Gilboa
