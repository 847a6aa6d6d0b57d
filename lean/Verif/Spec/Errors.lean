/-
Specification vocabulary for C50: one party has returned and the other one waits forever.
-/
import Verif.Net

namespace DVO.Net
variable {M α β : Type}

/-- Running `p` against `q`: every interleaving comes to an end after at most `n` steps, the second
    party never returns, and when nothing more can happen, the first party has returned `a`. -/
def Hangs (p : Proc M α) (q : Proc M β) (a : α) : Prop :=
  ∃ n, ∀ k s, Steps k (init p q) s → k ≤ n ∧ (∀ b, s.q ≠ .ret b) ∧ ((∀ t, ¬ Step s t) → s.p = .ret a)

end DVO.Net
