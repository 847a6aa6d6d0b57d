/-
Specification vocabulary for the all-but-one random OT and SPFSS.
-/
import Verif.Spec.GGM

namespace DVO.ROT
open GGM

/-- Sizes `n` for which a binary tree can be built: the level count `fl n 2` obtained from
    `ceil(log(n)/log(2))` (ggm_tree.cpp:43) is large enough and at most 64 (for correctly rounded
    logarithms it is `ceil(log2 n)`), and nodes fit the `int`s of ggm_tree.cpp:74. -/
structure GoodSize (fl : Nat → Nat → Nat) (n : Nat) : Prop where
  le : n ≤ 2 ^ 31
  cover : 0 < n → n ≤ 2 ^ fl n 2
  shift : 0 < n → fl n 2 ≤ 64

/-- Element `k` of row `i`. -/
def elem {T : Type} (m : List (List T)) (i k : Nat) : Option T := (m[i]?).bind (·[k]?)

/-- The batch arguments of sender (`So`) and receiver (`Ro`, `idx`) fit together: same sizes, one
    index per entry, indices not negative and in range for non-empty entries. -/
structure Matching {T : Type} (So Ro : List (List T)) (idx : List Int) : Prop where
  sizes : So.map List.length = Ro.map List.length
  length : idx.length = Ro.length
  range : ∀ (i : Nat) (o : List T) (j : Int), Ro[i]? = some o → idx[i]? = some j →
    0 ≤ j ∧ (o ≠ [] → j < o.length)

/-- The sibling of a node in a binary tree. -/
def sibling (i : Nat) : Nat := if i % 2 = 0 then i + 1 else i - 1

/-- The seeds `s` and `s'` lead to the same values at all stored siblings of the nodes on the path
    to leaf `m` of a tree with `n` leaves and depth `L`. -/
def CopathAgree (aes : Cipher) (key : Nat → Block) (L n m : Nat) (s s' : Block) : Prop :=
  ∀ l, l < L → sibling (pathNode 2 (L + 1) m (l + 1)) * 2 ^ (L - (l + 1)) < n →
    nodeVal aes 2 key s (l + 1) (sibling (pathNode 2 (L + 1) m (l + 1))) =
    nodeVal aes 2 key s' (l + 1) (sibling (pathNode 2 (L + 1) m (l + 1)))

end DVO.ROT
