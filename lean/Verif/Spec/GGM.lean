/-
Independent specification of GGM trees.
-/
import Verif.Model.GGM

namespace DVO.GGM

/-- XOR of `f 0, ..., f (n-1)`. -/
def xorSum (f : Nat → Block) : Nat → Block
  | 0 => 0
  | n + 1 => xorSum f n ^^^ f n

/-- The value of node `(l, i)` of the GGM tree with root `seed`: the root is the seed and the
    `j`-th child of a node with value `p` is `AES(key j, p) ^ p`. -/
def nodeVal (aes : Cipher) (arity : Nat) (key : Nat → Block) (seed : Block) : Nat → Nat → Block
  | 0, _ => seed
  | l + 1, i =>
    let p := nodeVal aes arity key seed l (i / arity)
    aes (key (i % arity)) p ^^^ p

/-- `(l, i)` is a node that the tree stores. -/
def Tree.stores (t : Tree) (l i : Nat) : Prop := ∃ row, t.levels[l]? = some row ∧ i < row.length

/-- Node at level `l` on the path from the root to leaf `m`, in a tree with `L` levels. -/
def pathNode (arity L m l : Nat) : Nat := m / arity ^ (L - 1 - l)

end DVO.GGM
