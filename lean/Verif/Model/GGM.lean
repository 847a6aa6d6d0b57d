/-
Model of distributed_vector_ole/ggm_tree.{h,cpp}.
-/
import Verif.Basic

namespace DVO

/-- `GGMTree::Block = absl::uint128` (ggm_tree.h:53). -/
abbrev Block := BitVec 128

/-- A block cipher `key → plaintext → ciphertext`. Models `AES_set_encrypt_key` followed by
    `AES_encrypt` (ggm_tree.cpp:87-88, 111). Left abstract: every theorem holds for every cipher.
    Key expansion is assumed not to fail. -/
abbrev Cipher := Block → Block → Block

namespace GGM

/-- `ComputePRG` (ggm_tree.cpp:85-91): `AES(key, seed) ^ seed`. -/
def prg (aes : Cipher) (seed key : Block) : Block := aes key seed ^^^ seed

/-- The object state of `GGMTree` (ggm_tree.h:125-138). `num_leaves_` and `num_levels_` are
    derived from `levels_` by the constructor (ggm_tree.cpp:196-203) and are functions here. -/
structure Tree where
  arity : Nat
  levels : List (List Block)
  keys : List Block
  expandedKeys : List Block
deriving DecidableEq, Repr

/-- ggm_tree.h:104. -/
def Tree.numLevels (t : Tree) : Nat := t.levels.length

/-- ggm_tree.h:101, ggm_tree.cpp:199: `levels.back().size()`. -/
def Tree.numLeaves (t : Tree) : Nat := (t.levels.getLast?.map List.length).getD 0

/-- Sizes computed by the loop of `AllocateLevels` (ggm_tree.cpp:46-54), from the last level
    upwards; `n` is `num_blocks_for_level` of the level to be added in front. -/
def allocSizes (arity : Nat) : (levelsLeft n : Nat) → (acc : List Nat) → List Nat
  | 0, _, acc => acc
  | k + 1, n, acc => allocSizes arity k ((n + arity - 1) / arity) (n :: acc)

/-- `AllocateLevels` (ggm_tree.cpp:40-61). `flLog n a` stands for the `double` expression
    `ceil(log(n) / log(a))` of line 43; it is an arbitrary function here, so nothing depends on
    how the floating-point division rounds. -/
def allocateLevels (flLog : Nat → Nat → Nat) (arity numLeaves : Nat) : Out (List (List Block)) :=
  let numLevels := 1 + flLog numLeaves arity
  let levels := (allocSizes arity numLevels numLeaves []).map (fun n => List.replicate n (0 : Block))
  match levels with
  | l0 :: _ =>
    if l0.length ≠ 1 then .err .internal "First level should always have one block" else .ok levels
  | [] => .ub "levels[0] of an empty vector"

/-- `XORBlocks` (ggm_tree.cpp:64-82). `int child` (line 78) is an `int`: a child index of 2^31 or
    more wraps to a negative array index, modelled as undefined behaviour. -/
def xorBlocks (inp out : List Block) : Out (List Block) :=
  let batchSize := out.length
  if batchSize = 0 then .ub "division by zero" else
  let numBatches := (inp.length + batchSize - 1) / batchSize
  loop (fun batch out =>
    let numBlocks := min batchSize (inp.length - batch * batchSize)
    loop (fun block out => do
      let child := batch * batchSize + block
      if child ≥ 2 ^ 31 then Out.ub "int overflow" else
      let o ← rd out block
      let i ← rd inp child
      wr out block (o ^^^ i)) 0 numBlocks out) 0 numBatches out

/-- `GGMTree::ExpandSubtree` (ggm_tree.cpp:205-228). `arity` is `arity_`, `keys` is
    `expanded_keys_`. The `int64_t` expression `level_size(level+1) - node*arity` may be negative
    in C++, in which case the sibling loop does not run; truncated subtraction has the same effect. -/
def expandSubtree (aes : Cipher) (arity : Nat) (keys : List Block) (levels : List (List Block))
    (startLevel startNode : Nat) : Out (List (List Block)) := do
  let st ← loop (fun lvl (st : List (List Block) × Nat × Nat) => do
      let cur ← rd st.1 lvl
      let maxNode := min st.2.2 cur.length
      let levels ← loop (fun node levels => do
          let next ← rd levels (lvl + 1)
          let numSiblings := min arity (next.length - node * arity)
          loop (fun sib levels => do
              let parent ← rd2 levels lvl node
              let key ← rd keys sib
              wr2 levels (lvl + 1) (arity * node + sib) (prg aes parent key))
            0 numSiblings levels)
        st.2.1 (maxNode - st.2.1) st.1
      Out.ok (levels, st.2.1 * arity, maxNode * arity))
    startLevel (levels.length - 1 - startLevel) (levels, startNode, startNode + 1)
  Out.ok st.1

/-- `GGMTree::Create(num_leaves, seed, keys)` (ggm_tree.cpp:95-121). -/
def create (aes : Cipher) (flLog : Nat → Nat → Nat) (numLeaves : Int) (seed : Block)
    (keys : List Block) : Out Tree := do
  let arity := keys.length
  if arity < 2 then Out.err .invalidArgument "arity must be at least 2" else
  if numLeaves ≤ 0 then Out.err .invalidArgument "num_leaves must be positive" else
  let levels ← allocateLevels flLog arity numLeaves.toNat
  let levels ← wr2 levels 0 0 seed
  let levels ← expandSubtree aes arity keys levels 0 0
  Out.ok { arity := arity, levels := levels, keys := keys, expandedKeys := keys }

/-- The loop constructing `missing_path` (ggm_tree.cpp:153-157), from the last level to the first.
    C++ integer division truncates towards zero (`Int.tdiv`). -/
def missingPath (arity : Int) : (levelsLeft : Nat) → Int → List Int → List Int
  | 0, _, acc => acc
  | k + 1, m, acc => missingPath arity k (m.tdiv arity) (m :: acc)

/-- One iteration of the loop over levels of `CreateFromSiblingWiseXOR` (ggm_tree.cpp:172-191).
    `arity` is the argument of that function, `treeArity` the member `arity_` used by
    `ExpandSubtree`. -/
def fillLevel (aes : Cipher) (arity : Int) (treeArity : Nat) (expanded : List Block)
    (path : List Int) (xors : List (List Block)) (lvl : Nat) (levels : List (List Block)) :
    Out (List (List Block)) := do
  let row ← rd levels lvl
  let cur ← xorBlocks row (List.replicate arity.toNat 0)
  let pprev ← rd path (lvl - 1)
  let pcur ← rd path lvl
  let nodeBase := pprev * arity
  let numSiblings := (min arity ((row.length : Int) - nodeBase)).toNat
  loop (fun sib levels =>
      let node := nodeBase + (sib : Int)
      if node = pcur then Out.ok levels else do
      let c ← rd cur sib
      let x ← rd2 xors (lvl - 1) sib
      if node < 0 then Out.ub "negative index" else
      let levels ← wr2 levels lvl node.toNat (c ^^^ x)
      expandSubtree aes treeArity expanded levels lvl node.toNat)
    0 numSiblings levels

/-- Key expansion of `CreateFromSiblingWiseXOR` (ggm_tree.cpp:160-167): reads
    `keys_copy[0], ..., keys_copy[arity-1]`, whatever `keys.size()` is. -/
def expandKeys (keys : List Block) (arity : Nat) : Out (List Block) :=
  loop (fun i acc => do
      let k ← rd keys i
      Out.ok (acc ++ [k])) 0 arity []

/-- `GGMTree::CreateFromSiblingWiseXOR` (ggm_tree.cpp:123-194). The comparison with `std::pow`
    (line 144) is modelled exactly. The assertion of line 171 gives `ub` when it fails (in an
    NDEBUG build the code then indexes `levels_` out of range or leaves levels empty).
    Note that the constructor sets `arity_` to `keys.size()` (line 198) while the local `arity`
    is the argument. -/
def createFromXor (aes : Cipher) (flLog : Nat → Nat → Nat) (arity : Int) (numLeaves missing : Int)
    (xors : List (List Block)) (keys : List Block) : Out Tree := do
  if arity < 2 then Out.err .invalidArgument "arity must be at least 2" else
  if numLeaves ≤ 0 then Out.err .invalidArgument "`num_leaves` must be positive" else
  if missing ≥ numLeaves then
    Out.err .invalidArgument "`missing_index` must be smaller than `num_leaves`" else
  let numLevels := xors.length + 1
  if xors.any (fun r => (r.length : Int) ≠ arity) then
    Out.err .invalidArgument "All elements of `sibling_wise_xors` must have length `arity`" else
  if arity ^ (numLevels - 1) < numLeaves then
    Out.err .invalidArgument "Dimensions passed in `sibling_wise_xors` to small for `num_leaves`" else
  if keys.isEmpty then Out.err .invalidArgument "`keys` must not be empty" else
  let path := missingPath arity numLevels missing []
  let expanded ← expandKeys keys arity.toNat
  let levels ← allocateLevels flLog arity.toNat numLeaves.toNat
  if levels.length ≠ numLevels then Out.ub "assert(tree->num_levels() == num_levels)" else
  let levels ← loop (fillLevel aes arity keys.length expanded path xors) 1 (numLevels - 1) levels
  Out.ok { arity := keys.length, levels := levels, keys := keys, expandedKeys := expanded }

/-- `GGMTree::GetValueAtNode` (ggm_tree.cpp:230-240). -/
def Tree.getValueAtNode (t : Tree) (level node : Int) : Out Block :=
  if level < 0 ∨ level ≥ t.numLevels then
    .err .invalidArgument "level_index out of range"
  else do
    let row ← rd t.levels level.toNat
    if node < 0 ∨ node ≥ row.length then
      .err .invalidArgument "node_index out of range"
    else rd row node.toNat

/-- `GGMTree::GetValueAtLeaf` (ggm_tree.h:87-89). -/
def Tree.getValueAtLeaf (t : Tree) (leaf : Int) : Out Block :=
  t.getValueAtNode ((t.numLevels : Int) - 1) leaf

/-- `GGMTree::level_size` (ggm_tree.h:107). -/
def Tree.levelSize (t : Tree) (level : Nat) : Out Nat := do
  let row ← rd t.levels level
  Out.ok row.length

/-- `GGMTree::GetSiblingWiseXOR` (ggm_tree.cpp:242-250). -/
def Tree.getSiblingWiseXOR (t : Tree) : Out (List (List Block)) :=
  loop (fun lvl values => do
      let row ← rd t.levels (lvl + 1)
      let v ← rd values lvl
      let v' ← xorBlocks row v
      wr values lvl v')
    0 (t.numLevels - 1) (List.replicate (t.numLevels - 1) (List.replicate t.arity 0))

end GGM
end DVO
