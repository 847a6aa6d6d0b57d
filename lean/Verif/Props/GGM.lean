/-
Properties C01-C06: GGM trees.
-/
import Verif.Proofs.GGM3
import Mathlib.Data.Nat.Log
import Mathlib.Tactic.IntervalCases

namespace DVO.GGM

/-! Concrete data used to show that hypotheses are met by non-trivial cases. -/

/-- A toy cipher for the examples (not part of the model of any repository code). -/
def exCipher : Cipher := fun k p => k * 31 + p * p * 7 + 5
/-- Number of levels used in the examples: `ceil(log2 6) = 3` (stands for ggm_tree.cpp:43). -/
def exFl : Nat → Nat → Nat := fun _ _ => 3
def exKeys : List Block := [3, 9]

/-! ### C01 -/

/-- C01: whenever `Create` succeeds the root is the seed, every other stored node is
    `AES(keys[i mod arity], p) xor p` of its parent's value `p`, the first level has one node and
    the last one `num_leaves` nodes. -/
theorem C01_create_recurrence (aes : Cipher) (fl : Nat → Nat → Nat) (n : Int) (seed : Block)
    (keys : List Block) (t : Tree) (h : create aes fl n seed keys = .ok t) :
    t.arity = keys.length ∧ t.keys = keys ∧
    t.levelSize 0 = .ok 1 ∧ t.levelSize (t.numLevels - 1) = .ok n.toNat ∧ t.numLeaves = n.toNat ∧
    t.getValueAtNode 0 0 = .ok seed ∧
    ∀ l i, t.stores (l + 1) i →
      ∃ p k, t.getValueAtNode l (i / keys.length : Nat) = .ok p ∧ keys[i % keys.length]? = some k ∧
        t.getValueAtNode (l + 1 : Nat) i = .ok (aes k p ^^^ p) := by
  rcases create_cases aes fl n seed keys with ⟨_, m, h'⟩ | ⟨_, _, _, m, h'⟩ | ⟨ha, hn, _, s, hs, hlen, hlast, _, h'⟩
  · rw [h] at h'; cases h'
  · rw [h] at h'; cases h'
  · rw [h] at h'; injection h' with h'; subst h'
    have hslen : 1 ≤ s.length := by omega
    have hget : ∀ l k i, s[l]? = some k → i < k →
        Tree.getValueAtNode { arity := keys.length
                              levels := mk s (nodeVal aes keys.length (keyFn keys) seed)
                              keys := keys, expandedKeys := keys } (l : Nat) (i : Nat) =
          .ok (nodeVal aes keys.length (keyFn keys) seed l i) := by
      intro l k i hl hi
      have hls : l < s.length := by rw [List.getElem?_eq_some_iff] at hl; exact hl.1
      unfold Tree.getValueAtNode
      rw [if_neg (by simp [Tree.numLevels]; omega)]
      simp only [Int.toNat_natCast]
      rw [rd_mk hl]
      simp only [Out.ok_bind]
      rw [if_neg (by simp; omega), rd_map_range _ hi]
    refine ⟨rfl, rfl, ?_, ?_, ?_, ?_, ?_⟩
    · simp only [Tree.levelSize]; rw [rd_mk hs.head]; rfl
    · simp only [Tree.levelSize, Tree.numLevels, mk_length]; rw [rd_mk hlast]; simp
    · simp only [Tree.numLeaves]
      rw [List.getLast?_eq_getElem?, mk_length, mk_getElem?, hlast]; simp
    · have := hget 0 1 0 hs.head (by omega)
      simpa [nodeVal] using this
    · rintro l i ⟨row, hrow, hi⟩
      simp only at hrow
      rw [mk_getElem?] at hrow
      cases hsl : s[l + 1]? with
      | none => rw [hsl] at hrow; simp at hrow
      | some k =>
        rw [hsl] at hrow
        simp only [Option.map_some, Option.some.injEq] at hrow
        subst hrow
        simp only [List.length_map, List.length_range] at hi
        have hll : l < s.length := by
          rw [List.getElem?_eq_some_iff] at hsl; exact Nat.lt_of_succ_lt hsl.1
        have e : s[l]? = some s[l] := by simp [hll]
        refine ⟨_, _, hget l s[l] (i / keys.length) e (hs.parent_lt ha e hsl hi),
          keyFn_spec keys _ (Nat.mod_lt _ (by omega)), ?_⟩
        rw [hget (l + 1) k i hsl hi]
        rfl

example : (create exCipher exFl 6 42 exKeys).isOk = true := by decide +kernel

/-- C01: `Create` never indexes out of bounds, whatever its arguments and whatever the
    floating-point level count. -/
theorem C01_create_no_ub (aes : Cipher) (fl : Nat → Nat → Nat) (n : Int) (seed : Block)
    (keys : List Block) : (create aes fl n seed keys).NoUB := by
  rcases create_cases aes fl n seed keys with ⟨_, m, h'⟩ | ⟨_, _, _, m, h'⟩ | ⟨_, _, _, s, _, _, _, _, h'⟩ <;>
    rw [h'] <;> trivial

/-- C01: `Create` succeeds exactly when the arity and the number of leaves are legal and the
    floating-point level count is not too small; then the number of levels is `1 + fl n arity`. -/
theorem C01_create_ok_iff (aes : Cipher) (fl : Nat → Nat → Nat) (n : Int) (seed : Block)
    (keys : List Block) :
    (∃ t, create aes fl n seed keys = .ok t) ↔
      2 ≤ keys.length ∧ 0 < n ∧ n.toNat ≤ keys.length ^ fl n.toNat keys.length := by
  constructor
  · rintro ⟨t, h⟩
    rcases create_cases aes fl n seed keys with ⟨_, m, h'⟩ | ⟨_, _, _, m, h'⟩ | ⟨h1, h2, h3, _⟩
    · rw [h] at h'; cases h'
    · rw [h] at h'; cases h'
    · exact ⟨h1, h2, h3⟩
  · rintro ⟨h1, h2, h3⟩
    rcases create_cases aes fl n seed keys with ⟨h4, _⟩ | ⟨_, _, h4, _⟩ | ⟨_, _, _, s, _, _, _, _, h'⟩
    · omega
    · omega
    · exact ⟨_, h'⟩

/-- C01: if the floating-point expression is exact (`ceil(log n / log arity) = clog arity n`),
    every legal call succeeds. -/
theorem C01_create_ok_exact (aes : Cipher) (n : Int) (seed : Block) (keys : List Block)
    (ha : 2 ≤ keys.length) (hn : 0 < n) :
    ∃ t, create aes (fun n a => Nat.clog a n) n seed keys = .ok t := by
  rw [C01_create_ok_iff]
  exact ⟨ha, hn, Nat.le_pow_clog (by omega) _⟩

example : 2 ≤ exKeys.length ∧ (0 : Int) < 6 := by decide

/-! ### C02 -/

/-- C02: row `l`, entry `j` of `GetSiblingWiseXOR()` is the XOR of all stored nodes `(l+1, i)` with
    `i mod arity = j`. Stated for every tree (full or punctured) of at most 2^31 nodes per level. -/
theorem C02_sibling_xor (t : Tree) (ha : 0 < t.arity)
    (hb : ∀ l n, t.levelSize l = .ok n → n ≤ 2 ^ 31) :
    ∃ x, t.getSiblingWiseXOR = .ok x ∧ x.length = t.numLevels - 1 ∧
      (∀ r, r ∈ x → r.length = t.arity) ∧
      ∀ l j n (val : Nat → Block), l < t.numLevels - 1 → j < t.arity →
        t.levelSize (l + 1) = .ok n →
        (∀ i, i < n → t.getValueAtNode (l + 1 : Nat) i = .ok (val i)) →
        rd2 x l j = .ok (xorSum (fun i => if i % t.arity = j then val i else 0) n) := by
  obtain ⟨V, hV⟩ := exists_mk t.levels
  set s := t.levels.map List.length with hs
  have hb' : ∀ (l n : Nat), s[l]? = some n → n ≤ 2 ^ 31 := by
    intro l n hl
    apply hb l n
    unfold Tree.levelSize
    rw [hV, rd_mk hl]; simp
  have hnl : t.numLevels = s.length := by simp [Tree.numLevels, hs]
  refine ⟨_, getSiblingWiseXOR_eq ha hV hb', by simp [mat, hnl], ?_, ?_⟩
  · intro r hr
    simp only [mat, List.mem_map] at hr
    obtain ⟨l, _, rfl⟩ := hr
    simp
  · intro l j n val hl hj hn hval
    rw [hnl] at hl
    rw [rd2_mat _ hl hj]
    have e : s[l + 1]? = some s[l + 1] := by simp [show l + 1 < s.length by omega]
    unfold Tree.levelSize at hn
    rw [hV, rd_mk e] at hn
    simp only [Out.ok_bind, List.length_map, List.length_range] at hn
    injection hn with hn
    unfold sxor
    rw [e, Option.getD_some, hn]
    congr 1
    apply xorSum_congr
    intro i hi
    have h1 := hval i hi
    unfold Tree.getValueAtNode at h1
    rw [if_neg (by rw [hnl]; omega)] at h1
    simp only [Int.toNat_natCast] at h1
    rw [hV, rd_mk e] at h1
    simp only [Out.ok_bind] at h1
    rw [if_neg (by simp; omega), rd_map_range _ (by omega)] at h1
    injection h1 with h1
    rw [h1]

/-- The tree of C01's example meets C02's hypotheses, and the XORs are not trivial. -/
example : ∃ t, create exCipher exFl 6 42 exKeys = .ok t ∧ t.arity = 2 ∧
    t.levels.map List.length = [1, 1, 2, 3, 6].tail ∧
    (t.getSiblingWiseXOR >>= fun x => rd2 x 2 1) ≠ .ok 0 := by
  refine ⟨_, rfl, ?_⟩
  decide +kernel

/-! ### C03 -/

/-- C03: reconstruction from the XORs of a full tree gives the full tree with the path to the
    missing leaf replaced by zeros. -/
theorem C03_punctured (aes : Cipher) (fl : Nat → Nat → Nat) (n : Int) (seed : Block)
    (keys : List Block) (full : Tree) (h : create aes fl n seed keys = .ok full)
    (hb : n ≤ 2 ^ 31) (missing : Int) (h0 : 0 ≤ missing) (h1 : missing < n) :
    ∃ x t, full.getSiblingWiseXOR = .ok x ∧
      createFromXor aes fl full.arity n missing x full.keys = .ok t ∧
      t.arity = full.arity ∧ t.keys = full.keys ∧ t.numLevels = full.numLevels ∧
      (∀ l, t.levelSize l = full.levelSize l) ∧
      ∀ (l i : Nat) v, full.getValueAtNode l i = .ok v →
        t.getValueAtNode l i =
          .ok (if i = pathNode full.arity full.numLevels missing.toNat l then 0 else v) := by
  rcases create_cases aes fl n seed keys with ⟨_, m, h'⟩ | ⟨_, _, _, m, h'⟩ | ⟨ha, hn, _, s, hs, hlen, hlast, hal, h'⟩
  · rw [h] at h'; cases h'
  · rw [h] at h'; cases h'
  rw [h] at h'; injection h' with h'; subst h'
  have hb' : ∀ (l n : Nat), s[l]? = some n → n ≤ 2 ^ 31 := by
    intro l k hl
    have hls : l < s.length := by rw [List.getElem?_eq_some_iff] at hl; exact hl.1
    have := hs.le_last ha hlast (s.length - 1 - l) l k (by omega) hl
    omega
  obtain ⟨m, rfl⟩ : ∃ m : Nat, missing = m := ⟨missing.toNat, by omega⟩
  obtain ⟨N, rfl⟩ : ∃ N : Nat, n = N := ⟨n.toNat, by omega⟩
  rw [Int.toNat_natCast] at hlast hal
  have hx := getSiblingWiseXOR_eq (t := { arity := keys.length, levels := mk s (nodeVal aes keys.length (keyFn keys) seed), keys := keys, expandedKeys := keys })
    (by simp only; omega) rfl hb'
  refine ⟨_, { arity := keys.length
               levels := mk s (fun l i => if i = pathNode keys.length s.length m l then 0 else
                 nodeVal aes keys.length (keyFn keys) seed l i)
               keys := keys
               expandedKeys := keys }, hx, ?_, rfl, rfl, ?_, ?_, ?_⟩
  · simp only
    rw [createFromXor_unfold aes fl ha rfl hs hlast (by omega) hal,
      fillLoop_eq aes ha rfl hs hlast (by omega) hb' _ (by intro l i; rfl)]
    rfl
  · simp [Tree.numLevels]
  · intro l
    simp only [Tree.levelSize]
    cases hl : s[l]? with
    | none => simp [rd, mk_getElem?, hl]
    | some k => rw [rd_mk hl, rd_mk hl]; simp
  · intro l i v hv
    unfold Tree.getValueAtNode at hv ⊢
    simp only [Tree.numLevels, mk_length, Int.toNat_natCast] at hv ⊢
    by_cases hc : (l : Int) < 0 ∨ (l : Int) ≥ s.length
    · rw [if_pos hc] at hv; cases hv
    · rw [if_neg hc] at hv ⊢
      have e : s[l]? = some s[l] := by simp [show l < s.length by omega]
      rw [rd_mk e] at hv ⊢
      simp only [Out.ok_bind, List.length_map, List.length_range] at hv ⊢
      by_cases hc2 : (i : Int) < 0 ∨ (i : Int) ≥ s[l]
      · rw [if_pos hc2] at hv; cases hv
      · rw [if_neg hc2] at hv ⊢
        rw [rd_map_range _ (by omega)] at hv ⊢
        injection hv with hv
        subst hv
        rfl

/-- Missing leaf 3 of 6: the hypotheses hold, leaf 3 is lost and leaf 2 is not. -/
example : (create exCipher exFl 6 42 exKeys >>= fun t => t.getSiblingWiseXOR >>= fun x =>
      createFromXor exCipher exFl 2 6 3 x exKeys >>= fun p =>
      p.getValueAtLeaf 3 >>= fun a => p.getValueAtLeaf 2 >>= fun b => t.getValueAtLeaf 2 >>= fun c =>
      t.getValueAtLeaf 3 >>= fun d => .ok (a = 0 ∧ b = c ∧ b ≠ 0 ∧ d ≠ 0 : Bool))
    = .ok true := by decide +kernel

/-! ### C04 -/

/-- Position, among its siblings, of the node at level `l + 1` on the path to `missing`
    (C++ division truncates, which only matters for negative `missing`). -/
def pathDigit (arity : Int) (numLevels : Nat) (missing : Int) (l : Nat) : Int :=
  (missing.tdiv (arity ^ (numLevels - 1 - (l + 1)))) - (missing.tdiv (arity ^ (numLevels - 1 - l))) * arity

/-- C04: the outcome of the reconstruction does not depend on the XOR entries along the missing path. -/
theorem C04_ignores_path_entries (aes : Cipher) (fl : Nat → Nat → Nat) (arity numLeaves missing : Int)
    (x y : List (List Block)) (keys : List Block)
    (hrow : x.map List.length = y.map List.length)
    (hxy : ∀ l j : Nat, (j : Int) ≠ pathDigit arity (x.length + 1) missing l →
      rd2 x l j = rd2 y l j) :
    createFromXor aes fl arity numLeaves missing x keys =
      createFromXor aes fl arity numLeaves missing y keys := by
  have hlen : x.length = y.length := by simpa using congrArg List.length hrow
  have hany : ∀ p : Nat → Bool, x.any (fun r => p r.length) = y.any (fun r => p r.length) := by
    intro p
    have h1 : ∀ z : List (List Block), z.any (fun r => p r.length) = (z.map List.length).any p := by
      intro z; simp [List.any_map, Function.comp_def]
    rw [h1, h1, hrow]
  have hloop : ∀ expanded levels,
      loop (fillLevel aes arity keys.length expanded (missingPath arity (x.length + 1) missing []) x) 1
        (x.length + 1 - 1) levels =
      loop (fillLevel aes arity keys.length expanded (missingPath arity (x.length + 1) missing []) y) 1
        (x.length + 1 - 1) levels := by
    intro expanded levels
    apply loop_congr
    intro lvl L h1 h2
    unfold fillLevel
    congr 1; funext row; congr 1; funext cur
    have hl1 : lvl - 1 < x.length + 1 := by omega
    have hl2 : lvl < x.length + 1 := by omega
    rw [rd_missingPath _ hl1, rd_missingPath _ hl2]
    simp only [Out.ok_bind]
    apply loop_congr
    intro sib L' _ _
    by_cases hc : missing.tdiv (arity ^ (x.length + 1 - 1 - (lvl - 1))) * arity + (sib : Int) =
        missing.tdiv (arity ^ (x.length + 1 - 1 - lvl))
    · rw [if_pos hc, if_pos hc]
    · rw [if_neg hc, if_neg hc]
      have := hxy (lvl - 1) sib (by
        unfold pathDigit
        rw [show lvl - 1 + 1 = lvl by omega]
        omega)
      rw [this]
  unfold createFromXor
  simp only
  rw [← hlen]
  have := hany (fun k => decide ((k : Int) ≠ arity))
  simp only [this, hloop]

/-- Two different XOR tables (they differ exactly at the ignored entries) for which the hypotheses
    of C04 hold: missing leaf 3 = path digits 0, 1, 1 of a binary tree with 4 levels. -/
example : let x : List (List Block) := [[1, 2], [3, 4], [5, 6]]
    let y : List (List Block) := [[9, 2], [3, 8], [5, 7]]
    (∀ l j : Nat, l < 3 → j < 2 → (j : Int) ≠ pathDigit 2 4 3 l → rd2 x l j = rd2 y l j) ∧
    createFromXor exCipher exFl 2 6 3 x exKeys = createFromXor exCipher exFl 2 6 3 y exKeys ∧
    (createFromXor exCipher exFl 2 6 3 x exKeys).isOk = true := by
  refine ⟨?_, by decide +kernel, by decide +kernel⟩
  intro l j hl hj
  interval_cases l <;> interval_cases j <;> decide

/-! ### C05 -/

/-- C05: `Create` returns INVALID_ARGUMENT iff the arity is below 2 or `num_leaves <= 0`. -/
theorem C05_create_invalid_iff (aes : Cipher) (fl : Nat → Nat → Nat) (n : Int) (seed : Block)
    (keys : List Block) :
    (∃ m, create aes fl n seed keys = .err .invalidArgument m) ↔ keys.length < 2 ∨ n ≤ 0 := by
  constructor
  · rintro ⟨m', h⟩
    rcases create_cases aes fl n seed keys with ⟨h1, _⟩ | ⟨_, _, _, m, h'⟩ | ⟨_, _, _, s, _, _, _, _, h'⟩
    · exact h1
    · rw [h] at h'; cases h'
    · rw [h] at h'; cases h'
  · intro h
    rcases create_cases aes fl n seed keys with ⟨_, h1⟩ | ⟨_, _, _, _⟩ | ⟨_, _, _, _⟩
    · exact h1
    · omega
    · omega

example : ([5] : List Block).length < 2 ∨ (6 : Int) ≤ 0 := by decide

/-- C05: `GetValueAtNode` returns a value iff the node is stored, and INVALID_ARGUMENT otherwise;
    for all signed arguments. -/
theorem C05_getValue (t : Tree) (level node : Int) :
    ((∃ v, t.getValueAtNode level node = .ok v) ↔
      0 ≤ level ∧ level < t.numLevels ∧ 0 ≤ node ∧
        ∃ n : Nat, t.levelSize level.toNat = .ok n ∧ node < n) ∧
    ((¬ ∃ v, t.getValueAtNode level node = .ok v) →
      ∃ m, t.getValueAtNode level node = .err .invalidArgument m) := by
  unfold Tree.getValueAtNode Tree.levelSize
  by_cases h1 : level < 0 ∨ level ≥ t.numLevels
  · rw [if_pos h1]
    constructor
    · constructor
      · rintro ⟨v, hv⟩; cases hv
      · rintro ⟨h2, h3, _⟩; omega
    · intro _; exact ⟨_, rfl⟩
  · rw [if_neg h1]
    have hl : level.toNat < t.levels.length := by
      have : t.numLevels = t.levels.length := rfl
      omega
    rw [rd_of_lt hl]
    simp only [Out.ok_bind]
    by_cases h2 : node < 0 ∨ node ≥ t.levels[level.toNat].length
    · rw [if_pos h2]
      constructor
      · constructor
        · rintro ⟨v, hv⟩; cases hv
        · rintro ⟨_, _, h3, n, h4, h5⟩; injection h4 with h4; omega
      · intro _; exact ⟨_, rfl⟩
    · rw [if_neg h2, rd_of_lt (by omega)]
      constructor
      · constructor
        · intro _; exact ⟨by omega, by omega, by omega, _, rfl, by omega⟩
        · intro _; exact ⟨_, rfl⟩
      · intro h; exact absurd ⟨_, rfl⟩ h

example : ∃ t, create exCipher exFl 6 42 exKeys = .ok t ∧ t.getValueAtNode 3 (-1) ≠ t.getValueAtNode 3 5 := by
  refine ⟨_, rfl, ?_⟩
  decide +kernel

/-- C05: `CreateFromSiblingWiseXOR` rejects every argument outside its documented range. -/
theorem C05_createFromXor_invalid (aes : Cipher) (fl : Nat → Nat → Nat) (arity numLeaves missing : Int)
    (x : List (List Block)) (keys : List Block)
    (h : arity < 2 ∨ numLeaves ≤ 0 ∨ missing ≥ numLeaves ∨ (∃ r ∈ x, (r.length : Int) ≠ arity) ∨
      arity ^ x.length < numLeaves ∨ keys = []) :
    ∃ m, createFromXor aes fl arity numLeaves missing x keys = .err .invalidArgument m := by
  unfold createFromXor
  simp only
  by_cases h1 : arity < 2
  · exact ⟨_, by rw [if_pos h1]⟩
  rw [if_neg h1]
  by_cases h2 : numLeaves ≤ 0
  · exact ⟨_, by rw [if_pos h2]⟩
  rw [if_neg h2]
  by_cases h3 : missing ≥ numLeaves
  · exact ⟨_, by rw [if_pos h3]⟩
  rw [if_neg h3]
  by_cases h4 : x.any (fun r => (r.length : Int) ≠ arity) = true
  · exact ⟨_, by rw [if_pos h4]⟩
  rw [if_neg h4]
  by_cases h5 : arity ^ (x.length + 1 - 1) < numLeaves
  · exact ⟨_, by rw [if_pos h5]⟩
  rw [if_neg h5]
  by_cases h6 : keys.isEmpty = true
  · exact ⟨_, by rw [if_pos h6]⟩
  · exfalso
    rcases h with h | h | h | ⟨r, hr, hr2⟩ | h | h
    · exact h1 h
    · exact h2 h
    · exact h3 h
    · apply h4
      rw [List.any_eq_true]
      exact ⟨r, hr, by simpa using hr2⟩
    · exact h5 (by simpa using h)
    · exact h6 (by simp [h])

/-- Too few rows for 6 leaves. -/
example : (2 : Int) ^ ([[1, 2], [3, 4]] : List (List Block)).length < 6 := by decide

/-! ### C06 -/

/-- C06 (partial): memory safety under the contract `keys.size() == arity`, `missing_index >= 0`,
    as many XOR rows as the tree has levels below the root, at most 2^31 leaves; the XOR values
    themselves are arbitrary. The full property (all arguments) is false of the code, see below.
    Missing: nothing beyond the calls excluded by those four hypotheses. -/
theorem C06_createFromXor_safe_partial (aes : Cipher) (fl : Nat → Nat → Nat) (numLeaves missing : Int)
    (x : List (List Block)) (keys : List Block)
    (hmis : 0 ≤ missing) (hrows : x.length = fl numLeaves.toNat keys.length) (hb : numLeaves ≤ 2 ^ 31) :
    (createFromXor aes fl keys.length numLeaves missing x keys).NoUB := by
  by_cases hbad : ((keys.length : Int) < 2 ∨ numLeaves ≤ 0 ∨ missing ≥ numLeaves ∨
      (∃ r ∈ x, (r.length : Int) ≠ (keys.length : Int)) ∨
      (keys.length : Int) ^ x.length < numLeaves ∨ keys = [])
  · obtain ⟨m, h⟩ := C05_createFromXor_invalid aes fl keys.length numLeaves missing x keys hbad
    rw [h]; trivial
  · push Not at hbad
    obtain ⟨h1, h2, h3, h4, h5, h6⟩ := hbad
    obtain ⟨m, rfl⟩ : ∃ m : Nat, missing = m := ⟨missing.toNat, by omega⟩
    obtain ⟨N, rfl⟩ : ∃ N : Nat, numLeaves = N := ⟨numLeaves.toNat, by omega⟩
    rw [Int.toNat_natCast] at hrows
    have ha : 2 ≤ keys.length := by omega
    rcases allocateLevels_cases fl (a := keys.length) (n := N) ha (by omega) with
      ⟨_, s, hal, hs, hslen, hlast⟩ | ⟨hlt, _⟩
    · have hxm : x = mat (s.length - 1) keys.length (fun l j => ((x[l]?).getD [])[j]?.getD 0) := by
        apply List.ext_getElem
        · simp [mat]; omega
        · intro l hl1 hl2
          have := h4 x[l] (by simp)
          apply List.ext_getElem
          · simp [mat]; omega
          · intro j hj1 hj2
            simp [mat, hl1, hj1]
      have hb' : ∀ (l n : Nat), s[l]? = some n → n ≤ 2 ^ 31 := by
        intro l k hl
        have hls : l < s.length := by rw [List.getElem?_eq_some_iff] at hl; exact hl.1
        have := hs.le_last ha hlast (s.length - 1 - l) l k (by omega) hl
        omega
      rw [hxm, createFromXor_unfold aes fl ha rfl hs hlast (by omega) hal]
      obtain ⟨W, hW⟩ := fillLoop_safe aes ha rfl hs hlast (by omega : m < N) hb'
        (fun l j => ((x[l]?).getD [])[j]?.getD 0) (fun _ _ => 0)
      rw [hW]
      trivial
    · exfalso
      rw [hrows] at h5
      have : ((keys.length ^ fl N keys.length : Nat) : Int) < (N : Int) := by exact_mod_cast hlt
      push_cast at this
      omega

example : (0 : Int) ≤ 3 ∧ ([[1, 2], [3, 4], [5, 6]] : List (List Block)).length = exFl 6 2 ∧
    (6 : Int) ≤ 2 ^ 31 := by decide

/-- C06 is false of the code: a negative `missing_index` passes the checks and indexes below zero. -/
theorem C06_negation_negative_index :
    ¬ (createFromXor exCipher (fun _ _ => 1) 2 2 (-3) [[1, 2]] exKeys).NoUB := by
  decide +kernel

/-- C06 is false of the code: one XOR row too many fails the assertion of ggm_tree.cpp:171. -/
theorem C06_negation_extra_row :
    ¬ (createFromXor exCipher (fun _ _ => 1) 2 2 0 [[1, 2], [3, 4]] exKeys).NoUB := by
  decide +kernel

/-- C06 is false of the code: with more keys than `arity`, `ExpandSubtree` uses `keys.size()` as
    arity but only `arity` keys were expanded. -/
theorem C06_negation_extra_key :
    ¬ (createFromXor exCipher (fun _ _ => 2) 2 4 2 [[1, 2], [3, 4]] [3, 9, 12]).NoUB := by
  decide +kernel

/-- C06 is false of the code: fewer keys than `arity` always read `keys` out of bounds, for every
    otherwise accepted call. -/
theorem C06_negation_missing_key (aes : Cipher) (fl : Nat → Nat → Nat) (arity numLeaves missing : Int)
    (x : List (List Block)) (keys : List Block) (h0 : keys ≠ []) (hk : (keys.length : Int) < arity)
    (h2 : 0 < numLeaves) (h3 : missing < numLeaves) (h4 : ∀ r ∈ x, (r.length : Int) = arity)
    (h5 : numLeaves ≤ arity ^ x.length) :
    ¬ (createFromXor aes fl arity numLeaves missing x keys).NoUB := by
  have hpos : 0 < keys.length := List.length_pos_iff.2 h0
  unfold createFromXor
  simp only
  rw [if_neg (by omega), if_neg (by omega), if_neg (by omega), if_neg, if_neg, if_neg]
  · obtain ⟨w, hw⟩ := expandKeys_ub keys (a := arity.toNat) (by omega)
    rw [hw]
    exact id
  · simpa using h0
  · simpa using h5
  · simp only [List.any_eq_true, not_exists, not_and]
    intro r hr
    simpa using h4 r hr

example : ([7] : List Block) ≠ [] ∧ ((([7] : List Block).length : Int) < 2) ∧ (3 : Int) < 6 ∧
    (6 : Int) ≤ 2 ^ 3 := by decide

end DVO.GGM
