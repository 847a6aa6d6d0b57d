/-
C05 for leaves.
-/
import Verif.Props.GGM

namespace DVO.GGM

/-- C05: in a tree with at least one level, `GetValueAtLeaf` returns the entry of the last level for indices of leaves, and
    INVALID_ARGUMENT for all others. -/
theorem C05_leaf (t : Tree) (ht : t.levels ≠ []) (leaf : Int) :
    (0 ≤ leaf ∧ leaf < t.numLeaves → ∃ v, (t.levels.getLast ht)[leaf.toNat]? = some v ∧ t.getValueAtLeaf leaf = .ok v) ∧
    (¬ (0 ≤ leaf ∧ leaf < t.numLeaves) → ∃ m, t.getValueAtLeaf leaf = .err .invalidArgument m) := by
  have hl : 0 < t.levels.length := List.length_pos_iff.2 ht
  have hn : t.numLeaves = (t.levels.getLast ht).length := by
    unfold Tree.numLeaves
    rw [List.getLast?_eq_some_getLast ht]
    rfl
  have hr : t.levels[((t.levels.length : Int) - 1).toNat]? = some (t.levels.getLast ht) := by
    rw [show ((t.levels.length : Int) - 1).toNat = t.levels.length - 1 by omega, ← List.getLast?_eq_getElem?, List.getLast?_eq_some_getLast ht]
  rw [hn]
  unfold Tree.getValueAtLeaf Tree.getValueAtNode Tree.numLevels
  rw [if_neg (by omega), rd_eq_ok.2 hr, Out.ok_bind]
  constructor
  · rintro ⟨h0, h1⟩
    have h2 : (t.levels.getLast ht)[leaf.toNat]? = some ((t.levels.getLast ht)[leaf.toNat]'(by omega)) := List.getElem?_eq_getElem (by omega)
    exact ⟨_, h2, by rw [if_neg (by omega), rd_eq_ok.2 h2]⟩
  · intro h
    exact ⟨_, by rw [if_pos (by omega)]⟩

/-- C05: so in a tree made by `Create` every leaf has a value, and no other index has one. -/
theorem C05_leaf_create (aes : Cipher) (fl : Nat → Nat → Nat) (n : Int) (seed : Block) (keys : List Block) (t : Tree)
    (h : create aes fl n seed keys = .ok t) (leaf : Int) : (∃ v, t.getValueAtLeaf leaf = .ok v) ↔ 0 ≤ leaf ∧ leaf < n := by
  obtain ⟨-, -, h0, -, hl, -⟩ := C01_create_recurrence aes fl n seed keys t h
  have hn : 0 < n := ((C01_create_ok_iff aes fl n seed keys).1 ⟨t, h⟩).2.1
  have ht : t.levels ≠ [] := by
    intro e
    unfold Tree.levelSize at h0
    rw [e] at h0
    cases h0
  obtain ⟨h1, h2⟩ := C05_leaf t ht leaf
  rw [hl] at h1 h2
  constructor
  · rintro ⟨v, hv⟩
    by_contra hc
    obtain ⟨m, hm⟩ := h2 (by omega)
    rw [hv] at hm
    cases hm
  · intro hc
    obtain ⟨v, -, hv⟩ := h1 (by omega)
    exact ⟨v, hv⟩

/-- A tree with 6 leaves. -/
example : ∃ t, create exCipher exFl 6 42 exKeys = .ok t ∧ (∃ v, t.getValueAtLeaf 5 = .ok v) ∧ (∃ m, t.getValueAtLeaf 6 = .err .invalidArgument m) ∧
    (∃ m, t.getValueAtLeaf (-1) = .err .invalidArgument m) := by
  obtain ⟨t, ht⟩ := (C01_create_ok_iff exCipher exFl 6 42 exKeys).2 (by decide)
  have h1 := C05_leaf_create _ _ _ _ _ t ht
  have hl := (C01_create_recurrence _ _ _ _ _ t ht).2.2.2.2.1
  have hne : t.levels ≠ [] := by
    intro e
    have := (C01_create_recurrence _ _ _ _ _ t ht).2.2.1
    unfold Tree.levelSize at this
    rw [e] at this
    cases this
  refine ⟨t, ht, (h1 5).2 (by omega), (C05_leaf t hne 6).2 ?_, (C05_leaf t hne (-1)).2 (by omega)⟩
  rw [hl]
  decide

end DVO.GGM
