/-
Loops that update a list in place.
-/
import Verif.Basic
import Mathlib.Data.List.Basic
import Mathlib.Data.List.Indexes

namespace DVO

/-- The list after the first `i` positions have been updated with `g`. -/
def part {α : Type} (g : Nat → α → α) (l : List α) (i : Nat) : List α :=
  l.mapIdx (fun j x => if j < i then g j x else x)

variable {α : Type}

@[simp] theorem part_length (g : Nat → α → α) (l : List α) (i : Nat) : (part g l i).length = l.length := by
  simp [part]

theorem part_zero (g : Nat → α → α) (l : List α) : part g l 0 = l := by
  apply List.ext_getElem?; intro j; simp [part]

theorem part_full (g : Nat → α → α) (l : List α) {n : Nat} (hn : l.length ≤ n) : part g l n = l.mapIdx g := by
  apply List.ext_getElem?
  intro j
  simp only [part, List.getElem?_mapIdx]
  by_cases hj : j < l.length
  · simp [hj, show j < n by omega]
  · simp [hj]

theorem part_get (g : Nat → α → α) (l : List α) (i : Nat) : (part g l i)[i]? = l[i]? := by
  simp only [part, List.getElem?_mapIdx]
  cases l[i]? <;> simp

theorem rd_part (g : Nat → α → α) {l : List α} {i : Nat} {x : α} (h : l[i]? = some x) :
    rd (part g l i) i = .ok x := by
  rw [rd_eq_ok, part_get, h]

theorem wr_part (g : Nat → α → α) {l : List α} {i : Nat} {x : α} (h : l[i]? = some x) :
    wr (part g l i) i (g i x) = .ok (part g l (i + 1)) := by
  have hi : i < l.length := by rw [List.getElem?_eq_some_iff] at h; exact h.1
  rw [wr_of_lt _ (by simpa using hi)]
  congr 1
  apply List.ext_getElem?
  intro j
  rw [List.getElem?_set]
  simp only [part_length]
  by_cases e : i = j
  · subst e
    rw [if_pos rfl, if_pos hi]
    simp [part, List.getElem?_mapIdx, h]
  · rw [if_neg e]
    simp only [part, List.getElem?_mapIdx]
    have : j < i ↔ j < i + 1 := by omega
    simp only [this]

theorem part_skip (g : Nat → α → α) {l : List α} {i : Nat} {x : α} (h : l[i]? = some x) (hg : g i x = x) :
    part g l (i + 1) = part g l i := by
  apply List.ext_getElem?
  intro j
  simp only [part, List.getElem?_mapIdx]
  by_cases e : j = i
  · subst e; simp [h, hg]
  · have : j < i ↔ j < i + 1 := by omega
    simp only [this]

/-- A loop that at step `i` replaces position `i` by `g i` of its value. -/
theorem loop_part {f : Nat → List α → Out (List α)} (g : Nat → α → α) {l : List α} {n : Nat} (hn : n = l.length)
    (h : ∀ i x, l[i]? = some x → f i (part g l i) = .ok (part g l (i + 1))) :
    loop f 0 n l = .ok (l.mapIdx g) := by
  refine loop_eq (fun i s => s = part g l i) (part_zero g l).symm ?_ ?_
  · rintro i s _ hi rfl
    exact ⟨_, h i l[i] (List.getElem?_eq_getElem (by omega)), rfl⟩
  · rintro s rfl
    rw [part_full g l (by omega)]

end DVO
