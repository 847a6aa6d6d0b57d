/-
What happens to the elements of the vector OLE during a call, whatever its outcome and whatever the
peer does.
-/
import Verif.Proofs.Calm

namespace DVO.VOLE
open MPFSS
set_option linter.unusedSectionVars false
variable {T α β : Type}

/-- Events: elements handed out as a sender or receiver, and a new `delta`. -/
inductive Ev (T : Type)
  | sent (r : SRes T)
  | rcvd (r : RRes T)
  | delta (d : T)

/-- Elementary changes of the members. `clean = true` excludes those that put uninitialised elements
    into the receiver's cache. -/
inductive Prim (clean : Bool) : VState T → List (Ev T) → VState T → Prop
  | adj (s : VState T) (mp co ba vs ms no po lo) : Prim clean s [] { s with
      mpfss := mp, code := co, batch := ba, voleSize := vs, mpfssSize := ms, noise := no, pos := po, log := lo }
  | sDone (s : VState T) : Prim clean s [] { s with sDone := true }
  | rDone (s : VState T) : Prim clean s [] { s with rDone := true }
  | sReset (s : VState T) (u v : List T) (h : u.length = v.length) : Prim clean s [] { s with
      sCached := ⟨u, v, freshIds s.sMade.length u.length⟩, sMade := s.sMade ++ List.zip u v }
  | sGrow (s : VState T) (u v : List T) (h : u.length = v.length) : Prim clean s [] { s with
      sCached := ⟨s.sCached.u ++ u, s.sCached.v ++ v, s.sCached.ids ++ freshIds s.sMade.length u.length⟩, sMade := s.sMade ++ List.zip u v }
  | sVole (s : VState T) (n : Int) (rest a : SRes T) (h : getSender s.sCached n = .ok (rest, a)) : Prim clean s [] { s with
      sCached := rest, sVole := a, sUsed := s.sUsed ++ a.ids }
  | sMpfss (s : VState T) (n : Int) (rest a : SRes T) (h : getSender s.sCached n = .ok (rest, a)) : Prim clean s [] { s with
      sCached := rest, sMpfss := a, sUsed := s.sUsed ++ a.ids }
  | sGive (s : VState T) (n : Int) (rest a : SRes T) (h : getSender s.sCached n = .ok (rest, a)) : Prim clean s [.sent a] { s with
      sCached := rest }
  | sGiveAll (s : VState T) : Prim clean s [.sent s.sCached] { s with sCached := ⟨[], [], []⟩ }
  | rJunk (s : VState T) (w : List T) (d : T) (h : clean = false) : Prim clean s [.delta d] { s with
      rCached := ⟨w, d, List.replicate w.length none⟩ }
  | rReset (s : VState T) (w : List T) (d : T) : Prim clean s [.delta d] { s with
      rCached := ⟨w, d, freshIds s.rMade.length w.length⟩, rMade := s.rMade ++ w }
  | rGarbage (s : VState T) (w : List T) (h : clean = false) : Prim clean s [] { s with
      rCached := { s.rCached with w := s.rCached.w ++ w, ids := s.rCached.ids ++ List.replicate w.length none } }
  | rGrow (s : VState T) (w : List T) : Prim clean s [] { s with
      rCached := { s.rCached with w := s.rCached.w ++ w, ids := s.rCached.ids ++ freshIds s.rMade.length w.length }, rMade := s.rMade ++ w }
  | rVole (s : VState T) (n : Int) (rest a : RRes T) (h : getReceiver s.rCached n = .ok (rest, a)) : Prim clean s [] { s with
      rCached := rest, rVole := a, rUsed := s.rUsed ++ a.ids }
  | rMpfss (s : VState T) (n : Int) (rest a : RRes T) (h : getReceiver s.rCached n = .ok (rest, a)) : Prim clean s [] { s with
      rCached := rest, rMpfss := a, rUsed := s.rUsed ++ a.ids }
  | rGive (s : VState T) (n : Int) (rest a : RRes T) (h : getReceiver s.rCached n = .ok (rest, a)) : Prim clean s [.rcvd a] { s with
      rCached := rest }
  | rGiveAll (s : VState T) : Prim clean s [.rcvd s.rCached] { s with rCached := { s.rCached with w := [], ids := [] } }

/-- Sequences of elementary changes. -/
inductive Moves (clean : Bool) : VState T → List (Ev T) → VState T → Prop
  | refl (s) : Moves clean s [] s
  | step {s l s' l' s''} : Moves clean s l s' → Prim clean s' l' s'' → Moves clean s (l ++ l') s''

theorem Moves.trans {c : Bool} {s s' s'' : VState T} {l l'} (h : Moves c s l s') (h' : Moves c s' l' s'') : Moves c s (l ++ l') s'' := by
  induction h' with
  | refl => rw [List.append_nil]; exact h
  | step _ hp ih => rw [← List.append_assoc]; exact .step ih hp

theorem Moves.prim {c : Bool} {s s' : VState T} {l} (h : Prim c s l s') : Moves c s l s' := Moves.step (.refl s) h

/-- Two silent sequences. -/
theorem Moves.then {c : Bool} {s s' s'' : VState T} {l} (h : Moves c s l s') (h' : Moves c s' [] s'') : Moves c s l s'' := by
  have := h.trans h'
  rwa [List.append_nil] at this

theorem Moves.after {c : Bool} {s s' s'' : VState T} {l} (h : Moves c s [] s') (h' : Moves c s' l s'') : Moves c s l s'' := h.trans h'

theorem Prim.dirty {c : Bool} {s s' : VState T} {l} (h : Prim c s l s') : Prim false s l s' := by
  cases h
  case adj => exact .adj ..
  case sDone => exact .sDone _
  case rDone => exact .rDone _
  case sReset h => exact .sReset _ _ _ h
  case sGrow h => exact .sGrow _ _ _ h
  case sVole h => exact .sVole _ _ _ _ h
  case sMpfss h => exact .sMpfss _ _ _ _ h
  case sGive h => exact .sGive _ _ _ _ h
  case sGiveAll => exact .sGiveAll _
  case rJunk h => exact .rJunk _ _ _ rfl
  case rReset => exact .rReset ..
  case rGarbage h => exact .rGarbage _ _ rfl
  case rGrow => exact .rGrow ..
  case rVole h => exact .rVole _ _ _ _ h
  case rMpfss h => exact .rMpfss _ _ _ _ h
  case rGive h => exact .rGive _ _ _ _ h
  case rGiveAll => exact .rGiveAll _

theorem Moves.dirty {c : Bool} {s s' : VState T} {l} (h : Moves c s l s') : Moves false s l s' := by
  induction h with
  | refl => exact .refl _
  | step _ hp ih => exact .step ih hp.dirty

/-- Other members may change in between. -/
theorem Moves.adj {c : Bool} {s s' : VState T} {l} (h : Moves c s l s') (mp co ba vs ms no po lo) : Moves c s l { s' with
      mpfss := mp, code := co, batch := ba, voleSize := vs, mpfssSize := ms, noise := no, pos := po, log := lo } :=
  h.then (.prim (.adj ..))

/-! ### The shape of the caches -/

/-- All parts of the caches have the same length. -/
structure Shape (s : VState T) : Prop where
  s1 : s.sCached.v.length = s.sCached.u.length
  s2 : s.sCached.ids.length = s.sCached.u.length
  r : s.rCached.ids.length = s.rCached.w.length

theorem freshIds_length (a n : Nat) : (freshIds a n).length = n := by simp [freshIds]

theorem Shape.prim {c : Bool} {s s' : VState T} {l} (h : Prim c s l s') (hs : Shape s) : Shape s' := by
  obtain ⟨h1, h2, h3⟩ := hs
  cases h
  case adj => exact ⟨h1, h2, h3⟩
  case sDone => exact ⟨h1, h2, h3⟩
  case rDone => exact ⟨h1, h2, h3⟩
  case sReset h => exact ⟨h.symm, by simp [freshIds_length], h3⟩
  case sGrow h => exact ⟨by simp [h1, h], by simp [h2, freshIds_length], h3⟩
  case sVole h => obtain ⟨-, -, -, rfl, -⟩ := getSender_ok h; exact ⟨by simp [h1], by simp [h2], h3⟩
  case sMpfss h => obtain ⟨-, -, -, rfl, -⟩ := getSender_ok h; exact ⟨by simp [h1], by simp [h2], h3⟩
  case sGive h => obtain ⟨-, -, -, rfl, -⟩ := getSender_ok h; exact ⟨by simp [h1], by simp [h2], h3⟩
  case sGiveAll => exact ⟨rfl, rfl, h3⟩
  case rJunk h => exact ⟨h1, h2, by simp⟩
  case rReset => exact ⟨h1, h2, by simp [freshIds_length]⟩
  case rGarbage h => exact ⟨h1, h2, by simp [h3]⟩
  case rGrow => exact ⟨h1, h2, by simp [h3, freshIds_length]⟩
  case rVole h => obtain ⟨-, -, rfl, -⟩ := getReceiver_ok h; exact ⟨h1, h2, by simp [h3]⟩
  case rMpfss h => obtain ⟨-, -, rfl, -⟩ := getReceiver_ok h; exact ⟨h1, h2, by simp [h3]⟩
  case rGive h => obtain ⟨-, -, rfl, -⟩ := getReceiver_ok h; exact ⟨h1, h2, by simp [h3]⟩
  case rGiveAll => exact ⟨h1, h2, rfl⟩

theorem Shape.moves {c : Bool} {s s' : VState T} {l} (h : Moves c s l s') (hs : Shape s) : Shape s' := by
  induction h with
  | refl => exact hs
  | step _ hp ih => exact ih.prim hp

/-- The flags are never reset. -/
theorem Prim.done {c : Bool} {s s' : VState T} {l} (h : Prim c s l s') : (s.sDone = true → s'.sDone = true) ∧ (s.rDone = true → s'.rDone = true) := by
  cases h <;> simp

theorem Moves.done {c : Bool} {s s' : VState T} {l} (h : Moves c s l s') : (s.sDone = true → s'.sDone = true) ∧ (s.rDone = true → s'.rDone = true) := by
  induction h with
  | refl => exact ⟨id, id⟩
  | step _ hp ih => exact ⟨fun h => hp.done.1 (ih.1 h), fun h => hp.done.2 (ih.2 h)⟩

end DVO.VOLE
