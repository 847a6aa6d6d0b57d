/-
Property C49: results do not depend on scheduling.
-/
import Verif.Net

namespace DVO
open Net

/-- C49: if some interleaving lets both parties finish with results `a`, `b` and nothing left in
    flight, then every interleaving is finite, can always be continued, and ends in exactly that
    way. -/
theorem C49_schedule_independent {M α β : Type} (p : Proc M α) (q : Proc M β) (a : α) (b : β)
    (va vb : List (Event M)) (n : Nat) (h : Steps n (init p q) (final a b va vb)) :
    (∀ k s, Steps k (init p q) s → k ≤ n ∧ Steps (n - k) s (final a b va vb)) ∧
    (∀ k s, Steps k (init p q) s → (∀ t, ¬ Step s t) → k = n ∧ s = final a b va vb) := by
  have h1 : ∀ k s, Steps k (init p q) s → k ≤ n ∧ Steps (n - k) s (final a b va vb) :=
    fun k s hs => normal_form (fun t => final_no_step) h hs
  refine ⟨h1, ?_⟩
  intro k s hs hn
  obtain ⟨h2, h3⟩ := h1 k s hs
  cases hnk : n - k with
  | zero => rw [hnk] at h3; cases h3; exact ⟨by omega, rfl⟩
  | succ m => rw [hnk] at h3; cases h3 with | succ h4 _ => exact absurd h4 (hn _)

/-- Deadlocks do not depend on scheduling either: if some interleaving gets stuck in `s`, every
    interleaving ends in `s`. -/
theorem C49_deadlock_independent {M α β : Type} (p : Proc M α) (q : Proc M β) (s : Net M α β) (n : Nat)
    (h : Steps n (init p q) s) (hs : Stuck s) :
    ∀ k t, Steps k (init p q) t → k ≤ n ∧ Steps (n - k) t s :=
  fun _ _ ht => normal_form hs.1 h ht

/-- Two parties that exchange messages: the second sends first or last, the result is the same. -/
example : ∀ k s, Steps k (init (.send 0 5 (.recv 0 (fun x => .ret (x + 1))) : Proc Nat Nat)
      (.send 0 7 (.recv 0 (fun x => .ret (x * 2))) : Proc Nat Nat)) s → k ≤ 4 ∧
      Steps (4 - k) s (final 8 10 [.sent 0 5, .rcvd 0 7] [.sent 0 7, .rcvd 0 5]) := by
  apply (C49_schedule_independent _ _ _ _ _ _ 4 _).1
  refine Steps.succ (.pSend ..) (Steps.succ (.qSend ..) (Steps.succ (.pRecv _ 7 [] _ _ _ _ _ _ (by simp [init]))
        (Steps.succ (.qRecv _ 5 [] _ _ _ _ _ _ (by simp [init])) ?_)))
  simp only [init, Function.update_idem, Function.update_self]
  simp [final]
  exact .zero _

/-- Two parties that both start by receiving are stuck. -/
example : Stuck (init (.recv 0 (fun x => .ret x) : Proc Nat Nat) (.recv 0 (fun x => .ret x) : Proc Nat Nat)) := by
  refine ⟨?_, ?_⟩
  · intro t h
    cases h with
    | pRecv _ _ _ _ _ _ _ _ _ h => simp [init] at h
    | qRecv _ _ _ _ _ _ _ _ _ h => simp [init] at h
  · rintro ⟨a, b, h, _⟩; cases h

end DVO
