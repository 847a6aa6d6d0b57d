/-
Outcome monad, checked array access and counted loops used by the whole model.
-/
namespace DVO

/-- Status codes of `mpc_utils::Status` that the repository uses
    (mpc_utils/canonical_errors.h, as included e.g. in cuckoo_hasher.h:36). -/
inductive Code
  | invalidArgument
  | internal
  | outOfRange
  | unimplemented
deriving DecidableEq, Repr

/-- Result of running a piece of C++ code.
    `ok a`       normal return (for `Status`/`StatusOr`: an OK status)
    `err c m`    a non-OK `mpc_utils::Status` with code `c` and message `m`
    `throws m`   a C++ exception
    `ub why`     undefined behaviour or a failed `assert`
    `diverge`    a `while` loop that did not stop within the fuel given to the model
    (What a call such as ggm_tree.cpp:95-121 can do.) -/
inductive Out (α : Type u)
  | ok (a : α)
  | err (c : Code) (m : String)
  | throws (m : String)
  | ub (why : String)
  | diverge
deriving DecidableEq, Repr

namespace Out

/-- Sequencing with early return, e.g. ggm_tree.cpp:105. -/
protected def bind {α : Type u} {β : Type v} : Out α → (α → Out β) → Out β
  | ok a, f => f a
  | err c m, _ => err c m
  | throws m, _ => throws m
  | ub w, _ => ub w
  | diverge, _ => diverge

/-- Sequencing with early return, e.g. ggm_tree.cpp:105. -/
instance : Monad Out where
  pure := ok
  bind := Out.bind

@[simp] theorem pure_eq {α : Type u} (a : α) : (pure a : Out α) = ok a := rfl
@[simp] theorem ok_bind {α β : Type u} (a : α) (f : α → Out β) : (ok a >>= f) = f a := rfl
@[simp] theorem err_bind {α β : Type u} (c m) (f : α → Out β) : ((err c m : Out α) >>= f) = err c m := rfl
@[simp] theorem ub_bind {α β : Type u} (w) (f : α → Out β) : ((ub w : Out α) >>= f) = ub w := rfl
@[simp] theorem throws_bind {α β : Type u} (w) (f : α → Out β) :
    ((throws w : Out α) >>= f) = throws w := rfl
@[simp] theorem diverge_bind {α β : Type u} (f : α → Out β) :
    ((diverge : Out α) >>= f) = diverge := rfl

/-- (No code; the laws of early return, e.g. ggm_tree.cpp:105.) -/
instance : LawfulMonad Out := LawfulMonad.mk' _
  (by intro α x; cases x <;> rfl)
  (by intros; rfl)
  (by intro α β γ x f g; cases x <;> rfl)

/-- The call neither hit undefined behaviour nor failed an assertion.
    (No code; said of a call such as ggm_tree.cpp:123-194.) -/
def NoUB {α : Type u} : Out α → Prop
  | ub _ => False
  | _ => True

/-- (No code; said of a call such as ggm_tree.cpp:123-194.) -/
instance {α : Type u} : (x : Out α) → Decidable x.NoUB
  | ok _ | err _ _ | throws _ | diverge => isTrue trivial
  | ub _ => isFalse id

/-- The call returned with an OK status. (`status.ok()`, e.g. all_but_one_random_ot.cpp:124-128.) -/
def isOk {α : Type u} : Out α → Bool
  | ok _ => true
  | _ => false

theorem bind_eq_ok {α β : Type u} {x : Out α} {f : α → Out β} {b : β} :
    (x >>= f) = ok b ↔ ∃ a, x = ok a ∧ f a = ok b := by
  cases x <;> simp

end Out

/-- `v[i]` on a `std::vector`/`absl::Span`; out of range is undefined behaviour. (E.g. ggm_tree.cpp:64-82.) -/
def rd {α : Type u} (l : List α) (i : Nat) : Out α :=
  match l[i]? with
  | some a => .ok a
  | none => .ub "read out of bounds"

/-- `v[i] = a`; out of range is undefined behaviour. (E.g. ggm_tree.cpp:64-82.) -/
def wr {α : Type u} (l : List α) (i : Nat) (a : α) : Out (List α) :=
  if i < l.length then .ok (l.set i a) else .ub "write out of bounds"

/-- `v[i][j]`. (E.g. ggm_tree.cpp:64-82.) -/
def rd2 {α : Type u} (l : List (List α)) (i j : Nat) : Out α := do
  let row ← rd l i
  rd row j

/-- `v[i][j] = a`. (E.g. ggm_tree.cpp:40-61.) -/
def wr2 {α : Type u} (l : List (List α)) (i j : Nat) (a : α) : Out (List (List α)) := do
  let row ← rd l i
  let row' ← wr row j a
  wr l i row'

/-- `v[i]` with a signed index; a negative index is out of bounds. (E.g. spfss_known_index.h:161-166.) -/
def rdI {α : Type u} (l : List α) (i : Int) : Out α :=
  if i < 0 then .ub "negative index" else rd l i.toNat

/-- `for (i = lo; i < lo + n; i++) s = f(i, s)`. (E.g. ggm_tree.cpp:64-82.) -/
def loop {σ : Type u} (f : Nat → σ → Out σ) : (lo n : Nat) → σ → Out σ
  | _, 0, s => .ok s
  | lo, n + 1, s => f lo s >>= loop f (lo + 1) n

theorem rd_eq_ok {α : Type u} {l : List α} {i : Nat} {a : α} :
    rd l i = .ok a ↔ l[i]? = some a := by
  unfold rd; split <;> simp_all

theorem rd_of_lt {α : Type u} {l : List α} {i : Nat} (h : i < l.length) :
    rd l i = .ok l[i] := by
  rw [rd_eq_ok]; simp [h]

theorem wr_of_lt {α : Type u} {l : List α} {i : Nat} (a : α) (h : i < l.length) :
    wr l i a = .ok (l.set i a) := by
  simp [wr, h]

/-- Loop rule: an invariant indexed by the counter. -/
theorem loop_inv {σ : Type u} (f : Nat → σ → Out σ) (Inv : Nat → σ → Prop) (lo n : Nat) (s : σ)
    (h0 : Inv lo s)
    (hstep : ∀ i s, lo ≤ i → i < lo + n → Inv i s → ∃ s', f i s = .ok s' ∧ Inv (i + 1) s') :
    ∃ s', loop f lo n s = .ok s' ∧ Inv (lo + n) s' := by
  induction n generalizing lo s with
  | zero => exact ⟨s, rfl, by simpa using h0⟩
  | succ n ih =>
    obtain ⟨s1, h1, hi1⟩ := hstep lo s (Nat.le_refl _) (by omega) h0
    obtain ⟨s2, h2, hi2⟩ := ih (lo + 1) s1 hi1
      (fun i s hl hu hi => hstep i s (by omega) (by omega) hi)
    exact ⟨s2, by simp [loop, h1, h2], by rw [show lo + (n + 1) = lo + 1 + n by omega]; exact hi2⟩

/-- Exact result of a loop from an invariant. -/
theorem loop_eq {σ : Type} {f : Nat → σ → Out σ} {lo n : Nat} {s r : σ} (Inv : Nat → σ → Prop)
    (h0 : Inv lo s)
    (hstep : ∀ i s, lo ≤ i → i < lo + n → Inv i s → ∃ s', f i s = .ok s' ∧ Inv (i + 1) s')
    (hfin : ∀ s, Inv (lo + n) s → s = r) : loop f lo n s = .ok r := by
  obtain ⟨t, h1, h2⟩ := loop_inv f Inv lo n s h0 hstep
  rw [h1, hfin t h2]

/-- Two loops whose bodies agree on the states reached are equal. -/
theorem loop_congr {σ : Type u} {f g : Nat → σ → Out σ} (lo n : Nat) (s : σ)
    (h : ∀ i s, lo ≤ i → i < lo + n → f i s = g i s) : loop f lo n s = loop g lo n s := by
  induction n generalizing lo s with
  | zero => rfl
  | succ n ih =>
    simp only [loop]
    rw [h lo s (Nat.le_refl _) (by omega)]
    congr 1
    funext s'
    exact ih (lo + 1) s' (fun i s h1 h2 => h i s (by omega) (by omega))

end DVO
