/-
The member functions of the vector OLE, as seen from one party.
-/
import Verif.Proofs.Moves

namespace DVO.VOLE
open MPFSS
set_option linter.unusedSectionVars false
set_option linter.unnecessarySeqFocus false
variable {T α β : Type}

/-- The library does not return `Status` objects. -/
def Lib.NoStatus (lib : Lib) : Prop := ∀ aes g lo hi c m, lib.unif aes g lo hi ≠ .err c m

theorem Lib.NoStatus.calm {lib : Lib} (h : lib.NoStatus) (aes g lo hi) : Calm (lib.unif aes g lo hi) := by
  intro c m e; exact absurd e (h aes g lo hi c m)

theorem Calm.failure {x : Out α} (h : Calm x) {e : Out Unit} (he : failure x = some e) : Calm e := by
  cases x with
  | ok => cases he
  | err c m => cases he; exact Calm.err (h _ _ rfl)
  | throws => cases he; exact Calm.throws _
  | ub => cases he; exact Calm.ub _
  | diverge => cases he; exact Calm.diverge

theorem loop_post {f : Nat → α → Out α} (Inv : Nat → α → Prop) (hf : ∀ i s r, Inv i s → f i s = .ok r → Inv (i + 1) r) :
    ∀ n lo s r, Inv lo s → loop f lo n s = .ok r → Inv (lo + n) r := by
  intro n
  induction n with
  | zero => intro lo s r hs e; cases e; exact hs
  | succ n ih =>
    intro lo s r hs e
    obtain ⟨s', e1, e2⟩ := Out.bind_eq_ok.1 e
    have := ih _ _ _ (hf _ _ _ hs e1) e2
    rwa [Nat.add_assoc, Nat.add_comm 1] at this

theorem word_calm (aes g) : Calm (word aes g) := by
  unfold word RNG.next RNG.take
  split <;> try first | exact Calm.ok _ | exact Calm.throws _ | exact Calm.ub _ | exact Calm.diverge
  next heq => split at heq <;> (try split at heq) <;> (try split at heq) <;> (try split at heq) <;> cases heq

theorem create_rng_calm (j s n) : Calm (RNG.create j s n) := by
  unfold RNG.create RNG.seed
  dsimp only
  split <;> try first | exact Calm.ok _ | exact Calm.throws _ | exact Calm.ub _ | exact Calm.diverge
  next heq => split at heq <;> cases heq; exact Calm.err (by decide)

variable [Scalar T]

theorem sampleElems_calm (lib aes n g) : Calm (sampleElems (T := T) lib aes n g) := by
  unfold sampleElems word128
  have := word_calm
  calm <;> solve_by_elim

theorem sampleCol_calm {lib : Lib} (h : lib.NoStatus) (aes r) (e : List T) (c g) : Calm (sampleCol lib aes r e c g) := by
  unfold sampleCol
  have := h.calm
  calm <;> solve_by_elim

theorem sampleCode_calm {lib : Lib} (h : lib.NoStatus) (aes r c g) : Calm (sampleCode (T := T) lib aes r c g) := by
  unfold sampleCode
  have := sampleElems_calm (T := T)
  have := sampleCol_calm (T := T) h
  calm <;> solve_by_elim

theorem sampleIndices_calm {lib : Lib} (h : lib.NoStatus) (aes o n) : ∀ f g s, Calm (sampleIndices lib aes o n f g s) := by
  have := h.calm
  intro f
  induction f with
  | zero => intro g s; exact Calm.diverge
  | succ f ih => intro g s; unfold sampleIndices; calm <;> solve_by_elim

theorem mapOut_calm {f : α → Out β} (h : ∀ a, Calm (f a)) : ∀ l, Calm (mapOut f l) := by
  intro l
  induction l with
  | nil => exact Calm.ok _
  | cons a l ih => unfold mapOut; calm <;> solve_by_elim

theorem colDot_calm (u : List T) : ∀ l, Calm (colDot u l) := by
  intro l
  induction l with
  | nil => exact Calm.ok _
  | cons a l ih => unfold colDot; calm

theorem vecMat_calm (u : List T) (c) : Calm (vecMat u c) := by
  unfold vecMat
  split
  · exact Calm.ub _
  · exact mapOut_calm (colDot_calm u) _

theorem vecOp_calm (op : T → T → T) (a b) : Calm (vecOp op a b) := by unfold vecOp; calm
theorem spread_calm (o n i) (y : List T) : Calm (spread o n i y) := by unfold spread; calm
theorem vecOf_calm (r : Rand T) (n) : Calm (vecOf r n) := by unfold vecOf; calm
theorem i32_calm (x) : Calm (i32 x) := by unfold i32; calm
theorem i64_calm (x) : Calm (i64 x) := by unfold i64; calm
theorem splitTail_calm (l : List α) (n) : Calm (splitTail l n) := by unfold splitTail; calm
theorem getSender_calm (c : SRes T) (n) : Calm (getSender c n) := by
  unfold getSender
  have := splitTail_calm (α := T)
  calm <;> solve_by_elim
theorem getReceiver_calm (c : RRes T) (n) : Calm (getReceiver c n) := by
  unfold getReceiver
  have := splitTail_calm (α := T)
  calm <;> solve_by_elim
theorem setSeg_calm (l : List α) (n y) : Calm (setSeg l n y) := by unfold setSeg; calm
theorem setTail_calm (l : List α) (n y) : Calm (setTail l n y) := by unfold setTail; calm

/-! ### Lengths -/

theorem mapOut_len {f : α → Out β} : ∀ {l r}, mapOut f l = .ok r → r.length = l.length := by
  intro l
  induction l with
  | nil => intro r h; cases h; rfl
  | cons a l ih =>
    intro r h
    obtain ⟨b, -, h⟩ := Out.bind_eq_ok.1 h
    obtain ⟨r', h1, h⟩ := Out.bind_eq_ok.1 h
    cases h
    simp [ih h1]

theorem vecMat_len {u : List T} {c r} (h : vecMat u c = .ok r) : r.length = c.cols.length := by
  unfold vecMat at h
  split at h
  · cases h
  · exact mapOut_len h

theorem vecOp_len {op : T → T → T} {a b r : List T} (h : vecOp op a b = .ok r) : r.length = a.length ∧ a.length = b.length := by
  unfold vecOp at h
  split at h
  · cases h
  · next hl => cases h; simp at hl ⊢; omega

theorem sampleCode_dims {lib aes rows cols g} {c : Sparse T} (h : sampleCode lib aes rows cols g = .ok c) :
    c.rows = rows ∧ c.cols.length = cols := by
  unfold sampleCode at h
  obtain ⟨⟨es, g1⟩, -, h⟩ := Out.bind_eq_ok.1 h
  dsimp only at h
  split at h
  · cases h
  · obtain ⟨⟨cs, g2⟩, h1, h⟩ := Out.bind_eq_ok.1 h
    cases h
    refine ⟨rfl, ?_⟩
    have h2 := fun hf => loop_post (fun i (s : List (List (Nat × T)) × RNG.Gen) => s.1.length = i) hf cols 0 ([], g1) (cs, g2) rfl h1
    have := h2 (by
      rintro i ⟨s, g⟩ r hi e
      obtain ⟨⟨c, g'⟩, -, e⟩ := Out.bind_eq_ok.1 e
      cases e
      simpa using hi)
    simpa using this

/-- What holds of the result if the program succeeds. -/
def PostP (p : PM (Msg T) α) (Q : α → Prop) : Prop := ∀ a, Returns (α := Out α) p (.ok a) → Q a

theorem PostP.bind {Q : β → Prop} (p : PM (Msg T) α) {f : α → PM (Msg T) β} (h : ∀ a, PostP (f a) Q) : PostP (p >>= f) Q := by
  intro b hr
  obtain ⟨x, h1, h2⟩ := Returns.bind (M := Msg T) hr
  cases x with
  | ok a => exact h a b h2
  | err => cases h2
  | throws => cases h2
  | ub => cases h2
  | diverge => cases h2

theorem PostP.lift {Q : α → Prop} {x : Out α} (h : ∀ a, x = .ok a → Q a) : PostP (PM.lift x : PM (Msg T) α) Q := by
  intro a hr
  generalize hy : (Out.ok a : Out α) = y at hr
  cases hr
  exact h a hy.symm

theorem PostP.fail {Q : α → Prop} {x : Out α} (h : failure x ≠ none := by exact Option.some_ne_none _) : PostP (PM.lift x : PM (Msg T) α) Q :=
  PostP.lift (fun a e => by subst e; exact absurd rfl h)

theorem PostP.ite {Q : α → Prop} {c : Prop} [Decidable c] {p q : PM (Msg T) α} (hp : PostP p Q) (hq : PostP q Q) : PostP (if c then p else q) Q := by
  split
  · exact hp
  · exact hq

theorem gilboa_len {c sec} {x : T} {o r : List T} (h : Returns (α := Out (List T)) (Gilboa.runValueProvider c sec x o) (.ok r)) : r.length = o.length := by
  have wlen : ∀ {l r : List T} {i a}, wr l i a = .ok r → r.length = l.length := by
    intro l r i a h
    unfold wr at h
    split at h
    · cases h; simp
    · cases h
  have acc : ∀ {op : T → T → T} {ot n k} {o r : List T}, Gilboa.accumulate op ot n k o = .ok r → r.length = o.length := by
    intro op ot n k o r h
    unfold Gilboa.accumulate at h
    refine loop_post (fun _ s => s.length = o.length) ?_ _ _ _ _ rfl h
    intro i s r hs h
    refine loop_post (fun _ s => s.length = o.length) ?_ _ _ _ _ hs h
    intro i s r hs h
    obtain ⟨b, -, h⟩ := Out.bind_eq_ok.1 h
    obtain ⟨d, -, h⟩ := Out.bind_eq_ok.1 h
    refine loop_post (fun _ s => s.length = o.length) ?_ _ _ _ _ hs h
    intro i s r hs h
    obtain ⟨b, -, h⟩ := Out.bind_eq_ok.1 h
    obtain ⟨d, -, h⟩ := Out.bind_eq_ok.1 h
    rw [wlen h, hs]
  revert h
  suffices H : PostP (Gilboa.runValueProvider c sec x o) (fun r => r.length = o.length) from H r
  unfold Gilboa.runValueProvider
  dsimp only
  refine PostP.ite PostP.fail ?_
  refine PostP.ite PostP.fail ?_
  refine PostP.bind _ (fun n => PostP.ite PostP.fail ?_)
  refine PostP.bind _ (fun cs => PostP.bind _ (fun ot => PostP.lift (fun r h => ?_)))
  have := acc h
  simpa using this

theorem value_hasher {aes fl c sec key seed thr} {st : State} {x : T} {yLen : Int} {w output : List T} {r : Res T}
    (h : Returns (runValueProviderVectorOLE aes fl c sec key seed thr st x yLen w output) r) : r.st.hasher = st.hasher := by
  have : (MPFSS.updateBuckets thr st output.length yLen).2.hasher = st.hasher := by
    unfold MPFSS.updateBuckets
    split
    · split <;> rfl
    · rfl
  rcases value_st h with e | e <;> rw [e]
  exact this

theorem updateBuckets_hasher (thr) (st : State) (o n) : (MPFSS.updateBuckets thr st o n).2.hasher = st.hasher := by
  unfold MPFSS.updateBuckets
  split
  · split <;> rfl
  · rfl

theorem index_hasher {aes fl c thr} {st : State} {y : List T} {indices : List Int} {u v output : List T} {r : Res T}
    (h : Returns (runIndexProviderVectorOLE aes fl c thr st y indices u v output) r) : r.st.hasher = st.hasher := by
  rcases index_st h with e | e <;> rw [e]
  exact updateBuckets_hasher _ _ _ _

end DVO.VOLE
