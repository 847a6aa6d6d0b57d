/-
Properties of the vector OLE: histories of matching calls by two parties (C29, C34, C35, C60).
-/
import Verif.Proofs.VOLE8
import Verif.Props.Scalar

namespace DVO.VOLE
open Net MPFSS
variable {T : Type} [Scalar T] [LawfulScalar T]

/-- The state of a newly created object. -/
def created (h : Cuckoo.Hasher) (junk : T) : VState T := VState.new (MPFSS.State.new h) junk

/-- Both parties make the calls `ops`, starting with new objects. -/
def bothPlay (h : Cuckoo.Hasher) (A B : Env T) (junk junk' : T) (ops : List (Op T)) :
    Net (Msg T) (Out (List (Answer T)) × VState T) (Out (List (Answer T)) × VState T) :=
  init (play A true ops (created h junk)) (play B false ops (created h junk'))

/-- What is common to the theorems on histories. -/
theorem history_pair {P : Out Unit → Prop} {h : Cuckoo.Hasher} {A B : Env T} (hP : ∀ o, Expected o → ¬ (Smooth h A ∧ Smooth h B) → P o)
    (W : Together h A B) (junk junk' : T) (ops : List (Op T)) (hops : ∀ op ∈ ops, op.Small) (hex : ∀ op ∈ ops, Excused A B P op)
    (hdir : P (.err .internal wrongDims) ∨ (∀ op ∈ ops, op.fwd = true) ∨ (∀ op ∈ ops, op.fwd = false)) :
    Pair P (play A true ops (created h junk)) (play B false ops (created h junk')) (fun as s bs r => Answers ops none none as bs ∧ InStep s r) := by
  refine (play_pair hP W ops (Hist.new (Coherent.new h) (Coherent.new h) junk junk' _) ?_ hops hex).mono ?_
  · exact hdir.imp id (Or.imp (fun x => ⟨x, rfl⟩) (fun x => ⟨x, rfl⟩))
  · rintro as s bs r ⟨h1, df, db, H⟩
    exact ⟨h1, H.step⟩

/-! ### C29 -/

/-- C29: two parties make any sequence of matching calls, in any mixture of roles, in any
    interleaving, and all calls of both return OK. Then every pair of runs returns vectors with
    `w[k] = u[k] * delta + v[k]` for all `k`, of the requested length, where `delta` is what the last
    precomputation was given, and the same for all runs between two precomputations. -/
theorem C29_correlation {h : Cuckoo.Hasher} {A B : Env T} (W : Together h A B) (junk junk' : T) (ops : List (Op T))
    (hops : ∀ op ∈ ops, op.Small) {n : Nat} {st} (hst : Steps n (bothPlay h A B junk junk' ops) st)
    {as bs : List (Answer T)} {s r : VState T} (hp : st.p = .ret (.ok as, s)) (hq : st.q = .ret (.ok bs, r)) :
    Answers ops none none as bs := by
  have H := history_pair (P := fun _ => True) (fun _ _ _ => trivial) W junk junk' ops hops (by
    intro op _
    cases op with
    | precompute => exact .inr trivial
    | precomputeRandom => exact .inr trivial
    | run => exact ⟨.inr trivial, .inl trivial⟩) (.inl trivial)
  rcases H.reached hst hp hq with ⟨a, b, e1, e2, h1, -⟩ | hb | hb
  · cases e1; cases e2; exact h1
  · exact absurd hb id
  · exact absurd hb id

/-- C29: nothing but an error (or an exception, or divergence) of one of the parties can prevent
    success: if no step is possible any more, both have finished all calls, or one of them has
    stopped with one of these outcomes, which is not undefined behaviour. In particular the two
    parties never wait for each other. -/
theorem C29_no_deadlock {h : Cuckoo.Hasher} {A B : Env T} (W : Together h A B) (junk junk' : T) (ops : List (Op T))
    (hops : ∀ op ∈ ops, op.Small) {n : Nat} {st} (hst : Steps n (bothPlay h A B junk junk' ops) st) (hno : ∀ t, ¬ Step st t) :
    (∃ as s bs r, st.p = .ret (.ok as, s) ∧ st.q = .ret (.ok bs, r) ∧ Answers ops none none as bs ∧ InStep s r) ∨
    (∃ o s, st.p = .ret (o, s) ∧ Bad (fun _ => True) o) ∨ (∃ o r, st.q = .ret (o, r) ∧ Bad (fun _ => True) o) := by
  have H := history_pair (P := fun _ => True) (fun _ _ _ => trivial) W junk junk' ops hops (by
    intro op _
    cases op with
    | precompute => exact .inr trivial
    | precomputeRandom => exact .inr trivial
    | run => exact ⟨.inr trivial, .inl trivial⟩) (.inl trivial)
  exact H.stopped hst hno

/-! ### C34 -/

/-- C34: after any sequence of matching calls that all return OK, both parties have the same number
    of cached elements, the same batch size, seed sizes and noise parameter, identical code
    generators, and have made the same expansions. -/
theorem C34_lock_step {h : Cuckoo.Hasher} {A B : Env T} (W : Together h A B) (junk junk' : T) (ops : List (Op T))
    (hops : ∀ op ∈ ops, op.Small) {n : Nat} {st} (hst : Steps n (bothPlay h A B junk junk' ops) st)
    {as bs : List (Answer T)} {s r : VState T} (hp : st.p = .ret (.ok as, s)) (hq : st.q = .ret (.ok bs, r)) : InStep s r := by
  have H := history_pair (P := fun _ => True) (fun _ _ _ => trivial) W junk junk' ops hops (by
    intro op _
    cases op with
    | precompute => exact .inr trivial
    | precomputeRandom => exact .inr trivial
    | run => exact ⟨.inr trivial, .inl trivial⟩) (.inl trivial)
  rcases H.reached hst hp hq with ⟨a, b, e1, e2, -, h1⟩ | hb | hb
  · cases e1; cases e2; exact h1
  · exact absurd hb id
  · exact absurd hb id

/-! ### C60 -/

/-- Valid arguments: positive sizes, not too large for `int64_t`; the model lets loops run long
    enough. -/
def Op.Valid (fuel : Nat) : Op T → Prop
  | .precompute _ b _ => 1 ≤ b ∧ b < 2 ^ 62
  | .precomputeRandom _ b => 1 ≤ b ∧ b < 2 ^ 62
  | .run _ n => 1 ≤ n ∧ n < 2 ^ 62 ∧ n + 2 ≤ fuel

/-- C60: if nothing goes wrong in the probabilistic parts of the protocol, then all calls of any
    sequence of matching calls with valid arguments in which one party is always the sender return OK
    on both sides, with correlated results, in every interleaving. -/
theorem C60_progress {h : Cuckoo.Hasher} {A B : Env T} (W : Together h A B) (SA : Smooth h A) (SB : Smooth h B) (junk junk' : T)
    (ops : List (Op T)) (hops : ∀ op ∈ ops, op.Valid A.fuel ∧ op.Valid B.fuel)
    (hdir : (∀ op ∈ ops, op.fwd = true) ∨ (∀ op ∈ ops, op.fwd = false)) :
    ∃ as s bs r va vb, Computes (play A true ops (created h junk)) (play B false ops (created h junk')) (.ok as, s) (.ok bs, r) va vb ∧
      Answers ops none none as bs ∧ InStep s r := by
  refine (history_pair (P := fun _ => False) (fun _ _ hn => hn ⟨SA, SB⟩) W junk junk' ops ?_ ?_ (.inr hdir)).false
  · intro op hop
    have h1 := (hops op hop).1
    cases op with
    | precompute => exact h1.2
    | precomputeRandom => exact h1.2
    | run => exact ⟨by have := h1.1; omega, h1.2.1⟩
  · intro op hop
    obtain ⟨h1, h2⟩ := hops op hop
    cases op with
    | precompute => exact .inl h1.1
    | precomputeRandom => exact .inl h1.1
    | run f n =>
      refine ⟨.inl h1.1, .inr ⟨?_, ?_⟩⟩
      · have := h1.1; have := h1.2.2; omega
      · have := h2.1; have := h2.2.2; omega

/-- A history with both kinds of precomputation and runs that need several expansions. -/
def exOps (f : Bool) : List (Op (BitVec 64)) :=
  [.run f 5, .run f 100000, .precompute f 3000 42, .run f 10000, .run f 1, .precomputeRandom f 11000000, .run f 20000000, .run f 7]

/-- The hypotheses are satisfiable: all of `exOps` succeeds, in both directions. -/
theorem exOps_succeeds (f : Bool) : ∃ as s bs r va vb, Computes (play (toyEnv true 1 30000000) true (exOps f) (created toyHasher 0))
      (play (toyEnv false 2 30000000) false (exOps f) (created toyHasher 7)) (.ok as, s) (.ok bs, r) va vb ∧
      Answers (exOps f) none none as bs ∧ InStep s r := by
  refine C60_progress (toy_together 1 2 _ _) (toy_smooth _ _ _ (by omega)) (toy_smooth _ _ _ (by omega)) 0 7 (exOps f) ?_ ?_
  · intro op hop
    simp only [exOps, List.mem_cons, List.not_mem_nil, or_false] at hop
    rcases hop with rfl | rfl | rfl | rfl | rfl | rfl | rfl | rfl <;> simp [Op.Valid, toyEnv]
  · cases f
    · right; intro op hop
      simp only [exOps, List.mem_cons, List.not_mem_nil, or_false] at hop
      rcases hop with rfl | rfl | rfl | rfl | rfl | rfl | rfl | rfl <;> rfl
    · left; intro op hop
      simp only [exOps, List.mem_cons, List.not_mem_nil, or_false] at hop
      rcases hop with rfl | rfl | rfl | rfl | rfl | rfl | rfl | rfl <;> rfl

/-- So the hypotheses of `C29_correlation` and `C34_lock_step` are satisfiable, too: there are
    interleavings after which both parties have finished. -/
example (f : Bool) : ∃ (n : Nat) (st : _), Steps n (bothPlay toyHasher (toyEnv true 1 30000000) (toyEnv false 2 30000000) 0 7 (exOps f)) st ∧
    ∃ as s bs r, st.p = .ret (.ok as, s) ∧ st.q = .ret (.ok bs, r) := by
  obtain ⟨as, s, bs, r, va, vb, h, -, -⟩ := exOps_succeeds f
  obtain ⟨n, hn⟩ := h.joint
  exact ⟨n, _, hn, as, s, bs, r, rfl, rfl⟩

end DVO.VOLE
