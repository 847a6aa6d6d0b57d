/-
C78: several `DistributedVectorOLE` objects over the same connection.
-/
import Verif.Spec.Several
import Verif.Props.Formulas

namespace DVO.Several
open Net VOLE Create MPFSS Cuckoo

theorem _root_.DVO.Net.Pair.andThen {M α β γ δ S S' R R' : Type} {P : Out Unit → Prop} {p : Proc M (Out α × S)} {q : Proc M (Out β × S')} {back : S → R} {back' : S' → R'}
    {f : α → S → Proc M (Out γ × R)} {g : β → S' → Proc M (Out δ × R')} {Mid : α → S → β → S' → Prop} {Post : γ → R → δ → R' → Prop}
    (h : Pair P p q Mid) (hk : ∀ a s b t, Mid a s b t → Pair P (f a s) (g b t) Post) : Pair P (andThen p back f) (andThen q back' g) Post := by
  rcases h with ⟨a, s, b, t, va, vb, h1, h2⟩ | ⟨n, st, h1, h2⟩
  · exact Pair.after h1 (hk a s b t h2)
  · refine .inr ⟨n, _, h1.lift _ _, ?_⟩
    rcases h2 with ⟨o, r, e, hb⟩ | ⟨o, r, e, hb⟩
    · refine .inl ?_
      simp only [Net.lift, e, Proc.bind]
      cases o with
      | ok a => exact absurd hb id
      | ub w => exact absurd hb id
      | err c m => exact ⟨_, _, rfl, hb⟩
      | throws m => exact ⟨_, _, rfl, hb⟩
      | diverge => exact ⟨_, _, rfl, hb⟩
    · refine .inr ?_
      simp only [Net.lift, e, Proc.bind]
      cases o with
      | ok a => exact absurd hb id
      | ub w => exact absurd hb id
      | err c m => exact ⟨_, _, rfl, hb⟩
      | throws m => exact ⟨_, _, rfl, hb⟩
      | diverge => exact ⟨_, _, rfl, hb⟩

variable {T : Type} [Scalar T]

/-- The environment of an object after `Create`. -/
def Side.after (X : Side T) (f : Nat → ℚ) (j : Nat) : Env T := { X.env j with sec := (some (f j) : Sec).map (· * 3) }

/-- The hasher of object `j`. -/
def hasherOf (bits : Sec → Nat → Nat → Nat → Bool) (optimal : Sec → Nat → Nat → Int) (X Y : Side T) (f : Nat → ℚ) (j : Nat) : Hasher :=
  commonHasher bits optimal X.party (X.seed j) (Y.seed j) (some (f j)) (X.env j).aes

/-- The invariant of one object. -/
def Slot (h : Hasher) (Q : Prop) (A B : Env T) (dir L : Bool) (D : Option T × Option T) (o o' : Option (Env T × VState T)) : Prop :=
  (L = false ∧ o = none ∧ o' = none) ∨
  ∃ s r, o = some (A, s) ∧ o' = some (B, r) ∧ Hist h Q D.1 D.2 s r ∧ (Q ∨ (dir = true ∧ D.2 = none) ∨ (dir = false ∧ D.1 = none))

variable [LawfulScalar T]

/-- Any program with several objects. -/
theorem many_pair {P : Out Unit → Prop} {bits : Sec → Nat → Nat → Nat → Bool} {optimal : Sec → Nat → Nat → Int} {X Y : Side T} {f : Nat → ℚ}
    (hW : ∀ j, World X.party Y.party (X.env j) (Y.env j)) (hf : ∀ j, 1 ≤ f j)
    (hT : ∀ j, Together (hasherOf bits optimal X Y f j) (X.after f j) (Y.after f j))
    (hP : ∀ j o, Expected o → ¬ (Smooth (hasherOf bits optimal X Y f j) (X.after f j) ∧ Smooth (hasherOf bits optimal X Y f j) (Y.after f j)) → P o) {dir : Nat → Bool}
    (acts : List (Act T)) : ∀ {L : Nat → Bool} {D : Nat → Option T × Option T} {O O' : Objects T},
    (∀ j, Slot (hasherOf bits optimal X Y f j) (P (.err .internal wrongDims)) (X.after f j) (Y.after f j) (dir j) (L j) (D j) (O j) (O' j)) → Alive acts L →
    (∀ j op, .call j op ∈ acts → op.Small ∧ Excused (X.after f j) (Y.after f j) P op ∧ (P (.err .internal wrongDims) ∨ op.fwd = dir j)) →
    Pair P (many bits optimal X (fun j => some (f j)) true acts O) (many bits optimal Y (fun j => some (f j)) false acts O')
      (fun as O bs O' => Results acts D as bs ∧ InStepAll O O') := by
  induction acts with
  | nil =>
    intro L D O O' H _ _
    refine Pair.ret ⟨⟨rfl, rfl⟩, fun j => ?_⟩
    rcases H j with ⟨-, h1, h2⟩ | ⟨s, r, h1, h2, h3, -⟩
    · exact .inl ⟨h1, h2⟩
    · exact .inr ⟨_, s, _, r, h1, h2, h3.step⟩
  | cons act acts ih =>
    intro L D O O' H hl hc
    have hc' : ∀ j op, .call j op ∈ acts → op.Small ∧ Excused (X.after f j) (Y.after f j) P op ∧ (P (.err .internal wrongDims) ∨ op.fwd = dir j) :=
      fun j op h => hc j op (List.mem_cons_of_mem _ h)
    cases act with
    | create j =>
      obtain ⟨va, vb, J⟩ := vole_joint (T := T) (X.env j).aes bits optimal (hW j).peers (X.seed j) (Y.seed j) (X.env j).c (sec := some (f j))
        (by rintro _ ⟨⟩; exact hf j)
      have e : (voleCreate (Y.env j).aes bits optimal Y.party (Y.seed j) (some (Y.env j).c) (some (f j)) : PM (Msg T) _) =
          voleCreate (X.env j).aes bits optimal Y.party (Y.seed j) (some (X.env j).c) (some (f j)) := by rw [(hW j).aes, (hW j).chans]
      unfold many
      rw [e]
      refine Pair.after J (ih (L := Function.update L j true) (D := Function.update D j (none, none)) (fun i => ?_) hl hc')
      by_cases hi : i = j
      · subst hi
        rw [Function.update_self, Function.update_self, Function.update_self, Function.update_self]
        refine .inr ⟨_, _, rfl, rfl, Hist.new (Coherent.new _) (Coherent.new _) _ _ _, .inr ?_⟩
        cases dir i
        · exact .inr ⟨rfl, rfl⟩
        · exact .inl ⟨rfl, rfl⟩
      · rw [Function.update_of_ne hi, Function.update_of_ne hi, Function.update_of_ne hi, Function.update_of_ne hi]
        exact H i
    | call j op =>
      obtain ⟨hlj, hl⟩ := hl
      obtain ⟨hop, hex, hdir⟩ := hc j op (List.mem_cons_self ..)
      rcases H j with ⟨h0, -, -⟩ | ⟨s, r, h1, h2, h3, h4⟩
      · rw [hlj] at h0; cases h0
      unfold many
      rw [h1, h2]
      dsimp only
      have next : ∀ (d : Option T × Option T) s' r', Hist (hasherOf bits optimal X Y f j) (P (.err .internal wrongDims)) d.1 d.2 s' r' →
          (P (.err .internal wrongDims) ∨ (dir j = true ∧ d.2 = none) ∨ (dir j = false ∧ d.1 = none)) → ∀ i,
          Slot (hasherOf bits optimal X Y f i) (P (.err .internal wrongDims)) (X.after f i) (Y.after f i) (dir i) (L i) (Function.update D j d i)
            (Function.update O j (some (X.after f j, s')) i) (Function.update O' j (some (Y.after f j, r')) i) := by
        intro d s' r' h5 h6 i
        by_cases hi : i = j
        · subst hi
          rw [Function.update_self, Function.update_self, Function.update_self]
          exact .inr ⟨s', r', rfl, rfl, h5, h6⟩
        · rw [Function.update_of_ne hi, Function.update_of_ne hi, Function.update_of_ne hi]
          exact H i
      by_cases hf : op.fwd = true
      · rw [if_pos hf, if_neg (by rw [hf]; exact Bool.noConfusion)]
        have hq : P (.err .internal wrongDims) ∨ (dir j = true ∧ (D j).2 = none) := by
          rcases h4 with h4 | h4 | ⟨h4, -⟩
          · exact .inl h4
          · exact .inr h4
          · rcases hdir with hd | hd
            · exact .inl hd
            · rw [hf, h4] at hd; cases hd
        refine Pair.andThen (op_pair (hP j) (hT j) h3 (hq.imp_right And.right) hop hex) ?_
        rintro a s' b r' ⟨d, e1, e2⟩
        refine Pair.andThen (ih (next (some d, (D j).2) s' r' e2 (hq.imp_right .inl)) hl hc') ?_
        rintro as O1 bs O2 ⟨e3, e4⟩
        refine Pair.ret ⟨⟨a, as, b, bs, d, rfl, rfl, ?_⟩, e4⟩
        rw [if_pos hf]
        exact ⟨e1, e3⟩
      · have hf' : op.fwd = false := by simpa using hf
        rw [if_neg hf, if_pos hf']
        have hq : P (.err .internal wrongDims) ∨ (dir j = false ∧ (D j).1 = none) := by
          rcases h4 with h4 | ⟨h4, -⟩ | h4
          · exact .inl h4
          · rcases hdir with hd | hd
            · exact .inl hd
            · rw [hf', h4] at hd; cases hd
          · exact .inr h4
        refine Pair.andThen ((op_pair (fun o h1 h2 => hP j o h1 (fun S => h2 S.symm)) (hT j).swap h3.swap (hq.imp_right And.right) hop hex.swap).swap) ?_
        rintro b s' a r' ⟨d, e1, e2⟩
        refine Pair.andThen (ih (next ((D j).1, some d) s' r' e2.swap (hq.imp_right .inr)) hl hc') ?_
        rintro as O1 bs O2 ⟨e3, e4⟩
        refine Pair.ret ⟨⟨b, as, a, bs, d, rfl, rfl, ?_⟩, e4⟩
        rw [if_neg hf]
        exact ⟨e1, e3⟩

/-- No objects yet. -/
def noObjects : Objects T := fun _ => none

/-- Both programs, starting without objects. -/
def bothMany (bits : Sec → Nat → Nat → Nat → Bool) (optimal : Sec → Nat → Nat → Int) (X Y : Side T) (f : Nat → ℚ) (acts : List (Act T)) :
    Net (Msg T) (Out (List (Answer T)) × Objects T) (Out (List (Answer T)) × Objects T) :=
  init (many bits optimal X (fun j => some (f j)) true acts noObjects) (many bits optimal Y (fun j => some (f j)) false acts noObjects)

/-- C78: two programs create any number of objects over the same connection, each with up to 128 bits of statistical security, and make any sequence of matching
    calls, in any mixture of objects and roles and in any interleaving. If all calls return OK, then the results of each object are vector OLE correlations with the
    `delta` of that object. The programs never wait for each other forever: if no step is possible any more, both have finished, or one has stopped with an
    error (or an exception, or divergence). -/
theorem C78_correlation {bits : Sec → Nat → Nat → Nat → Bool} {optimal : Sec → Nat → Nat → Int} (H : Faithful optimal) {X Y : Side T} {f : Nat → ℚ}
    (hW : ∀ j, World X.party Y.party (X.env j) (Y.env j)) (h1 : ∀ j, 1 ≤ f j) (h2 : ∀ j, f j ≤ 2 ^ 128) (acts : List (Act T)) (hl : Alive acts fun _ => false)
    (hs : ∀ j op, .call j op ∈ acts → op.Small) {n : Nat} {st} (hst : Steps n (bothMany bits optimal X Y f acts) st) :
    (∀ as O bs O', st.p = .ret (.ok as, O) → st.q = .ret (.ok bs, O') → Results acts (fun _ => (none, none)) as bs ∧ InStepAll O O') ∧
    ((∀ t, ¬ Step st t) → (∃ as O bs O', st.p = .ret (.ok as, O) ∧ st.q = .ret (.ok bs, O')) ∨
      (∃ o O, st.p = .ret (o, O) ∧ Bad (fun _ => True) o) ∨ (∃ o O, st.q = .ret (o, O) ∧ Bad (fun _ => True) o)) := by
  have h := many_pair (P := fun _ => True) (bits := bits) (optimal := optimal) hW h1 (fun j => C68_together (hW j) H _ _ (h1 j) (h2 j) _) (fun _ _ _ _ => trivial) (dir := fun _ => true) acts
    (L := fun _ => false) (D := fun _ => (none, none)) (O := noObjects) (O' := noObjects) (fun j => .inl ⟨rfl, rfl, rfl⟩) hl (fun j op hop => ⟨hs j op hop, by
      cases op with
      | precompute => exact .inr trivial
      | precomputeRandom => exact .inr trivial
      | run => exact ⟨.inr trivial, .inl trivial⟩, .inl trivial⟩)
  constructor
  · intro as O bs O' hp hq
    rcases h.reached hst hp hq with ⟨a, b, e1, e2, h3⟩ | hb | hb
    · cases e1; cases e2; exact h3
    · exact absurd hb id
    · exact absurd hb id
  · intro hno
    rcases h.stopped hst hno with ⟨a, s, b, t, e1, e2, -⟩ | h
    · exact .inl ⟨a, s, b, t, e1, e2⟩
    · exact .inr h

/-- C78: if each object is used in one direction only (`dir`), for instance one object for each direction, with up to 87 bits, valid arguments, a suitable element type
    and luck, then all calls of both programs return OK, in every interleaving. -/
theorem C78_success {bits : Sec → Nat → Nat → Nat → Bool} {optimal : Sec → Nat → Nat → Int} (F : Faithfully bits optimal) {X Y : Side T} {f : Nat → ℚ}
    (hW : ∀ j, World X.party Y.party (X.env j) (Y.env j)) (h1 : ∀ j, 1 ≤ f j) (h2 : ∀ j, f j ≤ 2 ^ 87) (hS : ∀ j, Suitable T (some (f j)))
    (hX : ∀ j, Lucky (hasherOf bits optimal X Y f j) (X.env j)) (hY : ∀ j, Lucky (hasherOf bits optimal X Y f j) (Y.env j)) (dir : Nat → Bool)
    (acts : List (Act T)) (hl : Alive acts fun _ => false)
    (hv : ∀ j op, .call j op ∈ acts → op.Valid (X.env j).fuel ∧ op.Valid (Y.env j).fuel ∧ op.fwd = dir j) :
    ∃ as O bs O' va vb, Computes (many bits optimal X (fun j => some (f j)) true acts noObjects) (many bits optimal Y (fun j => some (f j)) false acts noObjects)
      (.ok as, O) (.ok bs, O') va vb ∧ Results acts (fun _ => (none, none)) as bs ∧ InStepAll O O' := by
  refine (many_pair (P := fun _ => False) hW h1 (fun j => C68_together (hW j) F.buckets _ _ (h1 j) ((h2 j).trans (by norm_num)) _)
    (fun j _ _ hn => hn ⟨C68_smooth F _ _ _ _ _ (h1 j) (h2 j) (hS j) (hX j), C68_smooth F _ _ _ _ _ (h1 j) (h2 j) (hS j) (hY j)⟩) (dir := dir) acts
    (L := fun _ => false) (D := fun _ => (none, none)) (O := noObjects) (O' := noObjects) (fun j => .inl ⟨rfl, rfl, rfl⟩) hl ?_).false
  intro j op hop
  obtain ⟨v1, v2, v3⟩ := hv j op hop
  refine ⟨?_, ?_, .inr v3⟩
  · cases op with
    | precompute => exact v1.2
    | precomputeRandom => exact v1.2
    | run => exact ⟨by have := v1.1; omega, v1.2.1⟩
  · cases op with
    | precompute => exact .inl v1.1
    | precomputeRandom => exact .inl v1.1
    | run f n =>
      refine ⟨.inl v1.1, .inr ⟨?_, ?_⟩⟩
      · have := v1.1; have : n + 2 ≤ (X.env j).fuel := v1.2.2; show n.toNat + 2 ≤ (X.env j).fuel; omega
      · have := v2.1; have : n + 2 ≤ (Y.env j).fuel := v2.2.2; show n.toNat + 2 ≤ (Y.env j).fuel; omega

/-! Example: one object for each direction, the second created after a call of the first; 40 bits. -/
section Example

/-- The sides of the example. -/
noncomputable def exSide (lower : Bool) : Side (BitVec 64) :=
  ⟨⟨lower, false, .ok (), .ok ()⟩, fun j => BitVec.ofNat 128 (j + 3), fun j => exEnv lower (2 * j + lower.toNat), fun _ => 7⟩

theorem exSide_world (j : Nat) : World (exSide true).party (exSide false).party ((exSide true).env j) ((exSide false).env j) where
  peers := ⟨rfl, rfl, rfl, rfl, rfl, rfl⟩
  lowerA := rfl
  lowerB := rfl
  aes := rfl
  fl := rfl
  chans := rfl
  lib := rfl
  threadsA := (toy_together 1 2 0 0).threadsA
  threadsB := (toy_together 1 2 0 0).threadsB
  orderA := fun _ l => List.reverse_perm l
  orderB := fun _ l => List.reverse_perm l
  conforms := toyLib_conforms _
  depth := GGM.exactDepth_faithful

/-- The program of the example. -/
def exActs : List (Act (BitVec 64)) :=
  [.create 0, .call 0 (.run true 5), .create 1, .call 1 (.precompute false 3000 42), .call 0 (.run true 100000), .call 1 (.run false 10000), .call 0 (.precomputeRandom true 11000000),
    .call 1 (.run false 20000000), .call 0 (.run true 1)]

theorem exActs_succeeds : ∃ as O bs O' va vb, Computes (many exactBits exact3 (exSide true) (fun _ => some (2 ^ 40)) true exActs noObjects)
    (many exactBits exact3 (exSide false) (fun _ => some (2 ^ 40)) false exActs noObjects) (.ok as, O) (.ok bs, O') va vb ∧
    Results exActs (fun _ => (none, none)) as bs ∧ InStepAll O O' := by
  refine C78_success (X := exSide true) (Y := exSide false) (f := fun _ => 2 ^ 40) ⟨exact3_faithful, exactBits_faithful⟩ exSide_world (fun _ => by norm_num) (fun _ => by norm_num) (fun _ => C68_uint 64 (by omega) _)
    (fun j => ex_lucky _ _ _ _ _) (fun j => ex_lucky _ _ _ _ _) (fun j => j == 0) exActs ?_ ?_
  · simp [exActs, Alive, Function.update]
  · intro j op hop
    simp only [exActs, List.mem_cons, List.not_mem_nil, or_false, reduceCtorEq, false_or, Act.call.injEq] at hop
    rcases hop with ⟨rfl, rfl⟩ | ⟨rfl, rfl⟩ | ⟨rfl, rfl⟩ | ⟨rfl, rfl⟩ | ⟨rfl, rfl⟩ | ⟨rfl, rfl⟩ | ⟨rfl, rfl⟩ <;> simp [Op.Valid, Op.fwd, exSide, exEnv, toyEnv]

/-- So there is an interleaving as in `C78_correlation` after which both have finished. -/
example : ∃ (n : Nat) (st : _), Steps n (bothMany exactBits exact3 (exSide true) (exSide false) (fun _ => 2 ^ 40) exActs) st ∧
    ∃ as O bs O', st.p = .ret (.ok as, O) ∧ st.q = .ret (.ok bs, O') := by
  obtain ⟨as, O, bs, O', va, vb, h, -, -⟩ := exActs_succeeds
  obtain ⟨n, hn⟩ := h.joint
  exact ⟨n, _, hn, as, O, bs, O', rfl, rfl⟩

end Example

end DVO.Several
