/-
Vector OLE: histories of calls by two parties.
-/
import Verif.Proofs.VOLE6

namespace DVO.Net
variable {M S S' α β : Type} {P : Out Unit → Prop}

/-- Any two interleavings can be continued to a common state. -/
theorem confluent {s t u : Net M α β} {n k : Nat} (h1 : Steps n s t) (h2 : Steps k s u) : ∃ v m l, Steps m t v ∧ Steps l u v := by
  have strip : ∀ {k : Nat} {s t u : Net M α β}, Step s t → Steps k s u → ∃ v m l, Steps m t v ∧ Steps l u v ∧ m ≤ k ∧ l ≤ 1 := by
    intro k
    induction k with
    | zero => intro s t u h1 h2; cases h2; exact ⟨t, 0, 1, .zero _, .succ h1 (.zero _), by omega, by omega⟩
    | succ k ih =>
      intro s t u h1 h2
      cases h2 with
      | succ h3 h4 =>
        rcases diamond h1 h3 with e | ⟨v, h5, h6⟩
        · subst e; exact ⟨u, k, 0, h4, .zero _, by omega, by omega⟩
        · obtain ⟨w, m, l, h7, h8, h9, h10⟩ := ih h6 h4
          exact ⟨w, m + 1, l, .succ h5 h7, h8, by omega, h10⟩
  induction h1 generalizing k u with
  | zero => exact ⟨u, k, 0, h2, .zero _⟩
  | succ h3 _ ih =>
    obtain ⟨v, m, l, h5, h6, -, -⟩ := strip h3 h2
    obtain ⟨w, m', l', h7, h8⟩ := ih h5
    exact ⟨w, m', l + l', h7, h6.trans h8⟩

/-- The outcome of a pair in any interleaving. -/
theorem Pair.reached {p : Proc M (Out α × S)} {q : Proc M (Out β × S')} {Post : α → S → β → S' → Prop} (h : Pair P p q Post)
    {o : Out α} {s : S} {o' : Out β} {t : S'} {n : Nat} {st : Net M _ _} (hst : Steps n (init p q) st)
    (hp : st.p = .ret (o, s)) (hq : st.q = .ret (o', t)) :
    (∃ a b, o = .ok a ∧ o' = .ok b ∧ Post a s b t) ∨ Bad P o ∨ Bad P o' := by
  rcases h with ⟨a, s1, b, t1, va1, vb1, ⟨k, h1⟩, h2⟩ | ⟨k, s1, h1, h2⟩
  · obtain ⟨v, m, l, h3, h4⟩ := confluent hst h1
    have e1 := steps_ret_left h3 hp
    have e2 := steps_ret_right' h3 hq
    rw [steps_final h4] at e1 e2
    simp only [final, Proc.ret.injEq, Prod.mk.injEq] at e1 e2
    obtain ⟨rfl, rfl⟩ := e1
    obtain ⟨rfl, rfl⟩ := e2
    exact .inl ⟨a, b, rfl, rfl, h2⟩
  · obtain ⟨v, m, l, h3, h4⟩ := confluent hst h1
    right
    rcases h2 with ⟨o1, t1, e, hb⟩ | ⟨o1, t1, e, hb⟩
    · left
      have := (steps_ret_left h4 e).symm.trans (steps_ret_left h3 hp)
      simp only [Proc.ret.injEq, Prod.mk.injEq] at this
      rw [← this.1]; exact hb
    · right
      have := (steps_ret_right' h4 e).symm.trans (steps_ret_right' h3 hq)
      simp only [Proc.ret.injEq, Prod.mk.injEq] at this
      rw [← this.1]; exact hb

end DVO.Net

namespace DVO.VOLE
open Net MPFSS
set_option linter.unusedSectionVars false
variable {T : Type} [Scalar T] [LawfulScalar T] {P : Out Unit → Prop} {h : Cuckoo.Hasher} {A B : Env T}

/-- The outcome for a batch size that is not positive. -/
def badBatch : Out Unit := .err .invalidArgument "`batch_size` must be positive"

/-- The invariant of histories. -/
structure Hist (h : Cuckoo.Hasher) (Q : Prop) (df db : Option T) (s r : VState T) : Prop where
  cohS : Coherent h s.mpfss
  cohR : Coherent h r.mpfss
  step : InStep s r
  doneF : s.sDone = df.isSome
  doneB : s.rDone = db.isSome
  shared : df.isSome ∨ db.isSome → ∃ t v b, Shared h t v b s r
  dirF : ∀ d, df = some d → Dir h Q d s r
  dirB : ∀ d, db = some d → Dir h Q d r s

theorem InStep.swap {s r : VState T} (H : InStep s r) : InStep r s :=
  ⟨H.backward.symm, H.forward.symm, H.batch.symm, H.vole.symm, H.mpfss.symm, H.noise.symm, H.code.symm, H.log.symm, H.doneB.symm, H.doneF.symm⟩

theorem Shared.swap {t v b : Nat} {s r : VState T} (H : Shared h t v b s r) : Shared h t v b r s :=
  ⟨H.cohR, H.cohS, H.readyR, H.readyS, H.code.symm, H.log.symm⟩

theorem Hist.swap {Q : Prop} {df db : Option T} {s r : VState T} (H : Hist h Q df db s r) : Hist h Q db df r s :=
  ⟨H.cohR, H.cohS, H.step.swap, H.step.doneB ▸ H.doneB, H.step.doneF ▸ H.doneF,
    fun hd => by obtain ⟨t, v, b, hs⟩ := H.shared hd.symm; exact ⟨t, v, b, hs.swap⟩, H.dirB, H.dirF⟩

theorem Dir.other {Q : Prop} {d : T} {s r s' r' : VState T} (D : Dir h Q d r s) (f1 : SFrame s s') (f2 : RFrame r r')
    (hq : Q ∨ r'.voleSize = r.voleSize) : Dir h Q d r' s' := by
  obtain ⟨i, t, v, h1, h2, h3, h4⟩ := D.seeds
  refine ⟨by rw [f1.1, f2.1]; exact D.cached, by rw [f1.2, f2.2]; exact D.vole, by rw [f1.3, f2.3]; exact D.mpfss, i, t, v, h1, ?_, ?_, ?_⟩
  · rw [f2.2]; exact h2
  · rw [f2.3]; exact h3
  · rcases hq with hq | hq
    · exact .inl hq
    · rw [hq]; exact h4

theorem Shared.inStep {t v b : Nat} {Q : Prop} {d : T} {s r s' r' : VState T} (H : Shared h t v b s' r') (D : Dir h Q d s' r')
    (f1 : SFrame s s') (f2 : RFrame r r') (hb : s.rCached.w.length = r.sCached.u.length) (hd : s.rDone = r.sDone)
    (hF : s'.sDone = r'.rDone) : InStep s' r' where
  forward := D.cached.corr.len_w.symm
  backward := by rw [f1.1, f2.1]; exact hb
  batch := by rw [H.readyS.batch, H.readyR.batch]
  vole := by rw [H.readyS.vole, H.readyR.vole]
  mpfss := by rw [H.readyS.mpfss, H.readyR.mpfss]
  noise := by rw [H.readyS.noise, H.readyR.noise]
  code := H.code.symm
  log := H.log
  doneF := hF
  doneB := by rw [f1.4, f2.4]; exact hd

/-- After a precomputation. -/
theorem Fresh.hist {Q : Prop} {df db : Option T} {s r s' r' : VState T} {d : T} {batch : Int} (H : Hist h Q df db s r) (hq : Q ∨ db = none)
    (F : Fresh h d batch s' r') (f1 : SFrame s s') (f2 : RFrame r r') : Hist h Q (some d) db s' r' := by
  obtain ⟨t, v, b, hS⟩ := F.shared
  have hD := F.dir Q
  refine ⟨hS.cohS, hS.cohR, hS.inStep hD f1 f2 H.step.backward H.step.doneB (by rw [F.doneS, F.doneR]), F.doneS, by rw [f1.4]; exact H.doneB,
    fun _ => ⟨t, v, b, hS⟩, ?_, ?_⟩
  · rintro d' he; cases he; exact hD
  · intro d' he
    refine (H.dirB d' he).other f1 f2 ?_
    rcases hq with hq | hq
    · exact .inl hq
    · rw [hq] at he; cases he

theorem RunPost.hist {Q : Prop} {db : Option T} {s r s' r' : VState T} {d : T} {t v b n : Nat} {a : SRes T} {e : RRes T}
    (H : Hist h Q (some d) db s r) (hS : Shared h t v b s r) (R : RunPost h Q d t v b n s r a s' e r') : Hist h Q (some d) db s' r' := by
  obtain ⟨h1, h2, S, D, f1, f2, d1, d2⟩ := R
  have h3 := H.doneF
  have h4 := H.step.doneF
  refine ⟨S.cohS, S.cohR, S.inStep D f1 f2 H.step.backward H.step.doneB (by rw [d1, d2, h4]), by rw [d1]; exact h3,
    by rw [f1.4]; exact H.doneB, fun _ => ⟨t, v, b, S⟩, ?_, ?_⟩
  · rintro d' he; cases he; exact D
  · intro d' he
    exact (H.dirB d' he).other f1 f2 (.inr (by rw [S.readyR.vole, hS.readyR.vole]))

theorem precompute_hist (hP : ∀ o, Expected o → ¬ (Smooth h A ∧ Smooth h B) → P o) (W : Together h A B) {df db : Option T} {s r : VState T}
    (H : Hist h (P (.err .internal wrongDims)) df db s r) (hq : P (.err .internal wrongDims) ∨ db = none) {batch : Int} (hb : batch < 2 ^ 62)
    (hbad : 1 ≤ batch ∨ P badBatch) (d : T) :
    Pair P (precomputeSender A batch s) (precomputeReceiver B batch d r)
      (fun _ s' _ r' => 1 ≤ batch ∧ Hist h (P (.err .internal wrongDims)) (some d) db s' r') := by
  refine (precompute_pair hP W hb hbad (d := d) H.cohS H.cohR H.step.log).mono ?_
  rintro - s' - r' ⟨h1, F, f1, f2⟩
  exact ⟨h1, F.hist H hq f1 f2⟩

theorem precomputeReceiver'_apply (E : Env T) (b : Int) (s : VState T) :
    precomputeReceiver' E b s = precomputeReceiver E b ((E.rand s.pos).elems 0) { s with pos := s.pos + 1 } := rfl

theorem Hist.pos {Q : Prop} {df db : Option T} {s r : VState T} (H : Hist h Q df db s r) (p : Nat) : Hist h Q df db s { r with pos := p } :=
  ⟨H.cohS, H.cohR, ⟨H.step.1, H.step.2, H.step.3, H.step.4, H.step.5, H.step.6, H.step.7, H.step.8, H.step.9, H.step.10⟩, H.doneF, H.doneB,
    fun hd => by
      obtain ⟨t, v, b, hs⟩ := H.shared hd
      exact ⟨t, v, b, hs.1, hs.2, hs.3, ⟨hs.4.1, hs.4.2, hs.4.3, hs.4.4, hs.4.5, hs.4.6, hs.4.7, hs.4.8⟩, hs.5, hs.6⟩,
    fun d he => ⟨(H.dirF d he).1, (H.dirF d he).2, (H.dirF d he).3, (H.dirF d he).4⟩,
    fun d he => ⟨(H.dirB d he).1, (H.dirB d he).2, (H.dirB d he).3, (H.dirB d he).4⟩⟩

theorem run_hist (hP : ∀ o, Expected o → ¬ (Smooth h A ∧ Smooth h B) → P o) (W : Together h A B) {df db : Option T} {s r : VState T}
    (H : Hist h (P (.err .internal wrongDims)) df db s r) (hq : P (.err .internal wrongDims) ∨ db = none) {n : Nat} (hn : (n : Int) < 2 ^ 62)
    (hbad : 1 ≤ (n : Int) ∨ P badBatch) (hfuel : P .diverge ∨ n + 2 ≤ A.fuel ∧ n + 2 ≤ B.fuel) :
    Pair P (runSender A n s) (runReceiver B n r)
      (fun a s' e r' => ∃ d, (df = none ∨ df = some d) ∧ Hist h (P (.err .internal wrongDims)) (some d) db s' r' ∧ Corr d a e ∧ a.u.length = n) := by
  have hF := H.step.doneF
  rw [runSender_eq, runReceiver_eq]
  cases df with
  | none =>
    have h1 : s.sDone = false := H.doneF
    rw [h1] at hF
    rw [if_neg (by simp [h1]), if_neg (by simp [← hF])]
    refine Pair.bind (Mid := fun _ s' _ r' => ∃ d, Hist h (P (.err .internal wrongDims)) (some d) db s' r') ?_ ?_
    · rw [precomputeReceiver'_apply]
      refine (precompute_hist hP W (H.pos _) hq hn hbad _).mono ?_
      rintro - s' - r' ⟨-, h2⟩
      exact ⟨_, h2⟩
    · rintro - s' - r' ⟨d, h2⟩
      obtain ⟨t, v, b, hS⟩ := h2.shared (by simp)
      refine (rest_pair (Nat.le_refl _) (fun o h1 h2 => hP o h1 (fun S => h2 ⟨S.1.to, S.2.to⟩)) W hfuel hS (h2.dirF d rfl)).mono ?_
      intro a s2 e r2 R
      exact ⟨d, .inl rfl, R.hist h2 hS, R.1, R.2.1⟩
  | some d =>
    have h1 : s.sDone = true := H.doneF
    rw [h1] at hF
    rw [if_pos h1, if_pos hF.symm]
    obtain ⟨t, v, b, hS⟩ := H.shared (by simp)
    refine (rest_pair (Nat.le_refl _) (fun o h1 h2 => hP o h1 (fun S => h2 ⟨S.1.to, S.2.to⟩)) W hfuel hS (H.dirF d rfl)).mono ?_
    intro a s2 e r2 R
    exact ⟨d, .inr rfl, R.hist H hS, R.1, R.2.1⟩

/-- Outcomes to be expected because of the arguments. -/
def Excused (A B : Env T) (P : Out Unit → Prop) : Op T → Prop
  | .precompute _ b _ => 1 ≤ b ∨ P badBatch
  | .precomputeRandom _ b => 1 ≤ b ∨ P badBatch
  | .run _ n => (1 ≤ n ∨ P badBatch) ∧ (P .diverge ∨ n.toNat + 2 ≤ A.fuel ∧ n.toNat + 2 ≤ B.fuel)

theorem Excused.swap {op : Op T} (hx : Excused A B P op) : Excused B A P op := by
  cases op with
  | precompute f b d => exact hx
  | precomputeRandom f b => exact hx
  | run f n => exact ⟨hx.1, hx.2.imp_right And.symm⟩

/-- One call. -/
theorem op_pair (hP : ∀ o, Expected o → ¬ (Smooth h A ∧ Smooth h B) → P o) (W : Together h A B) {df db : Option T} {s r : VState T}
    (H : Hist h (P (.err .internal wrongDims)) df db s r) (hq : P (.err .internal wrongDims) ∨ db = none) {op : Op T} (hop : op.Small)
    (hex : Excused A B P op) :
    Pair P (asSender A op s) (asReceiver B op r)
      (fun a s' b r' => ∃ d, Expect op df a b d ∧ Hist h (P (.err .internal wrongDims)) (some d) db s' r') := by
  cases op with
  | precompute f b d =>
    refine Pair.bind (precompute_hist hP W H hq hop hex d) ?_
    rintro - s' - r' ⟨-, h2⟩
    exact Pair.ret ⟨d, ⟨rfl, rfl, rfl⟩, h2⟩
  | precomputeRandom f b =>
    unfold asSender asReceiver
    refine Pair.bind (Mid := fun _ s' _ r' => ∃ d, Hist h (P (.err .internal wrongDims)) (some d) db s' r') ?_ ?_
    · rw [precomputeReceiver'_apply]
      refine (precompute_hist hP W (H.pos _) hq hop hex _).mono ?_
      rintro - s' - r' ⟨-, h2⟩
      exact ⟨_, h2⟩
    · rintro - s' - r' ⟨d, h2⟩
      exact Pair.ret ⟨d, ⟨rfl, rfl⟩, h2⟩
  | run f n =>
    obtain ⟨h0, h1⟩ := hop
    lift n to Nat using h0
    refine Pair.bind (run_hist hP W H hq h1 hex.1 hex.2) ?_
    rintro a s' e r' ⟨d, h2, h3, h4, h5⟩
    exact Pair.ret ⟨d, ⟨h2, a, e, rfl, rfl, h4.delta, by rw [h5], h4.corr⟩, h3⟩

/-- Which histories are covered: all with `Q`, otherwise those in one direction. -/
def Covered (Q : Prop) (ops : List (Op T)) (df db : Option T) : Prop :=
  Q ∨ ((∀ op ∈ ops, op.fwd = true) ∧ db = none) ∨ ((∀ op ∈ ops, op.fwd = false) ∧ df = none)

theorem play_pair (hP : ∀ o, Expected o → ¬ (Smooth h A ∧ Smooth h B) → P o) (W : Together h A B) (ops : List (Op T)) :
    ∀ {df db : Option T} {s r : VState T}, Hist h (P (.err .internal wrongDims)) df db s r → Covered (P (.err .internal wrongDims)) ops df db →
    (∀ op ∈ ops, op.Small) → (∀ op ∈ ops, Excused A B P op) →
    Pair P (play A true ops s) (play B false ops r)
      (fun as s' bs r' => Answers ops df db as bs ∧ ∃ df' db', Hist h (P (.err .internal wrongDims)) df' db' s' r') := by
  induction ops with
  | nil => intro df db s r H _ _ _; exact Pair.ret ⟨⟨rfl, rfl⟩, df, db, H⟩
  | cons op ops ih =>
    intro df db s r H hc hop hex
    have hop1 := hop op (by simp)
    have hex1 := hex op (by simp)
    have hex2 : ∀ o ∈ ops, Excused A B P o := fun o ho => hex o (by simp [ho])
    have hop2 : ∀ o ∈ ops, o.Small := fun o ho => hop o (by simp [ho])
    unfold play
    by_cases hf : op.fwd = true
    · rw [if_pos hf, if_neg (by simp [hf])]
      have hq : P (.err .internal wrongDims) ∨ db = none := by
        rcases hc with hc | ⟨-, hc⟩ | ⟨hc, -⟩
        · exact .inl hc
        · exact .inr hc
        · have := hc op (by simp); rw [hf] at this; cases this
      refine Pair.bind (op_pair hP W H hq hop1 hex1) ?_
      rintro a s' b r' ⟨d, h1, h2⟩
      refine Pair.bind (ih h2 ?_ hop2 hex2) ?_
      · rcases hc with hc | ⟨hc, hn⟩ | ⟨hc, -⟩
        · exact .inl hc
        · exact .inr (.inl ⟨fun o ho => hc o (by simp [ho]), hn⟩)
        · have := hc op (by simp); rw [hf] at this; cases this
      · rintro as s2 bs r2 ⟨h3, df', db', h4⟩
        refine Pair.ret ⟨⟨a, as, b, bs, d, rfl, rfl, ?_⟩, df', db', h4⟩
        rw [if_pos hf]
        exact ⟨h1, h3⟩
    · have hf' : op.fwd = false := by simpa using hf
      rw [if_neg hf, if_pos hf']
      have hq : P (.err .internal wrongDims) ∨ df = none := by
        rcases hc with hc | ⟨hc, -⟩ | ⟨-, hc⟩
        · exact .inl hc
        · exact absurd (hc op (by simp)) hf
        · exact .inr hc
      refine Pair.bind ((op_pair (fun o h1 h2 => hP o h1 (fun S => h2 S.symm)) W.swap H.swap hq hop1 hex1.swap).swap) ?_
      rintro b s' a r' ⟨d, h1, h2⟩
      refine Pair.bind (ih h2.swap ?_ hop2 hex2) ?_
      · rcases hc with hc | ⟨hc, -⟩ | ⟨hc, hn⟩
        · exact .inl hc
        · exact absurd (hc op (by simp)) hf
        · exact .inr (.inr ⟨fun o ho => hc o (by simp [ho]), hn⟩)
      · rintro as s2 bs r2 ⟨h3, df', db', h4⟩
        refine Pair.ret ⟨⟨b, as, a, bs, d, rfl, rfl, ?_⟩, df', db', h4⟩
        rw [if_neg hf]
        exact ⟨h1, h3⟩

/-- Newly created objects. -/
theorem Hist.new {st st' : MPFSS.State} (h1 : Coherent h st) (h2 : Coherent h st') (j j' : T) (Q : Prop) :
    Hist h Q none none (VState.new st j) (VState.new st' j') :=
  ⟨h1, h2, ⟨rfl, rfl, rfl, rfl, rfl, rfl, rfl, rfl, rfl, rfl⟩, rfl, rfl, by simp, by simp, by simp⟩

end DVO.VOLE
