/-
The subprotocols never produce the error messages of `ExpandSender` and `ExpandReceiver`.
-/
import Verif.Proofs.Local
import Verif.Model.VOLE

namespace DVO.VOLE
open MPFSS
set_option linter.unusedSectionVars false
set_option linter.unnecessarySeqFocus false
variable {T α β : Type}

/-- The messages of the sanity checks of `ExpandSender` and `ExpandReceiver`. -/
def Loud (m : String) : Prop := m = "Both seeds must have the same size" ∨ m = "Code generator has the wrong dimensions"

instance (m : String) : Decidable (Loud m) := by unfold Loud; infer_instance

/-- Not one of the errors of the sanity checks. -/
def Calm (x : Out α) : Prop := ∀ c m, x = .err c m → ¬ Loud m

theorem Calm.ok (a : α) : Calm (.ok a) := by intro c m h; cases h
theorem Calm.throws (w : String) : Calm (.throws w : Out α) := by intro c m h; cases h
theorem Calm.ub (w : String) : Calm (.ub w : Out α) := by intro c m h; cases h
theorem Calm.diverge : Calm (.diverge : Out α) := by intro c m h; cases h
theorem Calm.err {c : Code} {m : String} (h : ¬ Loud m) : Calm (.err c m : Out α) := by intro c' m' e; cases e; exact h

theorem Calm.bind {x : Out α} {f : α → Out β} (hx : Calm x) (hf : ∀ a, Calm (f a)) : Calm (x >>= f) := by
  intro c m h
  cases x with
  | ok a => exact hf a c m h
  | err c' m' => cases h; exact hx _ _ rfl
  | throws => cases h
  | ub => cases h
  | diverge => cases h

theorem Calm.bind' {x : Out α} {f : α → Out β} (hx : Calm x) (hf : ∀ a, x = .ok a → Calm (f a)) : Calm (x >>= f) := by
  intro c m h
  cases x with
  | ok a => exact hf a rfl c m h
  | err c' m' => cases h; exact hx _ _ rfl
  | throws => cases h
  | ub => cases h
  | diverge => cases h

theorem Calm.loop {f : Nat → α → Out α} (hf : ∀ i a, Calm (f i a)) : ∀ (n lo : Nat) (s : α), Calm (loop f lo n s) := by
  intro n
  induction n with
  | zero => intro lo s; exact Calm.ok s
  | succ n ih => intro lo s; exact Calm.bind (hf lo s) (fun a => ih _ a)

theorem Calm.rd (l : List α) (i : Nat) : Calm (rd l i) := by
  unfold DVO.rd; split <;> first | exact Calm.ok _ | exact Calm.ub _
theorem Calm.wr (l : List α) (i : Nat) (a : α) : Calm (wr l i a) := by
  unfold DVO.wr; split <;> first | exact Calm.ok _ | exact Calm.ub _
theorem Calm.rdI (l : List α) (i : Int) : Calm (rdI l i) := by
  unfold DVO.rdI; split <;> first | exact Calm.rd _ _ | exact Calm.ub _
theorem Calm.rd2 (l : List (List α)) (i j : Nat) : Calm (rd2 l i j) := by
  unfold DVO.rd2; exact Calm.bind (Calm.rd _ _) (fun _ => Calm.rd _ _)
theorem Calm.wr2 (l : List (List α)) (i j : Nat) (a : α) : Calm (wr2 l i j a) := by
  unfold DVO.wr2; exact Calm.bind (Calm.rd _ _) (fun _ => Calm.bind (Calm.wr _ _ _) (fun _ => Calm.wr _ _ _))

/-- Goes through a program. -/
macro "calm" : tactic => `(tactic| repeat' first
  | assumption
  | exact Calm.ok _
  | exact Calm.throws _
  | exact Calm.ub _
  | exact Calm.diverge
  | exact Calm.rd _ _
  | exact Calm.wr _ _ _
  | exact Calm.rdI _ _
  | exact Calm.rd2 _ _ _
  | exact Calm.wr2 _ _ _ _
  | exact Calm.err (by decide)
  | with_reducible apply Calm.loop
  | with_reducible apply Calm.bind
  | with_reducible intro _
  | split)

theorem allocateLevels_calm (fl a n) : Calm (GGM.allocateLevels fl a n) := by unfold GGM.allocateLevels; dsimp only; calm
theorem xorBlocks_calm (a b) : Calm (GGM.xorBlocks a b) := by unfold GGM.xorBlocks; dsimp only; calm
theorem expandSubtree_calm (aes a k l n m) : Calm (GGM.expandSubtree aes a k l n m) := by unfold GGM.expandSubtree; dsimp only; calm
theorem create_calm (aes fl n s k) : Calm (GGM.create aes fl n s k) := by
  unfold GGM.create; dsimp only
  have := allocateLevels_calm
  have := expandSubtree_calm
  calm <;> solve_by_elim
theorem fillLevel_calm (aes a t e p x l s) : Calm (GGM.fillLevel aes a t e p x l s) := by
  unfold GGM.fillLevel; dsimp only
  have := xorBlocks_calm
  have := expandSubtree_calm
  calm <;> solve_by_elim
theorem expandKeys_calm (k a) : Calm (GGM.expandKeys k a) := by unfold GGM.expandKeys; calm
theorem createFromXor_calm (aes fl a n m x k) : Calm (GGM.createFromXor aes fl a n m x k) := by
  unfold GGM.createFromXor; dsimp only
  have := allocateLevels_calm
  have := fillLevel_calm
  have := expandKeys_calm
  calm <;> solve_by_elim
theorem siblings_calm (t : GGM.Tree) : Calm t.getSiblingWiseXOR := by
  unfold GGM.Tree.getSiblingWiseXOR
  have := xorBlocks_calm
  calm <;> solve_by_elim


/-! ### Hashing -/

theorem hash_calm (h i n) : Calm (Cuckoo.hash h i n) := by unfold Cuckoo.hash Cuckoo.hashRow; dsimp only; calm
theorem optimal_calm (h n) : Calm (Cuckoo.getOptimalNumberOfBuckets h n) := by unfold Cuckoo.getOptimalNumberOfBuckets Cuckoo.toInt64; calm
theorem region_calm (h x n) : ∀ (cs : List Nat) (lo : Nat) r, Calm (Cuckoo.parallelRegion h x n lo cs r) := by
  intro cs
  induction cs with
  | nil => intro lo r; exact Calm.ok _
  | cons c cs ih => intro lo r; unfold Cuckoo.parallelRegion Cuckoo.threadResult Cuckoo.mergeThread Cuckoo.pushBack; calm <;> solve_by_elim
theorem hashSimple_calm (h c i n) : Calm (Cuckoo.hashSimple h c i n) := by
  unfold Cuckoo.hashSimple
  have := hash_calm
  have := region_calm
  calm <;> solve_by_elim
theorem insertLoop_calm (h x) : ∀ (r : Nat) e f b n, Calm (Cuckoo.insertLoop h x r e f b n) := by
  intro r
  induction r with
  | zero => intro e f b n; exact Calm.err (by decide)
  | succ r ih => intro e f b n; unfold Cuckoo.insertLoop; calm <;> solve_by_elim
theorem hashCuckoo_calm (h i n) : Calm (Cuckoo.hashCuckoo h i n) := by
  unfold Cuckoo.hashCuckoo
  have := hash_calm
  have := insertLoop_calm
  calm <;> solve_by_elim
theorem computeBuckets_calm (t h o n) : Calm (computeBuckets t h o n) := by
  unfold computeBuckets
  have := optimal_calm
  have := hashSimple_calm
  calm <;> solve_by_elim
theorem updateBuckets_calm (t st o n) : Calm (MPFSS.updateBuckets t st o n).1 := by
  unfold MPFSS.updateBuckets
  split
  · cases h : computeBuckets t st.hasher o n with
    | ok => exact Calm.ok _
    | err c m => exact Calm.err (computeBuckets_calm t st.hasher o n _ _ h)
    | throws => exact Calm.throws _
    | ub => exact Calm.ub _
    | diverge => exact Calm.diverge
  · exact Calm.ok _
theorem numBuckets_calm (h n) : Calm (numBuckets h n) := by
  unfold numBuckets
  have := optimal_calm
  calm <;> solve_by_elim
theorem hashIndices_calm (h i n) : Calm (hashIndices h i n) := by
  unfold hashIndices
  have := hashCuckoo_calm h (i.map indexBlock) n
  calm

/-! ### Programs that communicate -/

/-- No outcome of the program is one of the errors of the sanity checks. -/
def CalmP (p : PM (Msg T) α) : Prop := ∀ o : Out α, Returns p o → Calm o

theorem CalmP.lift {x : Out α} (h : Calm x) : CalmP (PM.lift x : PM (Msg T) α) := by intro o hr; cases hr; exact h
theorem CalmP.pure (a : α) : CalmP (pure a : PM (Msg T) α) := by intro o hr; cases hr; exact Calm.ok _
theorem CalmP.send (c : Nat) (m : Msg T) : CalmP (PM.send c m) := by intro o hr; cases hr with | send _ _ _ _ h => cases h; exact Calm.ok _
theorem CalmP.recv (c : Nat) : CalmP (PM.recv c : PM (Msg T) _) := by intro o hr; cases hr with | recv _ _ m _ h => cases h; exact Calm.ok _
theorem CalmP.otSend (c k ms) : CalmP (PM.otSend c k ms : PM (Msg T) _) := by intro o hr; cases hr with | otSend _ _ _ _ _ h => cases h; exact Calm.ok _
theorem CalmP.otRecv (c k cs) : CalmP (PM.otRecv c k cs : PM (Msg T) _) := by intro o hr; cases hr with | otRecv _ _ _ _ _ _ h => cases h; exact Calm.ok _

theorem CalmP.bind {p : PM (Msg T) α} {f : α → PM (Msg T) β} (hp : CalmP p) (hf : ∀ a, CalmP (f a)) : CalmP (p >>= f) := by
  intro o hr
  obtain ⟨x, h1, h2⟩ := Returns.bind (M := Msg T) hr
  have hx := hp x h1
  cases x with
  | ok a => exact hf a o h2
  | err c m => cases h2; exact Calm.err (hx _ _ rfl)
  | throws => cases h2; exact Calm.throws _
  | ub => cases h2; exact Calm.ub _
  | diverge => cases h2; exact Calm.diverge

theorem CalmP.liftBind {x : Out α} {f : α → PM (Msg T) β} (hx : Calm x) (hf : ∀ a, x = .ok a → CalmP (f a)) : CalmP (PM.lift x >>= f) := by
  intro o hr
  cases x with
  | ok a => exact hf a rfl o hr
  | err c m => cases hr; exact Calm.err (hx _ _ rfl)
  | throws => cases hr; exact Calm.throws _
  | ub => cases hr; exact Calm.ub _
  | diverge => cases hr; exact Calm.diverge

variable [Scalar T]

theorem unpackLastLevel_calm (t : GGM.Tree) (o : List T) : Calm (ROT.unpackLastLevel t o) := by unfold ROT.unpackLastLevel; calm
theorem unpackAll_calm (t : List (Option GGM.Tree)) (o : List (List T)) : Calm (ROT.unpackAll t o) := by
  unfold ROT.unpackAll
  have := unpackLastLevel_calm (T := T)
  calm <;> solve_by_elim
theorem collectOT_calm : ∀ l : List (Option (Out GGM.Tree)), (∀ x, some x ∈ l → Calm x) → Calm (ROT.collectOT l) := by
  intro l
  induction l with
  | nil => intro _; exact Calm.ok _
  | cons a l ih =>
    intro h
    have := ih (fun x hx => h x (List.mem_cons_of_mem _ hx))
    cases a with
    | none => unfold ROT.collectOT; calm
    | some x =>
      have hx := h x List.mem_cons_self
      have := siblings_calm
      unfold ROT.collectOT
      calm <;> solve_by_elim
theorem sendTrees_calm (aes fl c s k sd l) : CalmP (ROT.sendTrees T aes fl c s k sd l) := by
  unfold ROT.sendTrees
  split
  · exact CalmP.lift (Calm.err (by decide))
  · refine CalmP.bind (CalmP.lift (collectOT_calm _ ?_)) (fun a => ?_)
    · intro x hx
      unfold ROT.createTrees at hx
      rw [List.mem_mapIdx] at hx
      obtain ⟨i, hi, e⟩ := hx
      split at e
      · cases e
      · cases e; exact create_calm _ _ _ _ _
    · obtain ⟨trees, ms⟩ := a
      dsimp only
      have h : CalmP (PM.send c.rot (Msg.blocks (List.map k (List.range 2))) >>= fun _ => (pure trees : PM (Msg T) _)) :=
        CalmP.bind (CalmP.send _ _) (fun _ => CalmP.pure _)
      split
      · exact CalmP.bind (CalmP.otSend _ _ _) (fun _ => h)
      · exact h
theorem rotSend_calm (aes fl c s k sd) (o : List (List T)) : CalmP (ROT.runSenderBatched aes fl c s k sd o) := by
  unfold ROT.runSenderBatched
  exact CalmP.bind (sendTrees_calm _ _ _ _ _ _ _) (fun _ => CalmP.lift (unpackAll_calm _ _))
theorem choiceBits_calm (k i) : Calm (ROT.choiceBits k i) := by unfold ROT.choiceBits; dsimp only; calm
theorem allChoices_calm (fl) : ∀ l i o, Calm (ROT.allChoices fl l i o) := by
  have := choiceBits_calm
  intro l
  induction l with
  | nil => intro i o; unfold ROT.allChoices; exact Calm.ok _
  | cons a l ih =>
    intro i o
    cases i <;> unfold ROT.allChoices <;> calm <;> solve_by_elim
theorem xorTable_calm (a b c d) : Calm (ROT.xorTable a b c d) := by unfold ROT.xorTable; calm
theorem buildTrees_calm (aes fl k c o f l i) : Calm (ROT.buildTrees aes fl k c o f l i) ∧
    ∀ t cd m, ROT.buildTrees aes fl k c o f l i = .ok (t, some (cd, m)) → ¬ Loud m := by
  have h1 := xorTable_calm
  constructor
  · unfold ROT.buildTrees
    calm <;> solve_by_elim
  · have key : ∀ (g : Nat → List (Option GGM.Tree) × Option (Code × String) → Out (List (Option GGM.Tree) × Option (Code × String))),
        (∀ i s r, (∀ cd m, s.2 = some (cd, m) → ¬ Loud m) → g i s = .ok r → ∀ cd m, r.2 = some (cd, m) → ¬ Loud m) →
        ∀ n lo s r, (∀ cd m, s.2 = some (cd, m) → ¬ Loud m) → loop g lo n s = .ok r → ∀ cd m, r.2 = some (cd, m) → ¬ Loud m := by
      intro g hg n
      induction n with
      | zero => intro lo s r hs e; cases e; exact hs
      | succ n ih =>
        intro lo s r hs e
        obtain ⟨s', e1, e2⟩ := Out.bind_eq_ok.1 e
        exact ih _ _ _ (hg _ _ _ hs e1) e2
    intro t cd m e
    refine key _ ?_ _ _ _ _ (by intro cd m h; cases h) e cd m rfl
    intro i s r hs e
    obtain ⟨n, -, e⟩ := Out.bind_eq_ok.1 e
    split at e
    · cases e; exact hs
    · obtain ⟨o0, -, e⟩ := Out.bind_eq_ok.1 e
      obtain ⟨o1, -, e⟩ := Out.bind_eq_ok.1 e
      obtain ⟨xs, -, e⟩ := Out.bind_eq_ok.1 e
      obtain ⟨ix, -, e⟩ := Out.bind_eq_ok.1 e
      split at e
      · cases e; exact hs
      · next c' m' heq =>
        cases e
        intro cd m h
        cases h
        exact createFromXor_calm _ _ _ _ _ _ _ _ _ heq
      · cases e
      · cases e
      · cases e
theorem unBlocks_calm (m : Msg T) : Calm (PM.unBlocks m) := by unfold PM.unBlocks; calm
theorem unElems_calm (m : Msg T) : Calm (PM.unElems m) := by unfold PM.unElems; calm
theorem unBytes_calm (m : Msg T) : Calm (PM.unBytes m) := by unfold PM.unBytes; calm
theorem receiveTrees_calm (aes fl c l i) : CalmP (ROT.receiveTrees T aes fl c l i) := by
  unfold ROT.receiveTrees
  split
  · exact CalmP.lift (Calm.err (by decide))
  · refine CalmP.bind (CalmP.lift (allChoices_calm _ _ _ _)) (fun a => ?_)
    obtain ⟨choices, offsets⟩ := a
    dsimp only
    split
    · refine CalmP.bind (CalmP.otRecv _ _ _) (fun r => CalmP.bind (CalmP.recv _) (fun m => CalmP.bind (CalmP.lift (unBlocks_calm _)) (fun ks => ?_)))
      obtain ⟨h1, h2⟩ := buildTrees_calm aes fl ks choices r offsets l i
      refine CalmP.liftBind h1 (fun b hb => ?_)
      obtain ⟨t, st⟩ := b
      cases st with
      | none => exact CalmP.pure _
      | some p => obtain ⟨cd, m⟩ := p; exact CalmP.lift (Calm.err (h2 t cd m hb))
    · refine CalmP.bind (CalmP.pure _) (fun r => CalmP.bind (CalmP.recv _) (fun m => CalmP.bind (CalmP.lift (unBlocks_calm _)) (fun ks => ?_)))
      obtain ⟨h1, h2⟩ := buildTrees_calm aes fl ks choices r offsets l i
      refine CalmP.liftBind h1 (fun b hb => ?_)
      obtain ⟨t, st⟩ := b
      cases st with
      | none => exact CalmP.pure _
      | some p => obtain ⟨cd, m⟩ := p; exact CalmP.lift (Calm.err (h2 t cd m hb))
theorem rotRecv_calm (aes fl c i) (o : List (List T)) : CalmP (ROT.runReceiverBatched aes fl c i o) := by
  unfold ROT.runReceiverBatched
  split
  · exact CalmP.lift (Calm.err (by decide))
  split
  · exact CalmP.lift (Calm.err (by decide))
  · exact CalmP.bind (receiveTrees_calm _ _ _ _ _) (fun _ => CalmP.lift (unpackAll_calm _ _))

theorem spfssValue_calm (aes fl c s k sd) (sh : List T) (o : List (List T)) : CalmP (SPFSS.runValueProviderBatched aes fl c s k sd sh o) := by
  unfold SPFSS.runValueProviderBatched
  split
  · exact CalmP.lift (Calm.err (by decide))
  · refine CalmP.bind (rotSend_calm _ _ _ _ _ _ _) (fun _ => CalmP.bind (CalmP.lift ?_) (fun _ => CalmP.bind (CalmP.send _ _) (fun _ => CalmP.pure _)))
    unfold SPFSS.sumNegateAll SPFSS.sumNegate
    calm
theorem spfssIndex_calm (aes fl c) (sh : List T) (i) (o : List (List T)) : CalmP (SPFSS.runIndexProviderBatched aes fl c sh i o) := by
  unfold SPFSS.runIndexProviderBatched
  split
  · exact CalmP.lift (Calm.err (by decide))
  · refine CalmP.bind (rotRecv_calm _ _ _ _ _) (fun _ => CalmP.bind (CalmP.lift ?_) (fun _ => CalmP.bind (CalmP.recv _) (fun _ =>
      CalmP.bind (CalmP.lift (unElems_calm _)) (fun _ => CalmP.lift ?_))))
    · unfold SPFSS.subOthersAll SPFSS.subOthers
      calm
    · unfold SPFSS.fixIndices
      calm

theorem scatter_calm (b) (bo : List (List T)) (o) : Calm (scatter b bo o) := by unfold scatter; calm
theorem finish_calm (st : State) (n) (x : Out (List (List T))) (hx : Calm x) : Calm (finish st n x).status := by
  cases x with
  | ok bo =>
    unfold finish
    have := scatter_calm st.buckets bo (List.replicate n 0)
    dsimp only
    cases h : scatter st.buckets bo (List.replicate n 0) with
    | ok => exact Calm.ok _
    | err c m => exact Calm.err (this _ _ h)
    | throws => exact Calm.throws _
    | ub => exact Calm.ub _
    | diverge => exact Calm.diverge
  | err c m => exact Calm.err (hx _ _ rfl)
  | throws => exact Calm.throws _
  | ub => exact Calm.ub _
  | diverge => exact Calm.diverge

theorem value_calm {aes fl c sec key seed thr} {st : State} {x : T} {yLen : Int} {w output : List T} {r : Res T}
    (h : Returns (runValueProviderVectorOLE aes fl c sec key seed thr st x yLen w output) r) : Calm r.status := by
  unfold runValueProviderVectorOLE at h
  split at h
  · cases h; exact Calm.err (by decide)
  · have hu := updateBuckets_calm thr st output.length yLen
    split at h
    · next st' heq =>
      cases h with
      | recv _ _ m _ h =>
        dsimp only at h
        have hv : ∀ ym, Calm (valueShares x ym w) := by intro ym; unfold valueShares; calm
        have hc : Calm (PM.unElems m >>= fun ym => valueShares x ym w) := Calm.bind (unElems_calm m) hv
        split at h
        · obtain ⟨a, h1, h2⟩ := Returns.bind h
          cases h2
          exact finish_calm _ _ _ (spfssValue_calm _ _ _ _ _ _ _ _ _ h1)
        · next e => cases h; exact Calm.err (hc _ _ e)
        · cases h; exact Calm.throws _
        · cases h; exact Calm.ub _
        · cases h; exact Calm.diverge
    · next e st' _ heq => cases h; rw [heq] at hu; exact hu

theorem index_calm {aes fl c thr} {st : State} {y : List T} {indices : List Int} {u v output : List T} {r : Res T}
    (h : Returns (runIndexProviderVectorOLE aes fl c thr st y indices u v output) r) : Calm r.status := by
  unfold runIndexProviderVectorOLE at h
  split at h
  · cases h; exact Calm.err (by decide)
  split at h
  · cases h; exact Calm.err (by decide)
  split at h
  · cases h; exact Calm.err (by decide)
  split at h
  · cases h; exact Calm.err (by decide)
  · have hu := updateBuckets_calm thr st output.length (toInt32 y.length)
    split at h
    · next st' heq =>
      have hm : Calm (maskedY st' y indices u) := by
        unfold maskedY permuteY addMask
        have := hashIndices_calm
        calm <;> solve_by_elim
      split at h
      · next hs yp _ =>
        have hi : Calm (indexInBucket st'.buckets indices hs (toInt32 st'.buckets.length)) := by
          unfold indexInBucket; calm
        cases h with
        | send _ _ _ _ h =>
          split at h
          · obtain ⟨a, h1, h2⟩ := Returns.bind h
            cases h2
            exact finish_calm _ _ _ (spfssIndex_calm _ _ _ _ _ _ _ h1)
          · next e => cases h; exact Calm.err (hi _ _ e)
          · cases h; exact Calm.throws _
          · cases h; exact Calm.ub _
          · cases h; exact Calm.diverge
      · next e => cases h; exact Calm.err (hm _ _ e)
      · cases h; exact Calm.throws _
      · cases h; exact Calm.ub _
      · cases h; exact Calm.diverge
    · next e st' _ heq => cases h; rw [heq] at hu; exact hu

/-! ### Gilboa product -/

theorem spanToBlock_calm (v : List T) (m : T) : Calm (Gilboa.spanToBlock v m) := by unfold Gilboa.spanToBlock; dsimp only; calm
theorem blockToSpan_calm (b) (o : List T) : Calm (Gilboa.blockToSpan b o) := by unfold Gilboa.blockToSpan; dsimp only; calm
theorem correlate_calm (d m) : Calm (Gilboa.correlate T d m) := by
  unfold Gilboa.correlate
  have := blockToSpan_calm (T := T)
  have := spanToBlock_calm (T := T)
  calm <;> solve_by_elim
theorem otMessages_calm (s m) (r : Nat → List T) (d n) : Calm (Gilboa.otMessages s m r d n) := by
  unfold Gilboa.otMessages Gilboa.correlatedMessages Gilboa.chosenMessages
  have := correlate_calm (T := T)
  have := spanToBlock_calm (T := T)
  calm <;> solve_by_elim
theorem accumulate_calm (op : T → T → T) (ot n c o) : Calm (Gilboa.accumulate op ot n c o) := by
  unfold Gilboa.accumulate
  have := blockToSpan_calm (T := T)
  dsimp only
  calm <;> solve_by_elim
theorem makeDeltas_calm (y : List T) (n) : Calm (Gilboa.makeDeltas y n) := by
  unfold Gilboa.makeDeltas
  have := spanToBlock_calm (T := T)
  dsimp only
  calm <;> solve_by_elim
theorem makeChoices_calm (x : T) (n m) : Calm (Gilboa.makeChoices x n m) := by unfold Gilboa.makeChoices Gilboa.getBits; calm
theorem gilboaVector_calm (c s m r) (y o : List T) : CalmP (Gilboa.runVectorProvider c s m r y o) := by
  unfold Gilboa.runVectorProvider
  split
  · exact CalmP.lift (Calm.err (by decide))
  split
  · exact CalmP.lift (Calm.err (by decide))
  split
  · exact CalmP.lift (Calm.ub _)
  · exact CalmP.bind (CalmP.lift (makeDeltas_calm _ _)) (fun _ => CalmP.bind (CalmP.lift (otMessages_calm _ _ _ _ _)) (fun _ =>
      CalmP.bind (CalmP.otSend _ _ _) (fun _ => CalmP.lift (accumulate_calm _ _ _ _ _))))
theorem gilboaValue_calm (c s) (x : T) (o : List T) : CalmP (Gilboa.runValueProvider c s x o) := by
  unfold Gilboa.runValueProvider
  dsimp only
  split
  · exact CalmP.lift (Calm.err (by decide))
  split
  · exact CalmP.lift (Calm.ub _)
  · refine CalmP.bind (CalmP.lift ?_) (fun n => ?_)
    · unfold Gilboa.numOTs; dsimp only; calm
    · split
      · exact CalmP.lift (Calm.throws _)
      · exact CalmP.bind (CalmP.lift (makeChoices_calm _ _ _)) (fun _ => CalmP.bind (CalmP.otRecv _ _ _) (fun _ => CalmP.lift (accumulate_calm _ _ _ _ _)))

end DVO.VOLE
