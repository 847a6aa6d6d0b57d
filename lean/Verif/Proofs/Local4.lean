/-
Contracts of the member functions of the receiver.
-/
import Verif.Proofs.Local3

namespace DVO.VOLE
open MPFSS
set_option linter.unusedSectionVars false
variable {T α β : Type} [Scalar T]

/-- The part of the state that does not change in a run of a ready receiver. -/
structure SameR (s s' : VState T) : Prop where
  hasher : s'.mpfss.hasher = s.mpfss.hasher
  batch : s'.batch = s.batch
  vole : s'.voleSize = s.voleSize
  mpfss : s'.mpfssSize = s.mpfssSize
  noise : s'.noise = s.noise
  code : s'.code = s.code
  rDone : s'.rDone = s.rDone
  delta : s'.rCached.delta = s.rCached.delta

theorem SameR.refl (s : VState T) : SameR s s := ⟨rfl, rfl, rfl, rfl, rfl, rfl, rfl, rfl⟩
theorem SameR.trans {a b c : VState T} (h : SameR a b) (h' : SameR b c) : SameR a c :=
  ⟨h'.1.trans h.1, h'.2.trans h.2, h'.3.trans h.3, h'.4.trans h.4, h'.5.trans h.5, h'.6.trans h.6, h'.7.trans h.7, h'.8.trans h.8⟩

/-- The dimensions are those that `ExpandReceiver` expects. -/
def RDims (o : Int) (s : VState T) : Prop := s.code.rows = s.rVole.w.length ∧ (s.code.cols.length : Int) = o

/-- What `ExpandReceiver` does if it succeeds. -/
structure ExpR (o nv nm : Int) (s s' : VState T) : Prop where
  hasher : s'.mpfss.hasher = s.mpfss.hasher
  batch : s'.batch = s.batch
  noise : s'.noise = s.noise
  code : s'.code = s.code
  rDone : s'.rDone = s.rDone
  voleSize : s'.voleSize = nv
  mpfssSize : s'.mpfssSize = nm
  log : s'.log = s.log ++ [(s.noise, s.voleSize, o)]
  w : (s'.rCached.w.length : Int) = s.rCached.w.length + o - nv - nm
  vol : (s'.rVole.w.length : Int) = nv
  mp : (s'.rMpfss.w.length : Int) = nm
  delta : s'.rCached.delta = s.rCached.delta
  vdelta : s'.rVole.delta = s.rCached.delta
  mdelta : s'.rMpfss.delta = s.rCached.delta
  pos : 0 ≤ o
  moves : Moves true s [] s'

theorem take_app {l m : List α} {n : Nat} (h : n = m.length) : (l ++ m).take ((l ++ m).length - n) = l := by
  subst h
  simp

/-- The seeds of the receiver have the sizes recorded in the object and belong to the same `delta` as the cache, and the MPFSS
    seed is as long as the number of buckets for the noise parameter. -/
structure RFit (s : VState T) : Prop where
  vw : (s.rVole.w.length : Int) = s.voleSize
  mw : (s.rMpfss.w.length : Int) = s.mpfssSize
  buckets : numBuckets s.mpfss.hasher s.noise = .ok s.mpfssSize
  vdelta : s.rVole.delta = s.rCached.delta
  mdelta : s.rMpfss.delta = s.rCached.delta

/-- The state of a receiver that is ready for `RunReceiver`. -/
structure RReady (s : VState T) : Prop extends RFit s where
  rows : s.code.rows = s.voleSize
  cols : (s.code.cols.length : Int) = s.batch + s.voleSize + s.mpfssSize

theorem RReady.adj {s : VState T} (h : RReady s) (st : State) (p : Nat) (hh : st.hasher = s.mpfss.hasher) : RReady { s with mpfss := st, pos := p } := by
  obtain ⟨⟨h1, h2, h3, h4, h5⟩, h6, h7⟩ := h
  exact ⟨⟨h1, h2, by dsimp only; rw [hh]; exact h3, h4, h5⟩, h6, h7⟩

theorem RReady.grow {s : VState T} (h : RReady s) {st : State} {p : Nat} (w i : List _) (hh : st.hasher = s.mpfss.hasher) {m l} : RReady
    { s with mpfss := st, pos := p, rCached := ⟨w, s.rCached.delta, i⟩, rMade := m, log := l } := by
  obtain ⟨⟨h1, h2, h3, h4, h5⟩, h6, h7⟩ := h
  exact ⟨⟨h1, h2, by dsimp only; rw [hh]; exact h3, h4, h5⟩, h6, h7⟩

theorem RReady.vole {s : VState T} (h : RReady s) {n : Int} (hn : n = s.voleSize) {rest a : RRes T} (hg : getReceiver s.rCached n = .ok (rest, a)) {l} :
    RReady { s with rCached := rest, rVole := a, rUsed := l } := by
  obtain ⟨⟨h1, h2, h3, h4, h5⟩, h6, h7⟩ := h
  obtain ⟨g1, g2, rfl, rfl⟩ := getReceiver_ok hg
  subst hn
  refine ⟨⟨?_, h2, h3, rfl, h5⟩, h6, h7⟩
  simp; omega

theorem expandReceiver_loc (E : Env T) (o nv nm : Int) (s : VState T) : Loc (expandReceiver E o nv nm s)
    (fun _ s' => ExpR o nv nm s s')
    (fun e s' => (E.lib.NoStatus → RDims o s → Calm e) ∧ Moves false s [] s' ∧ (SameR s s' ∧ ∀ x ∈ s'.log, x ∈ s.log ∨ x = (s.noise, s.voleSize, o)) ∧ (RReady s → nv = s.voleSize → nm = s.mpfssSize → RReady s')) := by
  unfold expandReceiver
  rw [VM.get_bind]
  by_cases h2 : s.code.rows ≠ s.rVole.w.length ∨ (s.code.cols.length : Int) ≠ o
  · rw [if_pos h2]
    refine Loc.fail rfl ⟨fun _ hd => ?_, .refl s, ⟨.refl s, fun _ h => .inl h⟩, fun h _ _ => h⟩
    rcases h2 with h2 | h2
    · exact absurd hd.1 h2
    · exact absurd hd.2 h2
  rw [if_neg h2]
  refine Loc.drawBind (fun rg p1 => ?_)
  refine Loc.liftBind (fun garbage hg => ?_) (fun e he => ⟨fun _ _ => (vecOf_calm _ _).failure he, .prim (.adj ..), ⟨⟨rfl, rfl, rfl, rfl, rfl, rfl, rfl, rfl⟩, fun _ h => .inl h⟩, fun h _ _ => h.adj _ _ rfl⟩)
  obtain ⟨ho, hg⟩ := vecOf_ok hg
  have lg : garbage.length = o.toNat := by rw [hg]; simp
  rw [VM.modify_bind]
  dsimp only
  have hgar : Moves false s [] { s with rCached := { s.rCached with w := s.rCached.w ++ garbage, ids := s.rCached.ids ++ List.replicate o.toNat none } } := by
    rw [← lg]; exact Moves.prim (.rGarbage s garbage rfl)
  refine Loc.drawBind (fun rv p2 => ?_)
  dsimp only
  refine Loc.liftBind (fun v0 _ => ?_) (fun e he => ⟨fun _ _ => (vecOf_calm _ _).failure he, hgar.adj .., ⟨⟨rfl, rfl, rfl, rfl, rfl, rfl, rfl, rfl⟩, fun _ h => .inl h⟩, fun h _ _ => h.grow _ _ rfl⟩)
  refine Loc.runMpfssBind (fun r hr _ => ?_) (fun r e hr he => ⟨fun _ _ => (value_calm hr).failure he, hgar.adj .., ⟨⟨value_hasher hr, rfl, rfl, rfl, rfl, rfl, rfl, rfl⟩, fun _ h => .inl h⟩, fun h _ _ => h.grow _ _ (value_hasher hr)⟩)
  have hh := value_hasher hr
  dsimp only
  refine Loc.liftBind (fun w hw => ?_) (fun e he => ⟨fun _ _ => (vecMat_calm _ _).failure he, hgar.adj .., ⟨⟨hh, rfl, rfl, rfl, rfl, rfl, rfl, rfl⟩, fun _ h => .inl h⟩, fun h _ _ => h.grow _ _ hh⟩)
  refine Loc.liftBind (fun w2 hw2 => ?_) (fun e he => ⟨fun _ _ => (vecOp_calm _ _ _).failure he, hgar.adj .., ⟨⟨hh, rfl, rfl, rfl, rfl, rfl, rfl, rfl⟩, fun _ h => .inl h⟩, fun h _ _ => h.grow _ _ hh⟩)
  rw [VM.modify_bind]
  dsimp only
  have l1 := (vecOp_len hw2).1.trans (vecMat_len hw)
  have l3 : (w2.length : Int) = o := by omega
  rw [take_app lg.symm, take_app (by simp)]
  have hgrow : Moves true s [] { s with mpfss := r.st, pos := p2, rCached := { s.rCached with w := s.rCached.w ++ w2, ids := s.rCached.ids ++ freshIds s.rMade.length w2.length }, rMade := s.rMade ++ w2, log := s.log ++ [(s.noise, s.voleSize, o)] } :=
    (Moves.prim (.rGrow s w2)).adj _ _ _ _ _ _ _ _
  rw [show o.toNat = w2.length by omega]
  refine Loc.bind ((getReceiverCached_loc nv _).mono (fun _ _ h => h) ?_) ?_
  · rintro e s' ⟨rfl, he⟩
    exact ⟨fun _ _ => (getReceiver_calm _ _).failure he, hgrow.dirty, ⟨⟨hh, rfl, rfl, rfl, rfl, rfl, rfl, rfl⟩, fun _ h => (List.mem_append.1 h).imp id (fun h => by simpa using h)⟩, fun h _ _ => h.grow _ _ hh⟩
  rintro a s1 ⟨rest, hg, rfl⟩
  rw [VM.modify_bind]
  have hg' := getReceiver_ok hg
  have hm2 := hgrow.then (.prim (.rVole _ nv rest a hg))
  refine Loc.bind ((getReceiverCached_loc nm _).mono (fun _ _ h => h) ?_) ?_
  · rintro e s' ⟨rfl, he⟩
    exact ⟨fun _ _ => (getReceiver_calm _ _).failure he, hm2.dirty, ⟨⟨hh, rfl, rfl, rfl, rfl, rfl, rfl, by obtain ⟨-, -, rfl, -⟩ := hg'; rfl⟩, fun _ h => (List.mem_append.1 h).imp id (fun h => by simpa using h)⟩, fun h e1 _ => (h.grow _ _ hh).vole e1 hg⟩
  rintro b s2 ⟨rest2, hg2, rfl⟩
  rw [VM.modify_apply]
  have hg2' := getReceiver_ok hg2
  have hm3 := (hm2.then (.prim (.rMpfss _ nm rest2 b hg2))).adj r.st s.code s.batch nv nm s.noise p2 (s.log ++ [(s.noise, s.voleSize, o)])
  obtain ⟨g1, g2, rfl, rfl⟩ := hg'
  obtain ⟨g4, g5, rfl, rfl⟩ := hg2'
  refine Loc.ret ⟨hh, rfl, rfl, rfl, rfl, rfl, rfl, rfl, ?_, ?_, ?_, rfl, rfl, rfl, by omega, hm3⟩
  all_goals
    simp only [List.length_take, List.length_drop, List.length_append] at g2 g5 ⊢
    omega

/-- What the bootstrapping loop of the receiver does if it succeeds. -/
structure BootR (b : Int) (i : Nat) (s s' : VState T) : Prop where
  hasher : s'.mpfss.hasher = s.mpfss.hasher
  batch : s'.batch = s.batch
  rDone : s'.rDone = s.rDone
  w : s'.rCached.w.length = s.rCached.w.length
  delta : s'.rCached.delta = s.rCached.delta
  fit : RFit s'
  row : ∃ j l, Row j s' ∧ s'.log = s.log ++ l ∧ BootLog s.mpfss.hasher i j l ∧ (j = 4 ∨ ∃ o, rd outputSizes j = .ok o ∧ b + s'.mpfssSize + s'.voleSize ≤ o) ∧
    ∀ k, i ≤ k → k < j → TooSmall s.mpfss.hasher b k
  moves : Moves true s [] s'

theorem bootReceiver_loc (E : Env T) (b : Int) : ∀ (k i : Nat) (s : VState T), i + k = 4 → RFit s → Row i s → Loc (bootReceiver E b k i s)
    (fun _ s' => BootR b i s s')
    (fun e s' => (E.lib.NoStatus → Calm e) ∧ Moves false s [] s' ∧ s'.rDone = s.rDone ∧ Booted s s') := by
  intro k
  induction k with
  | zero =>
    intro i s hi hf hr
    exact Loc.ret ⟨rfl, rfl, rfl, rfl, rfl, hf, ⟨i, [], hr, by simp, ⟨le_refl _, by simp, by simp⟩, .inl (by omega), fun k h1 h2 => by omega⟩, .refl s⟩
  | succ k ih =>
    intro i s hi hf hr
    unfold bootReceiver
    rw [VM.get_bind]
    refine Loc.liftBind (fun o ho => ?_) (fun e he => ⟨fun _ => (Calm.rd _ _).failure he, .refl s, rfl, .refl s⟩)
    refine Loc.liftBind (fun need hneed => ?_) (fun e he => ⟨fun _ => (Calm.bind (i64_calm _) (fun _ => i64_calm _)).failure he, .refl s, rfl, .refl s⟩)
    have hneed : need = b + s.mpfssSize + s.voleSize := by
      obtain ⟨x, h1, h2⟩ := Out.bind_eq_ok.1 hneed
      rw [i64_eq h2, i64_eq h1]; omega
    by_cases hge : o ≥ need
    · rw [if_pos hge]
      exact Loc.ret ⟨rfl, rfl, rfl, rfl, rfl, hf, ⟨i, [], hr, by simp, ⟨le_refl _, by simp, by simp⟩, .inr ⟨o, ho, by omega⟩, fun k h1 h2 => by omega⟩, .refl s⟩
    rw [if_neg hge]
    refine Loc.liftBind (fun nv hnv => ?_) (fun e he => ⟨fun _ => (Calm.rd _ _).failure he, .refl s, rfl, .refl s⟩)
    refine Loc.liftBind (fun nn hnn => ?_) (fun e he => ⟨fun _ => (Calm.rd _ _).failure he, .refl s, rfl, .refl s⟩)
    refine Loc.liftBind (fun nm hnm => ?_) (fun e he => ⟨fun _ => (numBuckets_calm _ _).failure he, .refl s, rfl, .refl s⟩)
    refine Loc.liftBind (fun out hout => ?_) (fun e he => ⟨fun _ => (i32_calm _).failure he, .refl s, rfl, .refl s⟩)
    have hout := i32_eq hout
    refine Loc.bind ((precomputeCommon_loc E out s).mono (fun _ _ h => h) ?_) ?_
    · rintro e s' ⟨h1, st, code, pos, rfl, hst⟩
      exact ⟨h1, .prim (.adj ..), rfl, hst, fun _ h => .inl h⟩
    rintro - s1 ⟨st, code, pos, rfl, hst, hrows, hcols⟩
    have hm1 : Moves true s [] { s with mpfss := st, code := code, pos := pos } := .prim (.adj ..)
    refine Loc.bind ((expandReceiver_loc E out nv nm _).mono (fun _ _ h => h) ?_) ?_
    · rintro e s' ⟨h1, h2, ⟨h3, h4⟩, -⟩
      refine ⟨fun hl => h1 hl ⟨?_, hcols⟩, hm1.dirty.then h2, h3.rDone, h3.hasher.trans hst, fun x hx => (h4 x hx).imp id (fun e => ⟨i, by subst e; exact ⟨nv, nn, nm, hr.1, hr.2, hnv, hnn, hnm, hout⟩⟩)⟩
      have := hf.vw; dsimp only; omega
    rintro - s2 hx
    rw [VM.modify_bind]
    have hfit : RFit { s2 with noise := nn } := by
      constructor
      · exact hx.vol.trans hx.voleSize.symm
      · exact hx.mp.trans hx.mpfssSize.symm
      · dsimp only
        rw [hx.hasher, hx.mpfssSize]
        dsimp only
        rw [hst]; exact hnm
      · exact hx.vdelta.trans hx.delta.symm
      · exact hx.mdelta.trans hx.delta.symm
    have hm2 : Moves true s [] { s2 with noise := nn } := (hm1.then hx.moves).adj ..
    refine (ih (i + 1) { s2 with noise := nn } (by omega) hfit ⟨hnn, hx.voleSize ▸ hnv⟩).mono ?_ ?_
    · intro _ s3 hb
      have hh : s2.mpfss.hasher = s.mpfss.hasher := hx.hasher.trans hst
      refine ⟨hb.hasher.trans hh, hb.batch.trans hx.batch, hb.rDone.trans hx.rDone, hb.w.trans ?_, hb.delta.trans hx.delta, hb.fit, ?_, hm2.then hb.moves⟩
      · have := hx.w; dsimp only at this ⊢; omega
      · obtain ⟨j, l, h1, h2, ⟨h3, h4, h5⟩, h6, h7⟩ := hb.row
        refine ⟨j, (s.noise, s.voleSize, out) :: l, h1, ?_, ⟨by clear h6; omega, by clear h6; simp; omega, ?_⟩, h6, fun k' hk1 hk2 => ?_⟩
        · rw [h2]; dsimp only; rw [hx.log]; simp
        · intro k' e he
          cases k' with
          | zero =>
            simp only [List.getElem?_cons_zero, Option.some.injEq] at he
            subst he
            exact ⟨nv, nn, nm, hr.1, hr.2, hnv, hnn, hnm, hout⟩
          | succ k' =>
            simp only [List.getElem?_cons_succ] at he
            have := h5 k' e he
            dsimp only at this
            rw [hh] at this
            rwa [show i + (k' + 1) = i + 1 + k' by omega]
        · by_cases hk : k' = i
          · subst hk
            exact ⟨o, _, _, _, ho, hr.1, hr.2, hf.buckets, by omega⟩
          · have := h7 k' (by omega) hk2
            dsimp only at this
            rwa [hh] at this
    · rintro e s3 ⟨h1, h2, h3, h4⟩
      refine ⟨h1, hm2.dirty.then h2, h3.trans hx.rDone, ?_⟩
      refine Booted.trans (b := { s2 with noise := nn }) ⟨hx.hasher.trans hst, ?_⟩ h4
      intro x hx'
      rw [show ({ s2 with noise := nn } : VState T).log = s2.log from rfl, hx.log] at hx'
      refine (List.mem_append.1 hx').imp id (fun e => ⟨i, ?_⟩)
      simp only [List.mem_singleton] at e
      subst e
      exact ⟨nv, nn, nm, hr.1, hr.2, hnv, hnn, hnm, hout⟩

/-- What `PrecomputeReceiver` does if it succeeds. -/
structure PreR (b : Int) (d : T) (s s' : VState T) : Prop where
  pos : 1 ≤ b
  hasher : s'.mpfss.hasher = s.mpfss.hasher
  ready : RReady s'
  rDone : s'.rDone = true
  empty : s'.rCached.w.length = 0
  delta : s'.rCached.delta = d
  chosen : Chosen b s s'
  moves : Moves true s [.delta d] s'

theorem precomputeReceiver_loc (E : Env T) (b : Int) (d : T) (s : VState T) : Loc (precomputeReceiver E b d s)
    (fun _ s' => PreR b d s s')
    (fun e s' => (E.lib.NoStatus → Calm e) ∧ (∃ n, Moves false s (List.replicate n (.delta d)) s') ∧ s'.rDone = s.rDone ∧ Booted s s') := by
  unfold precomputeReceiver
  by_cases hb : b < 1
  · rw [if_pos hb]
    exact Loc.fail rfl ⟨fun _ => Calm.err (by decide), ⟨0, .refl s⟩, rfl, rfl, fun _ h => .inl h⟩
  rw [if_neg hb]
  refine Loc.bind ((startPrecompute_loc s).mono (fun _ _ h => h) ?_) ?_
  · rintro e s' ⟨h1, m, rfl⟩
    exact ⟨fun _ => h1, ⟨0, .prim (.adj ..)⟩, rfl, rfl, fun _ h => .inl h⟩
  rintro n s1 ⟨m, hm, hn, rfl⟩
  refine Loc.drawBind (fun rw p1 => ?_)
  refine Loc.liftBind (fun w hw => ?_) (fun e he => ⟨fun _ => (vecOf_calm _ _).failure he, ⟨0, .prim (.adj ..)⟩, rfl, rfl, fun _ h => .inl h⟩)
  obtain ⟨hn0, hw⟩ := vecOf_ok hw
  have lw : w.length = n.toNat := by rw [hw]; simp
  rw [VM.modify_bind]
  dsimp only
  have junk : ∀ w : List T, w.length = n.toNat → Moves false s [.delta d] { s with rCached := ⟨w, d, List.replicate n.toNat none⟩ } := by
    intro w hw
    rw [← hw]; exact .prim (.rJunk s w d rfl)
  have good : ∀ w : List T, w.length = n.toNat → Moves true s [.delta d] { s with rCached := ⟨w, d, freshIds s.rMade.length n.toNat⟩, rMade := s.rMade ++ w } := by
    intro w hw
    rw [← hw]; exact .prim (.rReset s w d)
  refine Loc.runBind (fun w1 hw1 => ?_) (fun o e h1 h2 => ⟨fun _ => (gilboaValue_calm _ _ _ _ _ h1).failure h2, ⟨1, (junk w lw).adj ..⟩, rfl, rfl, fun _ h => .inl h⟩)
  have lw1 : w1.length = n.toNat := (gilboa_len hw1).trans lw
  rw [VM.modify_bind]
  dsimp only
  refine Loc.runBind (fun mm _ => ?_) (fun o e h1 h2 => ⟨fun _ => (CalmP.recv _ _ h1).failure h2, ⟨1, (junk w1 lw1).adj ..⟩, rfl, rfl, fun _ h => .inl h⟩)
  refine Loc.liftBind (fun w2 _ => ?_) (fun e he => ⟨fun _ => (unElems_calm _).failure he, ⟨1, (junk w1 lw1).adj ..⟩, rfl, rfl, fun _ h => .inl h⟩)
  refine Loc.liftBind (fun w3 hw3 => ?_) (fun e he => ⟨fun _ => (vecOp_calm _ _ _).failure he, ⟨1, (junk w1 lw1).adj ..⟩, rfl, rfl, fun _ h => .inl h⟩)
  have lw3 : w3.length = n.toNat := (vecOp_len hw3).1.trans lw1
  rw [VM.modify_bind]
  dsimp only
  rw [VM.get_bind]
  dsimp only
  have hm1 := (good w3 lw3).adj s.mpfss s.code 0 1589 m 98 p1 s.log
  refine Loc.bind ((getReceiverCached_loc 1589 _).mono (fun _ _ h => h) ?_) ?_
  · rintro e s' ⟨rfl, he⟩
    exact ⟨fun _ => (getReceiver_calm _ _).failure he, ⟨1, hm1.dirty⟩, rfl, rfl, fun _ h => .inl h⟩
  rintro a s2 ⟨rest, hg, rfl⟩
  rw [VM.modify_bind]
  dsimp only
  have hg' := getReceiver_ok hg
  have hm2 := hm1.then (.prim (.rVole _ 1589 rest a hg))
  refine Loc.bind ((getReceiverCached_loc m _).mono (fun _ _ h => h) ?_) ?_
  · rintro e s' ⟨rfl, he⟩
    exact ⟨fun _ => (getReceiver_calm _ _).failure he, ⟨1, hm2.dirty⟩, rfl, rfl, fun _ h => .inl h⟩
  rintro c s3 ⟨rest2, hg2, rfl⟩
  rw [VM.modify_bind]
  dsimp only
  have hg2' := getReceiver_ok hg2
  have hm3 := hm2.then (.prim (.rMpfss _ m rest2 c hg2))
  dsimp only at hm3
  obtain ⟨g1, g2, rfl, rfl⟩ := hg'
  obtain ⟨g4, g5, rfl, rfl⟩ := hg2'
  dsimp only at hm3 g2 g5 ⊢
  generalize hs4 : ({ s with batch := 0, noise := 98, voleSize := 1589, mpfssSize := m, pos := p1, rCached := _, rVole := _, rMpfss := _, rMade := _, rUsed := _ } : VState T) = s4 at hm3 ⊢
  have hfit : RFit s4 := by
    subst hs4
    simp only [List.length_take] at g2 g5
    constructor
    · simp only [List.length_drop]; omega
    · simp only [List.length_drop, List.length_take]; omega
    · exact hm
    · rfl
    · rfl
  have hrow : Row 0 s4 := by subst hs4; exact ⟨rfl, rfl⟩
  have hu0 : s4.rCached.w.length = 0 := by subst hs4; simp only [List.length_take] at g5 ⊢; omega
  have hd4 : s4.rCached.delta = d := by subst hs4; rfl
  have hh4 : s4.mpfss.hasher = s.mpfss.hasher := by subst hs4; rfl
  have hn4 : s4.rDone = s.rDone := by subst hs4; rfl
  have hl4 : s4.log = s.log := by subst hs4; rfl
  refine Loc.bind ((bootReceiver_loc E b _ 0 s4 rfl hfit hrow).mono (fun _ _ h => h) ?_) ?_
  · rintro e s' ⟨h1, h2, h3, h5⟩
    exact ⟨h1, ⟨1, hm3.dirty.then h2⟩, h3.trans hn4, h5.1.trans hh4, fun x hx => by have := h5.2 x hx; rwa [hl4, hh4] at this⟩
  rintro - s5 hb5
  refine Loc.bind ((finishPrecompute_loc E b s5).mono (fun _ _ h => h) ?_) ?_
  · rintro e s' ⟨h1, st, code, pos, ba, rfl, hst⟩
    refine ⟨h1, ⟨1, (hm3.then hb5.moves).dirty.adj ..⟩, hb5.rDone.trans hn4, hst.trans (hb5.hasher.trans hh4), ?_⟩
    obtain ⟨j, l, -, r2, r3, -⟩ := hb5.row
    intro x hx
    rw [show ({ s5 with mpfss := st, code := code, pos := pos, batch := ba } : VState T).log = s5.log from rfl, r2, hl4] at hx
    rw [hh4] at r3
    exact (List.mem_append.1 hx).imp id r3.booted
  rintro - s6 ⟨st, code, pos, rfl, h1, h2, h3⟩
  have F := hb5.fit
  refine Loc.ret ⟨by omega, h1.trans (hb5.hasher.trans hh4), ⟨⟨F.vw, F.mw, ?_, F.vdelta, F.mdelta⟩, h2, h3⟩, rfl, hb5.w.trans hu0, hb5.delta.trans hd4, ⟨rfl, ?_⟩, ((hm3.then hb5.moves).adj ..).then (.prim (.rDone _))⟩
  · dsimp only; rw [h1]; exact F.buckets
  · obtain ⟨j, l, r1, r2, r3, r4, r5⟩ := hb5.row
    rw [hh4] at r3 r5
    rw [hl4] at r2
    exact ⟨j, l, r1, r2, r3, r4, fun k hk => r5 k (by omega) hk⟩

end DVO.VOLE
