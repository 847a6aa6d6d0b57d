/-
Contracts of the member functions of the sender.
-/
import Verif.Proofs.Local2

namespace DVO.VOLE
open MPFSS
set_option linter.unusedSectionVars false
variable {T α β : Type} [Scalar T]

theorem Loc.drawBind {Q' : β → VState T → Prop} {F : Out Unit → VState T → Prop} {E : Env T} {f : Rand T → VM T β} {s : VState T}
    (h : ∀ r p, Loc (f r { s with pos := p }) Q' F) : Loc ((VM.draw E >>= f) s) Q' F := h _ _

/-- Failures of `PrecomputeCommon`: only the buckets, the code generator and the randomness change. -/
theorem precomputeCommon_loc (E : Env T) (o : Int) (s : VState T) : Loc (precomputeCommon E o s)
    (fun _ s' => ∃ st code pos, s' = { s with mpfss := st, code := code, pos := pos } ∧ st.hasher = s.mpfss.hasher ∧
      code.rows = s.voleSize ∧ (code.cols.length : Int) = o)
    (fun e s' => (E.lib.NoStatus → Calm e) ∧ ∃ st code pos, s' = { s with mpfss := st, code := code, pos := pos } ∧ st.hasher = s.mpfss.hasher) := by
  unfold precomputeCommon
  rw [VM.get_bind]
  have hup : Loc (updateBuckets E o s.noise s)
      (fun _ s1 => ∃ st, s1 = { s with mpfss := st } ∧ st.hasher = s.mpfss.hasher)
      (fun e s' => (E.lib.NoStatus → Calm e) ∧ ∃ st code pos, s' = { s with mpfss := st, code := code, pos := pos } ∧ st.hasher = s.mpfss.hasher) := by
    have hc := updateBuckets_calm E.thr s.mpfss o s.noise
    have hh := updateBuckets_hasher E.thr s.mpfss o s.noise
    unfold updateBuckets
    dsimp only
    cases hx : failure (MPFSS.updateBuckets E.thr s.mpfss o s.noise).1 with
    | none => obtain ⟨a, e⟩ := failure_none hx; rw [e]; exact Loc.ret ⟨_, rfl, hh⟩
    | some e => exact Loc.fail hx ⟨fun _ => hc.failure hx, _, _, _, rfl, hh⟩
  refine Loc.bind hup ?_
  rintro - s1 ⟨st, rfl, hst⟩
  by_cases ho : o < 0
  · rw [if_pos ho]
    exact Loc.fail rfl ⟨fun _ => Calm.throws _, _, _, _, rfl, hst⟩
  rw [if_neg ho, VM.modify_bind]
  have hex : Loc (exchangeSeed E { s with mpfss := st, code := ⟨s.voleSize, List.replicate o.toNat []⟩ })
      (fun _ s2 => ∃ pos, s2 = { s with mpfss := st, code := ⟨s.voleSize, List.replicate o.toNat []⟩, pos := pos })
      (fun e s' => (E.lib.NoStatus → Calm e) ∧ ∃ st code pos, s' = { s with mpfss := st, code := code, pos := pos } ∧ st.hasher = s.mpfss.hasher) := by
    unfold exchangeSeed
    rw [VM.draw_bind]
    split
    · refine Loc.runBind (fun _ _ => Loc.ret ⟨_, rfl⟩) (fun o e h1 h2 => ⟨fun _ => (CalmP.send _ _ _ h1).failure h2, _, _, _, rfl, hst⟩)
    · refine Loc.runBind (fun m _ => Loc.lift (fun _ _ => ⟨_, rfl⟩) (fun e he => ⟨fun _ => (unBytes_calm m).failure he, _, _, _, rfl, hst⟩))
        (fun o e h1 h2 => ⟨fun _ => (CalmP.recv _ _ h1).failure h2, _, _, _, rfl, hst⟩)
  refine Loc.bind hex ?_
  rintro seed s2 ⟨pos, rfl⟩
  rw [VM.draw_bind]
  refine Loc.liftBind (fun rng _ => ?_) (fun e he => ⟨fun _ => (create_rng_calm _ _ _).failure he, _, _, _, rfl, hst⟩)
  split
  · exact Loc.fail rfl ⟨fun _ => Calm.err (by decide), _, _, _, rfl, hst⟩
  rw [VM.get_bind]
  refine Loc.liftBind (fun code hcode => ?_) (fun e he => ⟨fun hl => (sampleCode_calm hl _ _ _ _).failure he, _, _, _, rfl, hst⟩)
  obtain ⟨h1, h2⟩ := sampleCode_dims hcode
  exact Loc.ret ⟨st, code, _, rfl, hst, h1, by omega⟩

/-- The part of the state that does not change in a run of a ready sender. -/
structure SameS (s s' : VState T) : Prop where
  hasher : s'.mpfss.hasher = s.mpfss.hasher
  batch : s'.batch = s.batch
  vole : s'.voleSize = s.voleSize
  mpfss : s'.mpfssSize = s.mpfssSize
  noise : s'.noise = s.noise
  code : s'.code = s.code
  sDone : s'.sDone = s.sDone

theorem SameS.refl (s : VState T) : SameS s s := ⟨rfl, rfl, rfl, rfl, rfl, rfl, rfl⟩
theorem SameS.trans {a b c : VState T} (h : SameS a b) (h' : SameS b c) : SameS a c :=
  ⟨h'.1.trans h.1, h'.2.trans h.2, h'.3.trans h.3, h'.4.trans h.4, h'.5.trans h.5, h'.6.trans h.6, h'.7.trans h.7⟩

/-- The dimensions are those that `ExpandSender` expects. -/
def SDims (o : Int) (s : VState T) : Prop :=
  s.sVole.u.length = s.sVole.v.length ∧ s.code.rows = s.sVole.u.length ∧ (s.code.cols.length : Int) = o

/-- What `ExpandSender` does if it succeeds. -/
structure ExpS (o nv nm : Int) (s s' : VState T) : Prop where
  hasher : s'.mpfss.hasher = s.mpfss.hasher
  batch : s'.batch = s.batch
  noise : s'.noise = s.noise
  code : s'.code = s.code
  sDone : s'.sDone = s.sDone
  voleSize : s'.voleSize = nv
  mpfssSize : s'.mpfssSize = nm
  log : s'.log = s.log ++ [(s.noise, s.voleSize, o)]
  u : (s'.sCached.u.length : Int) = s.sCached.u.length + o - nv - nm
  v : (s'.sCached.v.length : Int) = s.sCached.v.length + o - nv - nm
  volU : (s'.sVole.u.length : Int) = nv
  volV : (s'.sVole.v.length : Int) = nv
  mpU : (s'.sMpfss.u.length : Int) = nm
  mpV : (s'.sMpfss.v.length : Int) = nm
  pos : 1 ≤ o
  moves : Moves true s [] s'

/-- The seeds of the sender have the sizes recorded in the object, and the MPFSS seed is as long as the number of
    buckets for the noise parameter. -/
structure SFit (s : VState T) : Prop where
  vu : (s.sVole.u.length : Int) = s.voleSize
  vv : (s.sVole.v.length : Int) = s.voleSize
  mu : (s.sMpfss.u.length : Int) = s.mpfssSize
  mv : (s.sMpfss.v.length : Int) = s.mpfssSize
  buckets : numBuckets s.mpfss.hasher s.noise = .ok s.mpfssSize

/-- The state of a sender that is ready for `RunSender`. -/
structure SReady (s : VState T) : Prop extends SFit s where
  rows : s.code.rows = s.voleSize
  cols : (s.code.cols.length : Int) = s.batch + s.voleSize + s.mpfssSize
  uv : s.sCached.v.length = s.sCached.u.length

theorem SReady.adj {s : VState T} (h : SReady s) (st : State) (p : Nat) (hh : st.hasher = s.mpfss.hasher) : SReady { s with mpfss := st, pos := p } := by
  obtain ⟨⟨h1, h2, h3, h4, h5⟩, h6, h7, h8⟩ := h
  exact ⟨⟨h1, h2, h3, h4, by dsimp only; rw [hh]; exact h5⟩, h6, h7, h8⟩

theorem SReady.grow {s : VState T} (h : SReady s) {st : State} (p : Nat) (u v i m l) (hh : st.hasher = s.mpfss.hasher) (huv : v.length = u.length) : SReady
    { s with mpfss := st, pos := p, sCached := ⟨s.sCached.u ++ u, s.sCached.v ++ v, i⟩, sMade := m, log := l } := by
  obtain ⟨⟨h1, h2, h3, h4, h5⟩, h6, h7, h8⟩ := h
  exact ⟨⟨h1, h2, h3, h4, by dsimp only; rw [hh]; exact h5⟩, h6, h7, by simp [h8, huv]⟩

theorem SReady.vole {s : VState T} (h : SReady s) {n : Int} (hn : n = s.voleSize) {rest a : SRes T} (hg : getSender s.sCached n = .ok (rest, a)) {l} :
    SReady { s with sCached := rest, sVole := a, sUsed := l } := by
  obtain ⟨⟨h1, h2, h3, h4, h5⟩, h6, h7, h8⟩ := h
  obtain ⟨g1, g2, g3, rfl, rfl⟩ := getSender_ok hg
  subst hn
  refine ⟨⟨?_, ?_, h3, h4, h5⟩, h6, h7, ?_⟩ <;> simp <;> omega

theorem expandSender_loc (E : Env T) (o nv nm : Int) (s : VState T) : Loc (expandSender E o nv nm s)
    (fun _ s' => ExpS o nv nm s s')
    (fun e s' => (E.lib.NoStatus → SDims o s → Calm e) ∧ Moves true s [] s' ∧ (SameS s s' ∧ ∀ x ∈ s'.log, x ∈ s.log ∨ x = (s.noise, s.voleSize, o)) ∧ (SReady s → nv = s.voleSize → nm = s.mpfssSize → SReady s')) := by
  unfold expandSender
  rw [VM.get_bind]
  by_cases h1 : s.sVole.u.length ≠ s.sVole.v.length
  · rw [if_pos h1]
    exact Loc.fail rfl ⟨fun _ hd => absurd hd.1 h1, .refl s, ⟨.refl s, fun _ h => .inl h⟩, fun h _ _ => h⟩
  rw [if_neg h1]
  by_cases h2 : s.code.rows ≠ s.sVole.u.length ∨ (s.code.cols.length : Int) ≠ o
  · rw [if_pos h2]
    refine Loc.fail rfl ⟨fun _ hd => ?_, .refl s, ⟨.refl s, fun _ h => .inl h⟩, fun h _ _ => h⟩
    rcases h2 with h2 | h2
    · exact absurd hd.2.1 h2
    · exact absurd hd.2.2 h2
  rw [if_neg h2]
  refine Loc.drawBind (fun rg p1 => ?_)
  refine Loc.liftBind (fun rng _ => ?_) (fun e he => ⟨fun _ _ => (create_rng_calm _ _ _).failure he, .prim (.adj ..), ⟨⟨rfl, rfl, rfl, rfl, rfl, rfl, rfl⟩, fun _ h => .inl h⟩, fun h _ _ => h.adj _ _ rfl⟩)
  by_cases ho : o < 1
  · rw [if_pos ho]
    exact Loc.fail rfl ⟨fun _ _ => Calm.ub _, .prim (.adj ..), ⟨⟨rfl, rfl, rfl, rfl, rfl, rfl, rfl⟩, fun _ h => .inl h⟩, fun h _ _ => h.adj _ _ rfl⟩
  rw [if_neg ho]
  refine Loc.liftBind (fun set _ => ?_) (fun e he => ⟨fun hl _ => (sampleIndices_calm hl _ _ _ _ _ _).failure he, .prim (.adj ..), ⟨⟨rfl, rfl, rfl, rfl, rfl, rfl, rfl⟩, fun _ h => .inl h⟩, fun h _ _ => h.adj _ _ rfl⟩)
  refine Loc.drawBind (fun ry p2 => ?_)
  dsimp only
  refine Loc.liftBind (fun y _ => ?_) (fun e he => ⟨fun _ _ => (vecOf_calm _ _).failure he, .prim (.adj ..), ⟨⟨rfl, rfl, rfl, rfl, rfl, rfl, rfl⟩, fun _ h => .inl h⟩, fun h _ _ => h.adj _ _ rfl⟩)
  refine Loc.drawBind (fun rv p3 => ?_)
  dsimp only
  refine Loc.liftBind (fun v0 _ => ?_) (fun e he => ⟨fun _ _ => (vecOf_calm _ _).failure he, .prim (.adj ..), ⟨⟨rfl, rfl, rfl, rfl, rfl, rfl, rfl⟩, fun _ h => .inl h⟩, fun h _ _ => h.adj _ _ rfl⟩)
  refine Loc.runMpfssBind (fun r hr _ => ?_) (fun r e hr he => ⟨fun _ _ => (index_calm hr).failure he, .prim (.adj ..), ⟨⟨index_hasher hr, rfl, rfl, rfl, rfl, rfl, rfl⟩, fun _ h => .inl h⟩, fun h _ _ => h.adj _ _ (index_hasher hr)⟩)
  have hh := index_hasher hr
  dsimp only
  refine Loc.liftBind (fun mu _ => ?_) (fun e he => ⟨fun _ _ => (spread_calm _ _ _ _).failure he, .prim (.adj ..), ⟨⟨hh, rfl, rfl, rfl, rfl, rfl, rfl⟩, fun _ h => .inl h⟩, fun h _ _ => h.adj _ _ hh⟩)
  refine Loc.liftBind (fun u hu => ?_) (fun e he => ⟨fun _ _ => (vecMat_calm _ _).failure he, .prim (.adj ..), ⟨⟨hh, rfl, rfl, rfl, rfl, rfl, rfl⟩, fun _ h => .inl h⟩, fun h _ _ => h.adj _ _ hh⟩)
  refine Loc.liftBind (fun u2 hu2 => ?_) (fun e he => ⟨fun _ _ => (vecOp_calm _ _ _).failure he, .prim (.adj ..), ⟨⟨hh, rfl, rfl, rfl, rfl, rfl, rfl⟩, fun _ h => .inl h⟩, fun h _ _ => h.adj _ _ hh⟩)
  refine Loc.liftBind (fun v hv => ?_) (fun e he => ⟨fun _ _ => (vecMat_calm _ _).failure he, .prim (.adj ..), ⟨⟨hh, rfl, rfl, rfl, rfl, rfl, rfl⟩, fun _ h => .inl h⟩, fun h _ _ => h.adj _ _ hh⟩)
  refine Loc.liftBind (fun v2 hv2 => ?_) (fun e he => ⟨fun _ _ => (vecOp_calm _ _ _).failure he, .prim (.adj ..), ⟨⟨hh, rfl, rfl, rfl, rfl, rfl, rfl⟩, fun _ h => .inl h⟩, fun h _ _ => h.adj _ _ hh⟩)
  rw [VM.modify_bind]
  have l1 := (vecOp_len hu2).1.trans (vecMat_len hu)
  have l2 := (vecOp_len hv2).1.trans (vecMat_len hv)
  have l3 : (u2.length : Int) = o := by omega
  have hgrow : Moves true s [] { s with mpfss := r.st, pos := p3, sCached := ⟨s.sCached.u ++ u2, s.sCached.v ++ v2, s.sCached.ids ++ freshIds s.sMade.length u2.length⟩, sMade := s.sMade ++ List.zip u2 v2, log := s.log ++ [(s.noise, s.voleSize, o)] } :=
    (Moves.prim (.sGrow s u2 v2 (by omega))).adj _ _ _ _ _ _ _ _
  rw [show o.toNat = u2.length by omega]
  refine Loc.bind ((getSenderCached_loc nv _).mono (fun _ _ h => h) ?_) ?_
  · rintro e s' ⟨rfl, he⟩
    exact ⟨fun _ _ => (getSender_calm _ _).failure he, hgrow, ⟨⟨hh, rfl, rfl, rfl, rfl, rfl, rfl⟩, fun _ h => (List.mem_append.1 h).imp id (fun h => by simpa using h)⟩, fun h _ _ => h.grow _ u2 v2 _ _ _ hh (l2.trans l1.symm)⟩
  rintro a s1 ⟨rest, hg, rfl⟩
  rw [VM.modify_bind]
  have hg' := getSender_ok hg
  have hm2 := hgrow.then (.prim (.sVole _ nv rest a hg))
  refine Loc.bind ((getSenderCached_loc nm _).mono (fun _ _ h => h) ?_) ?_
  · rintro e s' ⟨rfl, he⟩
    exact ⟨fun _ _ => (getSender_calm _ _).failure he, hm2, ⟨⟨hh, rfl, rfl, rfl, rfl, rfl, rfl⟩, fun _ h => (List.mem_append.1 h).imp id (fun h => by simpa using h)⟩, fun h e1 _ => (h.grow _ u2 v2 _ _ _ hh (l2.trans l1.symm)).vole e1 hg⟩
  rintro b s2 ⟨rest2, hg2, rfl⟩
  rw [VM.modify_apply]
  have hg2' := getSender_ok hg2
  have hm3 := (hm2.then (.prim (.sMpfss _ nm rest2 b hg2))).adj r.st s.code s.batch nv nm s.noise (p3) (s.log ++ [(s.noise, s.voleSize, o)])
  obtain ⟨g1, g2, g3, rfl, rfl⟩ := hg'
  obtain ⟨g4, g5, g6, rfl, rfl⟩ := hg2'
  refine Loc.ret ⟨hh, rfl, rfl, rfl, rfl, rfl, rfl, rfl, ?_, ?_, ?_, ?_, ?_, ?_, by omega, hm3⟩
  all_goals
    simp only [List.length_take, List.length_drop, List.length_append] at g2 g3 g5 g6 ⊢
    omega


/-! ### Precomputation -/

/-- Row `i` of the parameter table is in use. -/
def Row (i : Nat) (s : VState T) : Prop := rd noiseSizes i = .ok s.noise ∧ rd seedSizes i = .ok s.voleSize

/-- An expansion made during precomputation, with row `k` of the parameters for the input and row `k + 1` for the seeds
    that it produces. -/
def BootStep (h : Cuckoo.Hasher) (k : Nat) (e : Int × Int × Int) : Prop :=
  ∃ nv nn m, rd noiseSizes k = .ok e.1 ∧ rd seedSizes k = .ok e.2.1 ∧ rd seedSizes (k + 1) = .ok nv ∧ rd noiseSizes (k + 1) = .ok nn ∧
    numBuckets h nn = .ok m ∧ e.2.2 = nv + m

/-- The expansions with input rows `i`, ..., `j - 1`. -/
def BootLog (h : Cuckoo.Hasher) (i j : Nat) (l : List (Int × Int × Int)) : Prop :=
  i ≤ j ∧ l.length = j - i ∧ ∀ k e, l[k]? = some e → BootStep h (i + k) e

/-- Row `k` of the parameters does not allow for `b` elements and new seeds. -/
def TooSmall (h : Cuckoo.Hasher) (b : Int) (k : Nat) : Prop :=
  ∃ o t v m, rd outputSizes k = .ok o ∧ rd noiseSizes k = .ok t ∧ rd seedSizes k = .ok v ∧ numBuckets h t = .ok m ∧ o < b + m + v

/-- What the bootstrapping loop of the sender does if it succeeds. -/
structure BootS (b : Int) (i : Nat) (s s' : VState T) : Prop where
  hasher : s'.mpfss.hasher = s.mpfss.hasher
  batch : s'.batch = s.batch
  sDone : s'.sDone = s.sDone
  u : s'.sCached.u.length = s.sCached.u.length
  v : s'.sCached.v.length = s.sCached.v.length
  fit : SFit s'
  row : ∃ j l, Row j s' ∧ s'.log = s.log ++ l ∧ BootLog s.mpfss.hasher i j l ∧ (j = 4 ∨ ∃ o, rd outputSizes j = .ok o ∧ b + s'.mpfssSize + s'.voleSize ≤ o) ∧
    ∀ k, i ≤ k → k < j → TooSmall s.mpfss.hasher b k
  moves : Moves true s [] s'

theorem i32_eq {x y : Int} (h : i32 x = .ok y) : y = x := by
  unfold i32 at h
  split at h
  · cases h
  · cases h; rfl

theorem i64_eq {x y : Int} (h : i64 x = .ok y) : y = x := by
  unfold i64 at h
  split at h
  · cases h
  · cases h; rfl

/-- Every expansion made during a precomputation belongs to a row of the parameters. -/
def Booted (s s' : VState T) : Prop :=
  s'.mpfss.hasher = s.mpfss.hasher ∧ ∀ x ∈ s'.log, x ∈ s.log ∨ ∃ k, BootStep s.mpfss.hasher k x

theorem Booted.refl (s : VState T) : Booted s s := ⟨rfl, fun _ h => .inl h⟩

theorem Booted.trans {a b c : VState T} (h : Booted a b) (h' : Booted b c) : Booted a c := by
  refine ⟨h'.1.trans h.1, fun x hx => ?_⟩
  rcases h'.2 x hx with h1 | h1
  · exact h.2 x h1
  · rw [h.1] at h1; exact .inr h1

theorem BootLog.booted {h : Cuckoo.Hasher} {i j : Nat} {l : List (Int × Int × Int)} (H : BootLog h i j l) {x} (hx : x ∈ l) : ∃ k, BootStep h k x := by
  obtain ⟨k, hk⟩ := List.mem_iff_getElem?.1 hx
  exact ⟨i + k, H.2.2 k x hk⟩

theorem bootSender_loc (E : Env T) (b : Int) : ∀ (k i : Nat) (s : VState T), i + k = 4 → SFit s → Row i s → Loc (bootSender E b k i s)
    (fun _ s' => BootS b i s s')
    (fun e s' => (E.lib.NoStatus → Calm e) ∧ Moves true s [] s' ∧ s'.sDone = s.sDone ∧ Booted s s') := by
  intro k
  induction k with
  | zero =>
    intro i s hi hf hr
    exact Loc.ret ⟨rfl, rfl, rfl, rfl, rfl, hf, ⟨i, [], hr, by simp, ⟨le_refl _, by simp, by simp⟩, .inl (by omega), fun k h1 h2 => by omega⟩, .refl s⟩
  | succ k ih =>
    intro i s hi hf hr
    unfold bootSender
    rw [VM.get_bind]
    refine Loc.liftBind (fun o ho => ?_) (fun e he => ⟨fun _ => (Calm.rd _ _).failure he, .refl s, rfl, .refl s⟩)
    refine Loc.liftBind (fun need hneed => ?_) (fun e he => ⟨fun _ => (Calm.bind (i64_calm _) (fun _ => i64_calm _)).failure he, .refl s, rfl, .refl s⟩)
    have hneed : need = b + s.mpfssSize + s.voleSize := by
      obtain ⟨x, h1, h2⟩ := Out.bind_eq_ok.1 hneed
      rw [i64_eq h2, i64_eq h1]
    by_cases hge : o ≥ need
    · rw [if_pos hge]
      exact Loc.ret ⟨rfl, rfl, rfl, rfl, rfl, hf, ⟨i, [], hr, by simp, ⟨le_refl _, by simp, by simp⟩, .inr ⟨o, ho, by omega⟩, fun k h1 h2 => by omega⟩, .refl s⟩
    rw [if_neg hge]
    refine Loc.liftBind (fun nv hnv => ?_) (fun e he => ⟨fun _ => (Calm.rd _ _).failure he, .refl s, rfl, .refl s⟩)
    refine Loc.liftBind (fun nn hnn => ?_) (fun e he => ⟨fun _ => (Calm.rd _ _).failure he, .refl s, rfl, .refl s⟩)
    refine Loc.liftBind (fun nm hnm => ?_) (fun e he => ⟨fun _ => (numBuckets_calm _ _).failure he, .refl s, rfl, .refl s⟩)
    refine Loc.liftBind (fun out hout => ?_) (fun e he => ⟨fun _ => (i32_calm _).failure he, .refl s, rfl, .refl s⟩)
    have hout := i32_eq hout
    refine Loc.bind ((precomputeCommon_loc E out s).mono (fun _ _ h => h) ?_) ?_
    · rintro e s' ⟨h1, st, code, pos, rfl, hst⟩
      exact ⟨h1, .prim (.adj ..), rfl, hst, fun _ h => .inl h⟩
    rintro - s1 ⟨st, code, pos, rfl, hst, hrows, hcols⟩
    have hm1 : Moves true s [] { s with mpfss := st, code := code, pos := pos } := .prim (.adj ..)
    refine Loc.bind ((expandSender_loc E out nv nm _).mono (fun _ _ h => h) ?_) ?_
    · rintro e s' ⟨h1, h2, ⟨h3, h4⟩, -⟩
      refine ⟨fun hl => h1 hl ⟨?_, ?_, hcols⟩, hm1.then h2, h3.sDone, h3.hasher.trans hst, fun x hx => (h4 x hx).imp id (fun e => ⟨i, by subst e; exact ⟨nv, nn, nm, hr.1, hr.2, hnv, hnn, hnm, hout⟩⟩)⟩
      · have := hf.vu; have := hf.vv; dsimp only; omega
      · have := hf.vu; dsimp only; omega
    rintro - s2 hx
    rw [VM.modify_bind]
    have hfit : SFit { s2 with noise := nn } := by
      constructor
      · exact hx.volU.trans hx.voleSize.symm
      · exact hx.volV.trans hx.voleSize.symm
      · exact hx.mpU.trans hx.mpfssSize.symm
      · exact hx.mpV.trans hx.mpfssSize.symm
      · dsimp only
        rw [hx.hasher, hx.mpfssSize]
        dsimp only
        rw [hst]; exact hnm
    have hm2 : Moves true s [] { s2 with noise := nn } := (hm1.then hx.moves).adj ..
    refine (ih (i + 1) { s2 with noise := nn } (by omega) hfit ⟨hnn, hx.voleSize ▸ hnv⟩).mono ?_ ?_
    · intro _ s3 hb
      have hh : s2.mpfss.hasher = s.mpfss.hasher := hx.hasher.trans hst
      refine ⟨hb.hasher.trans hh, hb.batch.trans hx.batch, hb.sDone.trans hx.sDone, hb.u.trans ?_, hb.v.trans ?_, hb.fit, ?_, hm2.then hb.moves⟩
      · have := hx.u; dsimp only at this ⊢; omega
      · have := hx.v; dsimp only at this ⊢; omega
      · obtain ⟨j, l, h1, h2, ⟨h3, h4, h5⟩, h6, h7⟩ := hb.row
        refine ⟨j, (s.noise, s.voleSize, out) :: l, h1, ?_, ⟨by clear h6; omega, by clear h6; simp; omega, ?_⟩, h6, fun k' hk1 hk2 => ?_⟩
        · rw [h2]; dsimp only; rw [hx.log]; simp
        · intro k' e he
          cases k' with
          | zero =>
            simp only [List.getElem?_cons_zero, Option.some.injEq] at he
            subst he
            exact ⟨nv, nn, nm, hr.1, hr.2, hnv, hnn, hnm, hout⟩
          | succ k' =>
            simp only [List.getElem?_cons_succ] at he
            have := h5 k' e he
            dsimp only at this
            rw [hh] at this
            rwa [show i + (k' + 1) = i + 1 + k' by omega]
        · by_cases hk : k' = i
          · subst hk
            exact ⟨o, _, _, _, ho, hr.1, hr.2, hf.buckets, by omega⟩
          · have := h7 k' (by omega) hk2
            dsimp only at this
            rwa [hh] at this
    · rintro e s3 ⟨h1, h2, h3, h4⟩
      refine ⟨h1, hm2.then h2, h3.trans hx.sDone, ?_⟩
      refine Booted.trans (b := { s2 with noise := nn }) ⟨hx.hasher.trans hst, ?_⟩ h4
      intro x hx'
      rw [show ({ s2 with noise := nn } : VState T).log = s2.log from rfl, hx.log] at hx'
      refine (List.mem_append.1 hx').imp id (fun e => ⟨i, ?_⟩)
      simp only [List.mem_singleton] at e
      subst e
      exact ⟨nv, nn, nm, hr.1, hr.2, hnv, hnn, hnm, hout⟩

theorem startPrecompute_loc (s : VState T) : Loc (startPrecompute s)
    (fun n s' => ∃ m, numBuckets s.mpfss.hasher 98 = .ok m ∧ n = 1589 + m ∧ s' = { s with batch := 0, noise := 98, voleSize := 1589, mpfssSize := m })
    (fun e s' => Calm e ∧ ∃ m, s' = { s with batch := 0, noise := 98, voleSize := 1589, mpfssSize := m }) := by
  unfold startPrecompute
  rw [VM.modify_bind]
  have e1 : rd noiseSizes 0 = .ok 98 := rfl
  have e2 : rd seedSizes 0 = .ok 1589 := rfl
  rw [e1, VM.lift_ok_bind, e2, VM.lift_ok_bind, VM.modify_bind, VM.get_bind]
  refine Loc.liftBind (fun m hm => ?_) (fun e he => ⟨(numBuckets_calm _ _).failure he, _, rfl⟩)
  rw [VM.modify_bind]
  refine Loc.lift (fun n hn => ⟨m, hm, i32_eq hn, rfl⟩) (fun e he => ⟨(i32_calm _).failure he, _, rfl⟩)

/-- What the end of a precomputation does if it succeeds. -/
theorem finishPrecompute_loc (E : Env T) (b : Int) (s : VState T) : Loc (finishPrecompute E b s)
    (fun _ s' => ∃ st code pos, s' = { s with mpfss := st, code := code, pos := pos, batch := min b (10616092 - s.mpfssSize - s.voleSize) } ∧
      st.hasher = s.mpfss.hasher ∧ code.rows = s.voleSize ∧ (code.cols.length : Int) = s'.batch + s.voleSize + s.mpfssSize)
    (fun e s' => (E.lib.NoStatus → Calm e) ∧ ∃ st code pos ba, s' = { s with mpfss := st, code := code, pos := pos, batch := ba } ∧ st.hasher = s.mpfss.hasher) := by
  unfold finishPrecompute
  rw [VM.get_bind]
  have e1 : rd outputSizes (outputSizes.length - 1) = .ok 10616092 := rfl
  rw [e1, VM.lift_ok_bind]
  refine Loc.liftBind (fun cap hcap => ?_) (fun e he => ⟨fun _ => (Calm.bind (i32_calm _) (fun _ => i32_calm _)).failure he, _, _, _, _, rfl, rfl⟩)
  have hcap : cap = 10616092 - s.mpfssSize - s.voleSize := by
    obtain ⟨x, h1, h2⟩ := Out.bind_eq_ok.1 hcap
    rw [i32_eq h2, i32_eq h1]
  subst hcap
  rw [VM.modify_bind, VM.get_bind]
  refine (precomputeCommon_loc E _ _).mono ?_ ?_
  · rintro - s' ⟨st, code, pos, rfl, h1, h2, h3⟩
    exact ⟨st, code, pos, rfl, h1, h2, h3⟩
  · rintro e s' ⟨h1, st, code, pos, rfl, hst⟩
    exact ⟨h1, st, code, pos, _, rfl, hst⟩

/-- The parameters chosen by a precomputation: row `j`, the working batch size, the expansions made on the way, and that
    the row is large enough. -/
structure Chosen (b : Int) (s s' : VState T) : Prop where
  batch : s'.batch = min b (10616092 - s'.mpfssSize - s'.voleSize)
  row : ∃ j l, Row j s' ∧ s'.log = s.log ++ l ∧ BootLog s.mpfss.hasher 0 j l ∧
    (j = 4 ∨ ∃ o, rd outputSizes j = .ok o ∧ b + s'.mpfssSize + s'.voleSize ≤ o) ∧ ∀ k, k < j → TooSmall s.mpfss.hasher b k

/-- What `PrecomputeSender` does if it succeeds. -/
structure PreS (b : Int) (s s' : VState T) : Prop where
  pos : 1 ≤ b
  hasher : s'.mpfss.hasher = s.mpfss.hasher
  ready : SReady s'
  sDone : s'.sDone = true
  empty : s'.sCached.u.length = 0
  chosen : Chosen b s s'
  moves : Moves true s [] s'

theorem precomputeSender_loc (E : Env T) (b : Int) (s : VState T) : Loc (precomputeSender E b s)
    (fun _ s' => PreS b s s')
    (fun e s' => (E.lib.NoStatus → Calm e) ∧ Moves true s [] s' ∧ s'.sDone = s.sDone ∧ Booted s s') := by
  unfold precomputeSender
  by_cases hb : b < 1
  · rw [if_pos hb]
    exact Loc.fail rfl ⟨fun _ => Calm.err (by decide), .refl s, rfl, rfl, fun _ h => .inl h⟩
  rw [if_neg hb]
  refine Loc.bind ((startPrecompute_loc s).mono (fun _ _ h => h) ?_) ?_
  · rintro e s' ⟨h1, m, rfl⟩
    exact ⟨fun _ => h1, .prim (.adj ..), rfl, rfl, fun _ h => .inl h⟩
  rintro n s1 ⟨m, hm, hn, rfl⟩
  refine Loc.drawBind (fun rw p1 => ?_)
  refine Loc.liftBind (fun w _ => ?_) (fun e he => ⟨fun _ => (vecOf_calm _ _).failure he, .prim (.adj ..), rfl, rfl, fun _ h => .inl h⟩)
  refine Loc.drawBind (fun ru p2 => ?_)
  dsimp only
  refine Loc.liftBind (fun u hu => ?_) (fun e he => ⟨fun _ => (vecOf_calm _ _).failure he, .prim (.adj ..), rfl, rfl, fun _ h => .inl h⟩)
  refine Loc.drawBind (fun rv p3 => ?_)
  dsimp only
  refine Loc.liftBind (fun v hv => ?_) (fun e he => ⟨fun _ => (vecOf_calm _ _).failure he, .prim (.adj ..), rfl, rfl, fun _ h => .inl h⟩)
  rw [VM.modify_bind]
  dsimp only
  obtain ⟨hn0, hu⟩ := vecOf_ok hu
  obtain ⟨-, hv⟩ := vecOf_ok hv
  have lu : u.length = n.toNat := by rw [hu]; simp
  have lv : v.length = n.toNat := by rw [hv]; simp
  rw [← lu]
  have hm1 : Moves true s [] { s with sCached := ⟨u, v, freshIds s.sMade.length u.length⟩, sMade := s.sMade ++ List.zip u v, batch := 0, noise := 98, voleSize := 1589, mpfssSize := m, pos := p3 } :=
    (Moves.prim (.sReset s u v (by omega))).adj _ _ _ _ _ _ _ _
  refine Loc.runBind (fun w1 hw1 => ?_) (fun o e h1 h2 => ⟨fun _ => (gilboaVector_calm _ _ _ _ _ _ _ h1).failure h2, hm1, rfl, rfl, fun _ h => .inl h⟩)
  refine Loc.liftBind (fun w2 hw2 => ?_) (fun e he => ⟨fun _ => (vecOp_calm _ _ _).failure he, hm1, rfl, rfl, fun _ h => .inl h⟩)
  refine Loc.runBind (fun _ _ => ?_) (fun o e h1 h2 => ⟨fun _ => (CalmP.send _ _ _ h1).failure h2, hm1, rfl, rfl, fun _ h => .inl h⟩)
  rw [VM.get_bind]
  dsimp only
  refine Loc.bind ((getSenderCached_loc 1589 _).mono (fun _ _ h => h) ?_) ?_
  · rintro e s' ⟨rfl, he⟩
    exact ⟨fun _ => (getSender_calm _ _).failure he, hm1, rfl, rfl, fun _ h => .inl h⟩
  rintro a s2 ⟨rest, hg, rfl⟩
  rw [VM.modify_bind]
  dsimp only
  have hg' := getSender_ok hg
  have hm2 := hm1.then (.prim (.sVole _ 1589 rest a hg))
  refine Loc.bind ((getSenderCached_loc m _).mono (fun _ _ h => h) ?_) ?_
  · rintro e s' ⟨rfl, he⟩
    exact ⟨fun _ => (getSender_calm _ _).failure he, hm2, rfl, rfl, fun _ h => .inl h⟩
  rintro c s3 ⟨rest2, hg2, rfl⟩
  rw [VM.modify_bind]
  dsimp only
  have hg2' := getSender_ok hg2
  have hm3 := hm2.then (.prim (.sMpfss _ m rest2 c hg2))
  dsimp only at hm3
  obtain ⟨g1, g2, g3, rfl, rfl⟩ := hg'
  obtain ⟨g4, g5, g6, rfl, rfl⟩ := hg2'
  dsimp only at hm3 g2 g3 g5 g6 ⊢
  generalize hs4 : ({ s with batch := 0, noise := 98, voleSize := 1589, mpfssSize := m, pos := p3, sCached := _, sVole := _, sMpfss := _, sMade := _, sUsed := _ } : VState T) = s4 at hm3 ⊢
  have hfit : SFit s4 := by
    subst hs4
    simp only [List.length_take] at g2 g3 g5 g6
    constructor
    · simp only [List.length_drop]; omega
    · simp only [List.length_drop]; omega
    · simp only [List.length_drop, List.length_take]; omega
    · simp only [List.length_drop, List.length_take]; omega
    · exact hm
  have hrow : Row 0 s4 := by subst hs4; exact ⟨rfl, rfl⟩
  have hu0 : s4.sCached.u.length = 0 := by subst hs4; simp only [List.length_take] at g5 ⊢; omega
  have hv0 : s4.sCached.v.length = 0 := by subst hs4; simp only [List.length_take] at g6 ⊢; omega
  have hh4 : s4.mpfss.hasher = s.mpfss.hasher := by subst hs4; rfl
  have hd4 : s4.sDone = s.sDone := by subst hs4; rfl
  have hl4 : s4.log = s.log := by subst hs4; rfl
  refine Loc.bind ((bootSender_loc E b _ 0 s4 rfl hfit hrow).mono (fun _ _ h => h) ?_) ?_
  · rintro e s' ⟨h1, h2, h3, h5⟩
    exact ⟨h1, hm3.then h2, h3.trans hd4, h5.1.trans hh4, fun x hx => by have := h5.2 x hx; rwa [hl4, hh4] at this⟩
  rintro - s5 hb5
  refine Loc.bind ((finishPrecompute_loc E b s5).mono (fun _ _ h => h) ?_) ?_
  · rintro e s' ⟨h1, st, code, pos, ba, rfl, hst⟩
    refine ⟨h1, (hm3.then hb5.moves).adj .., hb5.sDone.trans hd4, hst.trans (hb5.hasher.trans hh4), ?_⟩
    obtain ⟨j, l, -, r2, r3, -⟩ := hb5.row
    intro x hx
    rw [show ({ s5 with mpfss := st, code := code, pos := pos, batch := ba } : VState T).log = s5.log from rfl, r2, hl4] at hx
    rw [hh4] at r3
    exact (List.mem_append.1 hx).imp id r3.booted
  rintro - s6 ⟨st, code, pos, rfl, h1, h2, h3⟩
  have F := hb5.fit
  refine Loc.ret ⟨by omega, h1.trans (hb5.hasher.trans hh4), ⟨⟨F.vu, F.vv, F.mu, F.mv, ?_⟩, h2, h3, ?_⟩, rfl, hb5.u.trans hu0, ⟨rfl, ?_⟩, ((hm3.then hb5.moves).adj ..).then (.prim (.sDone _))⟩
  · dsimp only; rw [h1]; exact F.buckets
  · dsimp only; rw [hb5.u, hb5.v, hu0, hv0]
  · obtain ⟨j, l, r1, r2, r3, r4, r5⟩ := hb5.row
    rw [hh4] at r3 r5
    rw [hl4] at r2
    exact ⟨j, l, r1, r2, r3, r4, fun k hk => r5 k (by omega) hk⟩

end DVO.VOLE
