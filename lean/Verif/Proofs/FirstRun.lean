/-
The first run of the vector OLE after a small precomputation: which random numbers it uses (C77).
-/
import Verif.Proofs.Errors
import Verif.Props.VOLELocal
import Verif.Proofs.ZeroCode3

namespace DVO.Net
variable {M α β γ δ : Type}

/-- Two programs that compute something together, and then one returns and the other one waits. -/
theorem Hangs.after {p : Proc M α} {q : Proc M β} {a b va vb} {f : α → Proc M γ} {g : β → Proc M δ} {c : γ} (h : Joint p q a b va vb) (hf : f a = .ret c)
    (hg : Waits (g b)) : Hangs (p.bind f) (q.bind g) c := by
  obtain ⟨n, hn⟩ := h
  refine hangs_of (hn.lift f g) hf ?_
  unfold Blocked
  show match g b with
    | .recv ch _ => _
    | .otSend .. => _
    | .otRecv .. => _
    | _ => _
  unfold Waits at hg
  cases hq : g b <;> simp_all [Net.lift, final]

end DVO.Net

namespace DVO.VOLE
open Net MPFSS
set_option linter.unusedSectionVars false
variable {T : Type} [Scalar T] {h : Cuckoo.Hasher} {A B : Env T}

theorem precomputeCommon_pos (E : Env T) (o : Int) (s : VState T) : Loc (precomputeCommon E o s)
    (fun _ s' => ∃ st code, s' = { s with mpfss := st, code := code, pos := s.pos + 1 + 1 }) (fun _ _ => True) := by
  unfold precomputeCommon
  rw [VM.get_bind]
  have hup : Loc (updateBuckets E o s.noise s) (fun _ s1 => ∃ st, s1 = { s with mpfss := st }) (fun _ _ => True) := by
    unfold updateBuckets
    dsimp only
    cases hx : failure (MPFSS.updateBuckets E.thr s.mpfss o s.noise).1 with
    | none => obtain ⟨a, e⟩ := failure_none hx; rw [e]; exact Loc.ret ⟨_, rfl⟩
    | some e => exact Loc.fail hx trivial
  refine Loc.bind hup ?_
  rintro - s1 ⟨st, rfl⟩
  by_cases ho : o < 0
  · rw [if_pos ho]
    exact Loc.fail rfl trivial
  rw [if_neg ho, VM.modify_bind]
  have hex : Loc (exchangeSeed E { s with mpfss := st, code := ⟨s.voleSize, List.replicate o.toNat []⟩ })
      (fun _ s2 => s2 = { s with mpfss := st, code := ⟨s.voleSize, List.replicate o.toNat []⟩, pos := s.pos + 1 }) (fun _ _ => True) := by
    unfold exchangeSeed
    rw [VM.draw_bind]
    split
    · exact Loc.runBind (fun _ _ => Loc.ret rfl) (fun _ _ _ _ => trivial)
    · exact Loc.runBind (fun m _ => Loc.lift (fun _ _ => rfl) (fun _ _ => trivial)) (fun _ _ _ _ => trivial)
  refine Loc.bind hex ?_
  rintro seed s2 rfl
  rw [VM.draw_bind]
  refine Loc.liftBind (fun rng _ => ?_) (fun _ _ => trivial)
  split
  · exact Loc.fail rfl trivial
  rw [VM.get_bind]
  exact Loc.liftBind (fun code _ => Loc.ret ⟨st, code, rfl⟩) (fun _ _ => trivial)

/-- A precomputation for a batch that fits into the first row draws random numbers five times. -/
theorem precomputeSender_pos (W : Together h A B) {b : Int} (hb : 1 ≤ b) (hb' : b + 1589 + h.optimal 98 ≤ 4096) {s : VState T} (hs : s.mpfss.hasher = h) :
    Loc (precomputeSender A b s) (fun _ s' => s'.pos = s.pos + 5 ∧ s'.noise = 98 ∧ s'.batch = b ∧ s'.voleSize = 1589 ∧ s'.mpfssSize = h.optimal 98) (fun _ _ => True) := by
  have hp : 0 < h.optimal 98 := W.optimal_pos (t := 98) (by simp [noiseSizes])
  unfold precomputeSender
  rw [if_neg (by omega), start_bind W hs, VM.draw_bind]
  refine Loc.liftBind (fun w _ => ?_) (fun _ _ => trivial)
  rw [VM.draw_bind]
  refine Loc.liftBind (fun u _ => ?_) (fun _ _ => trivial)
  rw [VM.draw_bind]
  refine Loc.liftBind (fun v _ => ?_) (fun _ _ => trivial)
  rw [VM.modify_bind]
  refine Loc.runBind (fun w1 _ => ?_) (fun _ _ _ _ => trivial)
  refine Loc.liftBind (fun w2 _ => ?_) (fun _ _ => trivial)
  refine Loc.runBind (fun _ _ => ?_) (fun _ _ _ _ => trivial)
  rw [VM.get_bind]
  refine Loc.bind ((getSenderCached_loc _ _).mono (fun _ _ h => h) (fun _ _ _ => trivial)) ?_
  rintro a s2 ⟨rest, -, rfl⟩
  rw [VM.modify_bind]
  refine Loc.bind ((getSenderCached_loc _ _).mono (fun _ _ h => h) (fun _ _ _ => trivial)) ?_
  rintro c s3 ⟨rest2, -, rfl⟩
  rw [VM.modify_bind]
  dsimp only
  rw [show seedSizes.length - 1 = 3 + 1 from rfl]
  unfold bootSender
  rw [VM.bind_assoc, VM.get_bind, VM.bind_assoc, show rd outputSizes 0 = .ok 4096 from rfl, VM.lift_ok_bind, VM.bind_assoc]
  dsimp only
  unfold i64
  rw [if_neg (by omega), Out.ok_bind, if_neg (by omega), VM.lift_ok_bind, if_pos (by omega), VM.pure_bind']
  unfold finishPrecompute
  rw [VM.bind_assoc, VM.get_bind, VM.bind_assoc, show rd outputSizes (outputSizes.length - 1) = .ok 10616092 from rfl, VM.lift_ok_bind, VM.bind_assoc]
  dsimp only
  rw [i32_ok (by omega) (by omega), Out.ok_bind, i32_ok (by omega) (by omega), VM.lift_ok_bind, VM.bind_assoc, VM.modify_bind, VM.bind_assoc, VM.get_bind]
  refine Loc.bind (precomputeCommon_pos A _ _) ?_
  rintro - s4 ⟨st, code, rfl⟩
  refine Loc.ret ⟨rfl, rfl, ?_, rfl, rfl⟩
  dsimp only
  omega

/-- A small precomputation involves no expansion. -/
theorem small_enough (W : Together h A B) {b : Int} (hb : b + 1589 + h.optimal 98 ≤ 4096) (hlt : ∀ t : Nat, (t : Int) ∈ noiseSizes → h.optimal t < 2 ^ 12) (M N : Nat) :
    Enough h b M N := by
  intro i t v t' v' o h1 h2 h3 h4
  exfalso
  have h5 := h2.lt
  have hi := h1.lt
  have hp : 0 < h.optimal 98 := W.optimal_pos (t := 98) (by simp [noiseSizes])
  have hopt := hlt t h1.mem
  have e1 := h1.seed
  have e2 := h1.noise
  match i, hi with
  | 0, _ =>
    simp [outputSizes, seedSizes, noiseSizes] at h3 e1 e2
    obtain rfl : t = 98 := by omega
    omega
  | 1, _ => simp [outputSizes, seedSizes] at h3 e1; omega
  | 2, _ => simp [outputSizes, seedSizes] at h3 e1; omega
  | 3, _ => simp [outputSizes, seedSizes] at h3 e1; omega
  | 4, _ => omega

/-- New objects, a precomputation for a small batch, a run: if the first sampled indices cannot be hashed, the sender fails and the receiver waits. -/
theorem first_unlucky [LawfulScalar T] (W : Together h A B) (SA : SmoothTo 10616092 0 h A) (SB : SmoothTo 10616092 0 h B)
    {b : Nat} (hb : 1 ≤ b) (hb' : b + 1589 + h.optimal 98 ≤ 4096) (hlt : ∀ t : Nat, (t : Int) ∈ noiseSizes → h.optimal t < 2 ^ 12)
    (d : T) {s r : VState T} (hs : Coherent h s.mpfss) (hr : Coherent h r.mpfss) (hlog : s.log = r.log) (hfA : 1 ≤ A.fuel) (hfB : 1 ≤ B.fuel)
    (hun : UnluckyAt h A (s.pos + 7) 98 (b + 1589 + (h.optimal 98).toNat)) :
    ∃ s' r' va vb, Joint (precomputeSender A b s) (precomputeReceiver B b d r) (.ok (), s') (.ok (), r') va vb ∧ s'.sDone = true ∧ r'.rDone = true ∧
      ∀ n : Nat, 1 ≤ n → (∃ c m s'', runSender A n s' = .ret (.err c m, s'')) ∧ Waits (runReceiver B n r') := by
  have hp : 0 < h.optimal 98 := W.optimal_pos (t := 98) (by simp [noiseSizes])
  obtain ⟨⟨⟩, s', ⟨⟩, r', va, vb, J, -, F, -⟩ := (precompute_pair_to (P := fun _ => False) (M := 10616092) (N := 0)
    (fun o _ h => h ⟨SA, SB⟩) W (batch := b) (by omega) (small_enough W hb' hlt _ _) (by intro i t v _; push_cast; omega) (.inl (by omega)) (d := d) hs hr hlog).joint
  obtain ⟨e1, e2, e3, e4, e5⟩ := (precomputeSender_pos W (b := b) (by omega) hb' hs.hasher).ok (Joint.computes J).returns
  refine ⟨s', r', va, vb, J, F.doneS, F.doneR, fun n hn => run_unluckyAt W SA.bits F hn hfA hfB fun t o h1 h2 => ?_⟩
  obtain rfl : t = 98 := by omega
  obtain rfl : o = b + 1589 + (h.optimal 98).toNat := by omega
  rw [e1]
  exact hun

end DVO.VOLE
