/-
An object that is always the sender, or always the receiver, against any peer.
-/
import Verif.Proofs.Local7

namespace DVO.VOLE
open MPFSS
set_option linter.unusedSectionVars false
variable {T α β : Type}

theorem rd_some {l : List α} {i : Nat} {a : α} (h : rd l i = .ok a) : l[i]? = some a := by
  unfold rd at h
  split at h
  · cases h; assumption
  · cases h

/-- Every expansion fits a row of the parameters or is one of those made in a precomputation. -/
def LogOK (H : Cuckoo.Hasher) (s : VState T) : Prop := ∀ x ∈ s.log, FitsRow x ∨ ∃ k, BootStep H k x

theorem Loc.self (p : Proc (Msg T) (Out α × VState T)) : Loc p (fun _ _ => True) (fun e s' => e = .diverge → Returns p (.diverge, s')) := by
  intro o s' hr
  cases o with
  | ok a => exact .inl ⟨a, rfl, True.intro⟩
  | diverge => exact .inr ⟨_, rfl, fun _ => hr⟩
  | _ => exact .inr ⟨_, rfl, fun h => by cases h⟩

variable [Scalar T]

/-! ### The sender -/

/-- The state of a sender between calls: after a precomputation it is ready, and its expansions fit a row of the parameters. -/
structure SGood (s : VState T) : Prop where
  ready : SReady s
  row : ∃ j o, Row j s ∧ rd outputSizes j = .ok o ∧ s.batch + s.voleSize + s.mpfssSize ≤ o

theorem SGood.same {s s' : VState T} (h : SGood s) (hr : SReady s') (hs : SameS s s') : SGood s' := by
  obtain ⟨j, o, ⟨h1, h1'⟩, h2, h3⟩ := h.row
  exact ⟨hr, j, o, ⟨by rw [hs.noise]; exact h1, by rw [hs.vole]; exact h1'⟩, h2, by rw [hs.batch, hs.vole, hs.mpfss]; exact h3⟩

/-- Every expansion fits a row of the parameters or is one of those made in a precomputation. -/
theorem SGood.steady {s s' : VState T} (h : SGood s) {H : Cuckoo.Hasher} (hl : LogOK H s) (hs : Steady s s') : LogOK H s' := by
  obtain ⟨j, o, ⟨h1, h1'⟩, h2, h3⟩ := h.row
  intro x hx
  rcases hs x hx with hx | rfl
  · exact hl x hx
  · exact .inl ⟨j, o, rd_some h1, rd_some h1', rd_some h2, h3⟩

/-- What holds between the calls of an object that is always the sender. -/
structure SInv (H : Cuckoo.Hasher) (s : VState T) : Prop where
  hasher : s.mpfss.hasher = H
  good : s.sDone = true → SGood s
  log : LogOK H s

theorem SInv.new (H : Cuckoo.Hasher) (junk : T) : SInv H (VState.new (State.new H) junk) :=
  ⟨rfl, fun h => Bool.noConfusion (h : false = true), fun x hx => by simp [VState.new] at hx⟩

theorem SInv.booted {H : Cuckoo.Hasher} {s s' : VState T} (h : SInv H s) (hb : Booted s s') : s'.mpfss.hasher = H ∧ LogOK H s' := by
  refine ⟨hb.1.trans h.hasher, fun x hx => ?_⟩
  rcases hb.2 x hx with hx | ⟨k, hk⟩
  · exact h.log x hx
  · rw [h.hasher] at hk; exact .inr ⟨k, hk⟩

theorem PreS.inv {b : Int} {s s' : VState T} (h : PreS b s s') {H : Cuckoo.Hasher} (hi : SInv H s) : SInv H s' := by
  refine ⟨h.hasher.trans hi.hasher, fun _ => ⟨h.ready, ?_⟩, ?_⟩
  · obtain ⟨j, l, h1, -, -, h2, -⟩ := h.chosen.row
    have hb := h.chosen.batch
    rcases h2 with rfl | ⟨o, h2, h3⟩
    · exact ⟨4, 10616092, h1, rfl, by omega⟩
    · exact ⟨j, o, h1, h2, by omega⟩
  · obtain ⟨j, l, -, h1, h2, -⟩ := h.chosen.row
    intro x hx
    rw [h1] at hx
    rcases List.mem_append.1 hx with hx | hx
    · exact hi.log x hx
    · obtain ⟨k, hk⟩ := h2.booted hx
      rw [hi.hasher] at hk
      exact .inr ⟨k, hk⟩

theorem SInv.after {H : Cuckoo.Hasher} {s s' : VState T} (h : SInv H s) (hd : s.sDone = true) (hr : SReady s') (hs : SameS s s') (hst : Steady s s') : SInv H s' :=
  ⟨hs.hasher.trans h.hasher, fun _ => (h.good hd).same hr hs, (h.good hd).steady h.log hst⟩

theorem senderRest_inv (E : Env T) (n : Int) {H : Cuckoo.Hasher} (s : VState T) (h : SInv H s) (hd : s.sDone = true) : Loc (senderRest E n s)
    (fun _ s' => SInv H s') (fun e s' => (E.lib.NoStatus → Calm e) ∧ SInv H s') := by
  rcases senderRest_cases E n s with ⟨rest, res, hg, e⟩ | ⟨hg, e⟩ | ⟨w, e⟩
  · rw [e]
    refine Loc.ret ?_
    have hr := (h.good hd).ready
    obtain ⟨g1, g2, g3, rfl, -⟩ := getSender_ok hg
    refine h.after hd (hr.cache _ ?_) ⟨rfl, rfl, rfl, rfl, rfl, rfl, rfl⟩ (.of_eq rfl)
    have := hr.uv
    simp [this]
  · rw [e]
    have h1 : SInv H { s with pos := s.pos + 1 + 1 } := h.after hd ((h.good hd).ready.adj s.mpfss _ rfl) ⟨rfl, rfl, rfl, rfl, rfl, rfl, rfl⟩ (.of_eq rfl)
    refine (runSenderLoop_ready E n _ _ _ _ (h1.good hd).ready).mono ?_ ?_
    · rintro r s' ⟨h2, h3, h4⟩; exact h1.after hd h2 h3 h4
    · rintro r s' ⟨h2, h3, h4, h5⟩; exact ⟨h2, h1.after hd h3 h4 h5⟩
  · rw [e]; exact Loc.fail rfl ⟨fun _ => Calm.ub _, h⟩

theorem runSender_inv (E : Env T) (n : Int) {H : Cuckoo.Hasher} (s : VState T) (h : SInv H s) : Loc (runSender E n s)
    (fun _ s' => SInv H s') (fun e s' => (E.lib.NoStatus → Calm e) ∧ SInv H s') := by
  rw [runSender_eq]
  split
  · exact senderRest_inv E n s h ‹_›
  · rename_i hd
    refine Loc.bind ((precomputeSender_loc E n s).mono (fun _ _ h => h) ?_) ?_
    · rintro e s' ⟨h1, -, h2, h3⟩
      exact ⟨h1, (h.booted h3).1, fun h => absurd (h2.symm.trans h) hd, (h.booted h3).2⟩
    · rintro - s1 hp
      exact senderRest_inv E n s1 (hp.inv h) hp.sDone

theorem asSender_inv (E : Env T) (op : Op T) {H : Cuckoo.Hasher} (s : VState T) (h : SInv H s) : Loc (asSender E op s)
    (fun _ s' => SInv H s') (fun e s' => (E.lib.NoStatus → Calm e) ∧ ((∃ f n, op = .run f n) → SInv H s')) := by
  cases op with
  | precompute f b d =>
    refine Loc.bind ((precomputeSender_loc E b s).mono (fun _ _ hp => hp.inv h) ?_) (fun _ s' h => Loc.ret h)
    rintro e s' ⟨h1, -⟩
    exact ⟨h1, fun ⟨_, _, h⟩ => by cases h⟩
  | precomputeRandom f b =>
    refine Loc.bind (Q := fun _ s' => SInv H s') ((precomputeSender_loc E b s).mono ?_ ?_) (fun _ s' h => Loc.ret h)
    · rintro - s1 hp; exact hp.inv h
    · rintro e s' ⟨h1, -⟩
      exact ⟨h1, fun ⟨_, _, h⟩ => by cases h⟩
  | run f n =>
    refine Loc.bind ((runSender_inv E n s h).mono (fun _ _ h => h) ?_) (fun _ s' h => Loc.ret h)
    rintro e s' ⟨h1, h2⟩
    exact ⟨h1, fun _ => h2⟩

/-- The invariant holds in the whole life of an object that is always the sender. -/
theorem Lives.sender {E : Env T} {H : Cuckoo.Hasher} {s0 s : VState T} {l : List (Op T × Out (Answer T))} (h0 : SInv H s0) (h : Lives E s0 l s)
    (hrole : ∀ x ∈ l, x.1.fwd = true) (hpre : ∀ x ∈ l, (∃ f n, x.1 = .run f n) ∨ ∃ a, x.2 = .ok a) : SInv H s := by
  induction h with
  | new => exact h0
  | @call l s op o s' _ hr ih =>
    have hi := ih (fun x hx => hrole x (List.mem_append_left _ hx)) (fun x hx => hpre x (List.mem_append_left _ hx))
    have hf : op.fwd = true := hrole (op, o) (by simp)
    rw [hf] at hr
    rcases asSender_inv E op s hi _ _ hr with ⟨a, -, h1⟩ | ⟨e, he, -, h1⟩
    · exact h1
    · rcases hpre (op, o) (by simp) with hp | ⟨a, hp⟩
      · exact h1 hp
      · dsimp only at hp; rw [hp] at he; cases he

/-- The number of expansions in a run. -/
theorem senderRest_count (E : Env T) (n b : Nat) (hb : 1 ≤ b) (s : VState T) (hs : SReady s) (hbat : s.batch = b) : Loc (senderRest E n s)
    (fun _ s' => s'.log = s.log ++ List.replicate (cdiv (n - s.sCached.u.length) b) (s.noise, s.voleSize, s.batch + s.voleSize + s.mpfssSize) ∧
      s'.sCached.u.length + n = s.sCached.u.length + cdiv (n - s.sCached.u.length) b * b) (fun _ _ => True) := by
  rcases senderRest_cases E n s with ⟨rest, res, hg, e⟩ | ⟨hg, e⟩ | ⟨w, e⟩
  · rw [e]
    refine Loc.ret ?_
    obtain ⟨g1, g2, g3, rfl, -⟩ := getSender_ok hg
    rw [show n - s.sCached.u.length = 0 by omega, cdiv_zero hb]
    refine ⟨by simp, ?_⟩
    simp only [List.length_take]
    omega
  · rw [e]
    exact runSenderLoop_count E n b hb _ _ 0 { s with pos := s.pos + 1 + 1 } (hs.adj s.mpfss _ rfl) hbat (by omega)
  · rw [e]; exact Loc.fail rfl True.intro

/-- With enough iterations the loop diverges only if an expansion does. -/
theorem runSenderLoop_diverge (E : Env T) (n b : Nat) (hb : 1 ≤ b) : ∀ (f : Nat) (res : SRes T) (copied : Nat) (s : VState T), SReady s → s.batch = b → copied ≤ n →
    cdiv (n - copied - s.sCached.u.length) b + 2 ≤ f ∨ (1 ≤ f ∧ n ≤ copied) →
    Loc (runSenderLoop E n f res copied s) (fun _ _ => True) (fun e _ => e = .diverge → ∃ o nv nm s1 s2, Returns (expandSender E o nv nm s1) (.diverge, s2)) := by
  intro f
  induction f with
  | zero => intro res copied s _ _ _ h; omega
  | succ f ih =>
    intro res copied s hs hbat hle hf
    unfold runSenderLoop
    by_cases h : (copied : Int) < n
    · rw [if_pos h, VM.get_bind]
      refine Loc.bind ((senderStep_ready n res copied s hs h (F := fun e s' => e ≠ .diverge) ?_).mono (fun _ _ h => h) (fun e s' h1 h2 => absurd h2 h1)) ?_
      · intro e s' _ h1 _ _ _; exact h1
      rintro ⟨r, c⟩ s1 ⟨h1, h2, h2l, h3, h4⟩
      dsimp only at h3 ⊢
      by_cases h5 : (c : Int) < n
      · rw [if_pos h5, VM.get_bind]
        refine Loc.bind ((Loc.and (expandSender_loc E _ _ _ _) (Loc.self _)).mono (fun _ _ h => h.1) (fun e s2 h he => ⟨_, _, _, _, _, h.2 he⟩)) ?_
        rintro - s2 hx
        obtain ⟨h6, h7⟩ := hx.ready h1
        have hb2 : s2.batch = b := h7.batch.trans (h2.batch.trans hbat)
        have hu := hx.u
        have hbb := h2.batch
        have hc2 : s2.sCached.u.length = b := by omega
        have hcd : cdiv (n - copied - s.sCached.u.length) b = cdiv (n - c - s2.sCached.u.length) b + 1 := by
          rw [cdiv_step hb (by omega), hc2, show n - copied - s.sCached.u.length - b = n - c - b by omega]
        exact ih r c s2 h6 hb2 (by omega) (by omega)
      · rw [if_neg h5]
        exact ih r c s1 h1 (h2.batch.trans hbat) (by omega) (by omega)
    · rw [if_neg h]
      exact Loc.ret True.intro

/-! ### The receiver -/

/-- The state of a receiver between calls: after a precomputation it is ready, and its expansions fit a row of the parameters. -/
structure RGood (s : VState T) : Prop where
  ready : RReady s
  row : ∃ j o, Row j s ∧ rd outputSizes j = .ok o ∧ s.batch + s.voleSize + s.mpfssSize ≤ o

theorem RGood.same {s s' : VState T} (h : RGood s) (hr : RReady s') (hs : SameR s s') : RGood s' := by
  obtain ⟨j, o, ⟨h1, h1'⟩, h2, h3⟩ := h.row
  exact ⟨hr, j, o, ⟨by rw [hs.noise]; exact h1, by rw [hs.vole]; exact h1'⟩, h2, by rw [hs.batch, hs.vole, hs.mpfss]; exact h3⟩

/-- Every expansion fits a row of the parameters or is one of those made in a precomputation. -/
theorem RGood.steady {s s' : VState T} (h : RGood s) {H : Cuckoo.Hasher} (hl : LogOK H s) (hs : Steady s s') : LogOK H s' := by
  obtain ⟨j, o, ⟨h1, h1'⟩, h2, h3⟩ := h.row
  intro x hx
  rcases hs x hx with hx | rfl
  · exact hl x hx
  · exact .inl ⟨j, o, rd_some h1, rd_some h1', rd_some h2, h3⟩

/-- What holds between the calls of an object that is always the receiver. -/
structure RInv (H : Cuckoo.Hasher) (s : VState T) : Prop where
  hasher : s.mpfss.hasher = H
  good : s.rDone = true → RGood s
  log : LogOK H s

theorem RInv.new (H : Cuckoo.Hasher) (junk : T) : RInv H (VState.new (State.new H) junk) :=
  ⟨rfl, fun h => Bool.noConfusion (h : false = true), fun x hx => by simp [VState.new] at hx⟩

theorem RInv.booted {H : Cuckoo.Hasher} {s s' : VState T} (h : RInv H s) (hb : Booted s s') : s'.mpfss.hasher = H ∧ LogOK H s' := by
  refine ⟨hb.1.trans h.hasher, fun x hx => ?_⟩
  rcases hb.2 x hx with hx | ⟨k, hk⟩
  · exact h.log x hx
  · rw [h.hasher] at hk; exact .inr ⟨k, hk⟩

theorem PreR.inv {b : Int} {d : T} {s s' : VState T} (h : PreR b d s s') {H : Cuckoo.Hasher} (hi : RInv H s) : RInv H s' := by
  refine ⟨h.hasher.trans hi.hasher, fun _ => ⟨h.ready, ?_⟩, ?_⟩
  · obtain ⟨j, l, h1, -, -, h2, -⟩ := h.chosen.row
    have hb := h.chosen.batch
    rcases h2 with rfl | ⟨o, h2, h3⟩
    · exact ⟨4, 10616092, h1, rfl, by omega⟩
    · exact ⟨j, o, h1, h2, by omega⟩
  · obtain ⟨j, l, -, h1, h2, -⟩ := h.chosen.row
    intro x hx
    rw [h1] at hx
    rcases List.mem_append.1 hx with hx | hx
    · exact hi.log x hx
    · obtain ⟨k, hk⟩ := h2.booted hx
      rw [hi.hasher] at hk
      exact .inr ⟨k, hk⟩

theorem RInv.after {H : Cuckoo.Hasher} {s s' : VState T} (h : RInv H s) (hd : s.rDone = true) (hr : RReady s') (hs : SameR s s') (hst : Steady s s') : RInv H s' :=
  ⟨hs.hasher.trans h.hasher, fun _ => (h.good hd).same hr hs, (h.good hd).steady h.log hst⟩

theorem receiverRest_inv (E : Env T) (n : Int) {H : Cuckoo.Hasher} (s : VState T) (h : RInv H s) (hd : s.rDone = true) : Loc (receiverRest E n s)
    (fun _ s' => RInv H s') (fun e s' => (E.lib.NoStatus → Calm e) ∧ RInv H s') := by
  rcases receiverRest_cases E n s with ⟨rest, res, hg, e⟩ | ⟨hg, e⟩ | ⟨-, w, e⟩
  · rw [e]
    refine Loc.ret ?_
    have hr := (h.good hd).ready
    obtain ⟨g1, g2, rfl, -⟩ := getReceiver_ok hg
    exact h.after hd (hr.cache _ _) ⟨rfl, rfl, rfl, rfl, rfl, rfl, rfl, rfl⟩ (.of_eq rfl)
  · rw [e]
    have h1 : RInv H { s with pos := s.pos + 1 } := h.after hd ((h.good hd).ready.adj s.mpfss _ rfl) ⟨rfl, rfl, rfl, rfl, rfl, rfl, rfl, rfl⟩ (.of_eq rfl)
    refine (runReceiverLoop_ready E n _ _ _ _ (h1.good hd).ready).mono ?_ ?_
    · rintro r s' ⟨h2, h3, h4⟩; exact h1.after hd h2 h3 h4
    · rintro r s' ⟨h2, h3, h4, h5⟩; exact ⟨h2, h1.after hd h3 h4 h5⟩
  · rw [e]; exact Loc.fail rfl ⟨fun _ => Calm.ub _, h⟩

theorem runReceiver_inv (E : Env T) (n : Int) {H : Cuckoo.Hasher} (s : VState T) (h : RInv H s) : Loc (runReceiver E n s)
    (fun _ s' => RInv H s') (fun e s' => (E.lib.NoStatus → Calm e) ∧ RInv H s') := by
  rw [runReceiver_eq]
  split
  · exact receiverRest_inv E n s h ‹_›
  · rename_i hd
    refine Loc.bind ((precomputeReceiver'_loc E n s).mono (fun _ _ h => h) ?_) ?_
    · rintro e s' ⟨h1, -, h2, h3⟩
      exact ⟨h1, (h.booted h3).1, fun h => absurd (h2.symm.trans h) hd, (h.booted h3).2⟩
    · rintro - s1 ⟨d, hp⟩
      exact receiverRest_inv E n s1 (hp.inv h) hp.rDone

theorem asReceiver_inv (E : Env T) (op : Op T) {H : Cuckoo.Hasher} (s : VState T) (h : RInv H s) : Loc (asReceiver E op s)
    (fun _ s' => RInv H s') (fun e s' => (E.lib.NoStatus → Calm e) ∧ ((∃ f n, op = .run f n) → RInv H s')) := by
  cases op with
  | precompute f b d =>
    refine Loc.bind ((precomputeReceiver_loc E b d s).mono (fun _ _ hp => hp.inv h) ?_) (fun _ s' h => Loc.ret h)
    rintro e s' ⟨h1, -⟩
    exact ⟨h1, fun ⟨_, _, h⟩ => by cases h⟩
  | precomputeRandom f b =>
    refine Loc.bind (Q := fun _ s' => RInv H s') ((precomputeReceiver'_loc E b s).mono ?_ ?_) (fun _ s' h => Loc.ret h)
    · rintro - s1 ⟨d, hp⟩; exact hp.inv h
    · rintro e s' ⟨h1, -⟩
      exact ⟨h1, fun ⟨_, _, h⟩ => by cases h⟩
  | run f n =>
    refine Loc.bind ((runReceiver_inv E n s h).mono (fun _ _ h => h) ?_) (fun _ s' h => Loc.ret h)
    rintro e s' ⟨h1, h2⟩
    exact ⟨h1, fun _ => h2⟩

/-- The invariant holds in the whole life of an object that is always the receiver. -/
theorem Lives.receiver {E : Env T} {H : Cuckoo.Hasher} {s0 s : VState T} {l : List (Op T × Out (Answer T))} (h0 : RInv H s0) (h : Lives E s0 l s)
    (hrole : ∀ x ∈ l, x.1.fwd = false) (hpre : ∀ x ∈ l, (∃ f n, x.1 = .run f n) ∨ ∃ a, x.2 = .ok a) : RInv H s := by
  induction h with
  | new => exact h0
  | @call l s op o s' _ hr ih =>
    have hi := ih (fun x hx => hrole x (List.mem_append_left _ hx)) (fun x hx => hpre x (List.mem_append_left _ hx))
    have hf : op.fwd = false := hrole (op, o) (by simp)
    rw [hf] at hr
    rcases asReceiver_inv E op s hi _ _ hr with ⟨a, -, h1⟩ | ⟨e, he, -, h1⟩
    · exact h1
    · rcases hpre (op, o) (by simp) with hp | ⟨a, hp⟩
      · exact h1 hp
      · dsimp only at hp; rw [hp] at he; cases he

/-- The number of expansions in a run. -/
theorem receiverRest_count (E : Env T) (n b : Nat) (hb : 1 ≤ b) (s : VState T) (hs : RReady s) (hbat : s.batch = b) : Loc (receiverRest E n s)
    (fun _ s' => s'.log = s.log ++ List.replicate (cdiv (n - s.rCached.w.length) b) (s.noise, s.voleSize, s.batch + s.voleSize + s.mpfssSize) ∧
      s'.rCached.w.length + n = s.rCached.w.length + cdiv (n - s.rCached.w.length) b * b) (fun _ _ => True) := by
  rcases receiverRest_cases E n s with ⟨rest, res, hg, e⟩ | ⟨hg, e⟩ | ⟨-, w, e⟩
  · rw [e]
    refine Loc.ret ?_
    obtain ⟨g1, g2, rfl, -⟩ := getReceiver_ok hg
    rw [show n - s.rCached.w.length = 0 by omega, cdiv_zero hb]
    refine ⟨by simp, ?_⟩
    simp only [List.length_take]
    omega
  · rw [e]
    exact runReceiverLoop_count E n b hb _ _ 0 { s with pos := s.pos + 1 } (hs.adj s.mpfss _ rfl) hbat (by omega)
  · rw [e]; exact Loc.fail rfl True.intro

/-- With enough iterations the loop diverges only if an expansion does. -/
theorem runReceiverLoop_diverge (E : Env T) (n b : Nat) (hb : 1 ≤ b) : ∀ (f : Nat) (res : RRes T) (copied : Nat) (s : VState T), RReady s → s.batch = b → copied ≤ n →
    cdiv (n - copied - s.rCached.w.length) b + 2 ≤ f ∨ (1 ≤ f ∧ n ≤ copied) →
    Loc (runReceiverLoop E n f res copied s) (fun _ _ => True) (fun e _ => e = .diverge → ∃ o nv nm s1 s2, Returns (expandReceiver E o nv nm s1) (.diverge, s2)) := by
  intro f
  induction f with
  | zero => intro res copied s _ _ _ h; omega
  | succ f ih =>
    intro res copied s hs hbat hle hf
    unfold runReceiverLoop
    by_cases h : (copied : Int) < n
    · rw [if_pos h, VM.get_bind]
      refine Loc.bind ((receiverStep_ready n res copied s hs h (F := fun e s' => e ≠ .diverge) ?_).mono (fun _ _ h => h) (fun e s' h1 h2 => absurd h2 h1)) ?_
      · intro e s' _ h1 _ _ _; exact h1
      rintro ⟨r, c⟩ s1 ⟨h1, h2, h2l, h3, h4⟩
      dsimp only at h3 ⊢
      by_cases h5 : (c : Int) < n
      · rw [if_pos h5, VM.get_bind]
        refine Loc.bind ((Loc.and (expandReceiver_loc E _ _ _ _) (Loc.self _)).mono (fun _ _ h => h.1) (fun e s2 h he => ⟨_, _, _, _, _, h.2 he⟩)) ?_
        rintro - s2 hx
        obtain ⟨h6, h7⟩ := hx.ready h1
        have hb2 : s2.batch = b := h7.batch.trans (h2.batch.trans hbat)
        have hu := hx.w
        have hbb := h2.batch
        have hc2 : s2.rCached.w.length = b := by omega
        have hcd : cdiv (n - copied - s.rCached.w.length) b = cdiv (n - c - s2.rCached.w.length) b + 1 := by
          rw [cdiv_step hb (by omega), hc2, show n - copied - s.rCached.w.length - b = n - c - b by omega]
        exact ih r c s2 h6 hb2 (by omega) (by omega)
      · rw [if_neg h5]
        exact ih r c s1 h1 (h2.batch.trans hbat) (by omega) (by omega)
    · rw [if_neg h]
      exact Loc.ret True.intro

end DVO.VOLE
