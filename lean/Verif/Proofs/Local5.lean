/-
Contracts of `RunSender` and `RunReceiver`.
-/
import Verif.Proofs.Local4

namespace DVO.VOLE
open MPFSS
set_option linter.unusedSectionVars false
variable {T α β : Type} [Scalar T]

/-! ### Elements -/

theorem take_seg' {l y r : List α} {c : Nat} (h : setSeg l c y = .ok r) : r.take (c + y.length) = l.take c ++ y := by
  obtain ⟨h1, rfl⟩ := setSeg_ok h
  rw [List.take_append_of_le_length (by simp; omega)]
  exact List.take_of_length_le (by simp)

theorem take_tail {l y r : List α} {n : Int} {c : Nat} (h : setTail l (n - c) y = .ok r) (hl : l.length = n.toNat) (hc : (c : Int) < n) : r.take n.toNat = l.take c ++ y := by
  obtain ⟨h1, h2, h3, rfl⟩ := setTail_ok h
  rw [show l.length - (n - c).toNat = c by omega]
  exact List.take_of_length_le (by simp; omega)

theorem take_ids {l y : List (Option Nat)} {c : Nat} (h : c + y.length ≤ l.length) : (putIds l c y).take (c + y.length) = l.take c ++ y := by
  unfold putIds
  rw [List.take_append_of_le_length (by simp; omega)]
  exact List.take_of_length_le (by simp)

theorem putIds_len {l y : List (Option Nat)} {c : Nat} (h : c + y.length ≤ l.length) : (putIds l c y).length = l.length := by
  unfold putIds
  simp; omega

/-- The elements in a result, piece by piece. -/
structure Pieces (res : SRes T) (copied : Nat) (l : List (SRes T)) (r : SRes T) : Prop where
  u : r.u = res.u.take copied ++ (l.map (·.u)).flatten
  v : r.v = res.v.take copied ++ (l.map (·.v)).flatten
  ids : r.ids = res.ids.take copied ++ (l.map (·.ids)).flatten

theorem runSenderLoop_moves (E : Env T) (n : Int) (f : Nat) : ∀ (res : SRes T) (copied : Nat) (s : VState T), Shape s →
    res.u.length = n.toNat → res.v.length = n.toNat → res.ids.length = n.toNat →
    Loc (runSenderLoop E n f res copied s)
      (fun r s' => ∃ l, Moves true s (l.map .sent) s' ∧ Pieces res copied l r)
      (fun _ s' => ∃ l : List (SRes T), Moves true s (l.map .sent) s') := by
  induction f with
  | zero => intro res copied s _ _ _ _; exact Loc.fail rfl ⟨[], .refl s⟩
  | succ f ih =>
    intro res copied s hs l1 l2 l3
    unfold runSenderLoop
    by_cases h : (copied : Int) < n
    · rw [if_pos h, VM.get_bind]
      refine Loc.bind (Q := fun (r : SRes T × Nat) s1 => ∃ p : SRes T, Moves true s [.sent p] s1 ∧
        r.1.u.length = n.toNat ∧ r.1.v.length = n.toNat ∧ r.1.ids.length = n.toNat ∧
        r.1.u.take r.2 = res.u.take copied ++ p.u ∧ r.1.v.take r.2 = res.v.take copied ++ p.v ∧ r.1.ids.take r.2 = res.ids.take copied ++ p.ids) ?_ ?_
      · obtain ⟨s1, s2, -⟩ := hs
        by_cases h2 : (copied : Int) + s.sCached.u.length ≤ n
        · rw [if_pos h2]
          refine Loc.liftBind (fun u hu => Loc.liftBind (fun v hv => ?_) (fun _ _ => ⟨[], .refl s⟩)) (fun _ _ => ⟨[], .refl s⟩)
          rw [VM.modify_bind]
          refine Loc.ret ⟨s.sCached, .prim (.sGiveAll s), (setSeg_len hu).trans l1, (setSeg_len hv).trans l2, ?_, take_seg' hu, ?_, ?_⟩
          · exact (putIds_len (by omega)).trans l3
          · dsimp only; rw [← s1]; exact take_seg' hv
          · dsimp only; rw [← s2]; exact take_ids (by omega)
        · rw [if_neg h2]
          refine Loc.bind ((getSenderCached_loc _ s).mono (fun _ _ h => h) (fun _ s' h => ⟨[], by rw [h.1]; exact .refl s⟩)) ?_
          rintro c s' ⟨rest, hg, rfl⟩
          have hm := Moves.prim (Prim.sGive (clean := true) s _ rest c hg)
          refine Loc.liftBind (fun u hu => Loc.liftBind (fun v hv => ?_) (fun _ _ => ⟨[c], hm⟩)) (fun _ _ => ⟨[c], hm⟩)
          have lc : copied + c.ids.length = n.toNat := by
            obtain ⟨g1, g2, g3, -, rfl⟩ := getSender_ok hg
            simp only [List.length_drop]
            omega
          refine Loc.ret ⟨c, hm, (setTail_len hu).trans l1, (setTail_len hv).trans l2, (putIds_len (by omega)).trans l3,
            take_tail hu l1 h, take_tail hv l2 h, ?_⟩
          dsimp only
          rw [← lc]
          exact take_ids (by omega)
      · rintro ⟨r, c⟩ s' ⟨p, hp, r1, r2, r3, r4, r5, r6⟩
        dsimp only at r1 r2 r3 r4 r5 r6 ⊢
        have hs' := hs.moves hp
        have key : ∀ s2, Moves true s' [] s2 → Loc (runSenderLoop E n f r c s2)
            (fun r s' => ∃ l, Moves true s (l.map .sent) s' ∧ Pieces res copied l r)
            (fun _ s' => ∃ l : List (SRes T), Moves true s (l.map .sent) s') := by
          intro s2 hm
          refine (ih r c s2 (hs'.moves hm) r1 r2 r3).mono ?_ ?_
          · rintro a s3 ⟨l, h1, ⟨h2, h3, h4⟩⟩
            refine ⟨p :: l, (hp.then hm).trans h1, ⟨?_, ?_, ?_⟩⟩
            · rw [h2, r4]; simp
            · rw [h3, r5]; simp
            · rw [h4, r6]; simp
          · rintro e s3 ⟨l, h1⟩
            exact ⟨p :: l, (hp.then hm).trans h1⟩
        by_cases h3 : (c : Int) < n
        · rw [if_pos h3, VM.get_bind]
          refine Loc.bind ((expandSender_loc E _ _ _ _).mono (fun _ _ h => h) ?_) (fun _ s2 h => key s2 h.moves)
          rintro e s2 ⟨-, h2, -⟩
          exact ⟨[p], hp.then h2⟩
        · rw [if_neg h3]; exact key s' (.refl s')
    · rw [if_neg h]
      refine Loc.ret ⟨[], .refl s, ⟨?_, ?_, ?_⟩⟩ <;> simp <;> omega

/-- The elements in a result of the receiver, piece by piece. -/
structure PiecesR (res : RRes T) (copied : Nat) (l : List (RRes T)) (r : RRes T) : Prop where
  w : r.w = res.w.take copied ++ (l.map (·.w)).flatten
  ids : r.ids = res.ids.take copied ++ (l.map (·.ids)).flatten
  delta : r.delta = res.delta

/-- Whether only clean moves may be made: not if the call fails. -/
theorem runReceiverLoop_moves (E : Env T) (n : Int) (f : Nat) : ∀ (res : RRes T) (copied : Nat) (s : VState T), Shape s →
    res.w.length = n.toNat → res.ids.length = n.toNat →
    Loc (runReceiverLoop E n f res copied s)
      (fun r s' => ∃ l, Moves true s (l.map .rcvd) s' ∧ PiecesR res copied l r)
      (fun _ s' => ∃ l : List (RRes T), Moves false s (l.map .rcvd) s') := by
  induction f with
  | zero => intro res copied s _ _ _; exact Loc.fail rfl ⟨[], .refl s⟩
  | succ f ih =>
    intro res copied s hs l1 l3
    unfold runReceiverLoop
    by_cases h : (copied : Int) < n
    · rw [if_pos h, VM.get_bind]
      refine Loc.bind (Q := fun (r : RRes T × Nat) s1 => ∃ p : RRes T, Moves true s [.rcvd p] s1 ∧
        r.1.w.length = n.toNat ∧ r.1.ids.length = n.toNat ∧ r.1.delta = res.delta ∧
        r.1.w.take r.2 = res.w.take copied ++ p.w ∧ r.1.ids.take r.2 = res.ids.take copied ++ p.ids) ?_ ?_
      · obtain ⟨-, -, s2⟩ := hs
        by_cases h2 : (copied : Int) + s.rCached.w.length ≤ n
        · rw [if_pos h2]
          refine Loc.liftBind (fun u hu => ?_) (fun _ _ => ⟨[], .refl s⟩)
          rw [VM.modify_bind]
          refine Loc.ret ⟨s.rCached, .prim (.rGiveAll s), (setSeg_len hu).trans l1, ?_, rfl, take_seg' hu, ?_⟩
          · exact (putIds_len (by omega)).trans l3
          · dsimp only; rw [← s2]; exact take_ids (by omega)
        · rw [if_neg h2]
          refine Loc.bind ((getReceiverCached_loc _ s).mono (fun _ _ h => h) (fun _ s' h => ⟨[], by rw [h.1]; exact .refl s⟩)) ?_
          rintro c s' ⟨rest, hg, rfl⟩
          have hm := Moves.prim (Prim.rGive (clean := true) s _ rest c hg)
          refine Loc.liftBind (fun u hu => ?_) (fun _ _ => ⟨[c], hm.dirty⟩)
          have lc : copied + c.ids.length = n.toNat := by
            obtain ⟨g1, g2, -, rfl⟩ := getReceiver_ok hg
            simp only [List.length_drop]
            omega
          refine Loc.ret ⟨c, hm, (setTail_len hu).trans l1, (putIds_len (by omega)).trans l3, rfl,
            take_tail hu l1 h, ?_⟩
          dsimp only
          rw [← lc]
          exact take_ids (by omega)
      · rintro ⟨r, c⟩ s' ⟨p, hp, r1, r3, r5, r4, r6⟩
        dsimp only at r1 r3 r4 r5 r6 ⊢
        have hs' := hs.moves hp
        have key : ∀ s2, Moves true s' [] s2 → Loc (runReceiverLoop E n f r c s2)
            (fun r s' => ∃ l, Moves true s (l.map .rcvd) s' ∧ PiecesR res copied l r)
            (fun _ s' => ∃ l : List (RRes T), Moves false s (l.map .rcvd) s') := by
          intro s2 hm
          refine (ih r c s2 (hs'.moves hm) r1 r3).mono ?_ ?_
          · rintro a s3 ⟨l, h1, ⟨h2, h4, h5⟩⟩
            refine ⟨p :: l, (hp.then hm).trans h1, ⟨?_, ?_, h5.trans r5⟩⟩
            · rw [h2, r4]; simp
            · rw [h4, r6]; simp
          · rintro e s3 ⟨l, h1⟩
            exact ⟨p :: l, (hp.then hm).dirty.trans h1⟩
        by_cases h3 : (c : Int) < n
        · rw [if_pos h3, VM.get_bind]
          refine Loc.bind ((expandReceiver_loc E _ _ _ _).mono (fun _ _ h => h) ?_) (fun _ s2 h => key s2 h.moves)
          rintro e s2 ⟨-, h2, -⟩
          exact ⟨[p], hp.dirty.then h2⟩
        · rw [if_neg h3]; exact key s' (.refl s')
    · rw [if_neg h]
      refine Loc.ret ⟨[], .refl s, ⟨?_, ?_, rfl⟩⟩ <;> simp <;> omega

/-! ### Sizes and numbers of expansions -/

/-- `x / b`, rounded up. -/
def cdiv (x b : Nat) : Nat := (x + b - 1) / b

theorem cdiv_zero {b : Nat} (hb : 1 ≤ b) : cdiv 0 b = 0 := by
  unfold cdiv; exact Nat.div_eq_of_lt (by omega)

theorem cdiv_step {x b : Nat} (hb : 1 ≤ b) (hx : 0 < x) : cdiv x b = cdiv (x - b) b + 1 := by
  unfold cdiv
  by_cases h : b ≤ x
  · rw [show x + b - 1 = (x - b + b - 1) + b by omega, Nat.add_div_right _ (by omega)]
  · rw [show x + b - 1 = (x - 1) + b by omega, Nat.add_div_right _ (by omega), Nat.div_eq_of_lt (by omega), show x - b = 0 by omega,
      Nat.div_eq_of_lt (by omega)]

/-- All new expansions are made with the current parameters. -/
def Steady (s s' : VState T) : Prop := ∀ x ∈ s'.log, x ∈ s.log ∨ x = (s.noise, s.voleSize, s.batch + s.voleSize + s.mpfssSize)

theorem Steady.refl (s : VState T) : Steady s s := fun _ h => .inl h

theorem Steady.of_eq {s s' : VState T} (h : s'.log = s.log) : Steady s s' := fun _ hx => .inl (h ▸ hx)

theorem Steady.trans {a b c : VState T} (h : Steady a b) (h1 : b.noise = a.noise) (h2 : b.voleSize = a.voleSize) (h3 : b.batch = a.batch) (h4 : b.mpfssSize = a.mpfssSize)
    (h' : Steady b c) : Steady a c := by
  intro x hx
  rcases h' x hx with e | e
  · exact h x e
  · rw [h1, h2, h3, h4] at e; exact .inr e

theorem SReady.cache {s : VState T} (h : SReady s) (c : SRes T) (hc : c.v.length = c.u.length) : SReady { s with sCached := c } := by
  obtain ⟨⟨h1, h2, h3, h4, h5⟩, h6, h7, h8⟩ := h
  exact ⟨⟨h1, h2, h3, h4, h5⟩, h6, h7, hc⟩

theorem ExpS.ready {o : Int} {s s' : VState T} (h : ExpS o s.voleSize s.mpfssSize s s') (hs : SReady s) : SReady s' ∧ SameS s s' := by
  obtain ⟨⟨h1, h2, h3, h4, h5⟩, h6, h7, h8⟩ := hs
  refine ⟨⟨⟨?_, ?_, ?_, ?_, ?_⟩, ?_, ?_, ?_⟩, ⟨h.hasher, h.batch, h.voleSize, h.mpfssSize, h.noise, h.code, h.sDone⟩⟩
  · rw [h.volU, h.voleSize]
  · rw [h.volV, h.voleSize]
  · rw [h.mpU, h.mpfssSize]
  · rw [h.mpV, h.mpfssSize]
  · rw [h.hasher, h.noise, h.mpfssSize, h5]
  · rw [h.code, h6, h.voleSize]
  · rw [h.code, h7, h.batch, h.voleSize, h.mpfssSize]
  · have := h.u; have := h.v; omega

theorem setSeg_fin {l y : List α} {o : Nat} {e : Out Unit} (h : failure (setSeg l o y) = some e) : e ≠ .diverge := by
  unfold setSeg at h
  split at h <;> cases h
  exact fun h => by cases h

theorem setTail_fin {l y : List α} {n : Int} {e : Out Unit} (h : failure (setTail l n y) = some e) : e ≠ .diverge := by
  unfold setTail at h
  split at h <;> cases h
  exact fun h => by cases h

theorem getSender_fin {c : SRes T} {n : Int} {e : Out Unit} (h : failure (getSender c n) = some e) : e ≠ .diverge := by
  unfold getSender splitTail at h
  rintro rfl
  split at h
  · cases h
  · split at h
    · cases h
    · rw [Out.ok_bind] at h
      dsimp only at h
      split at h <;> cases h

theorem getReceiver_fin {c : RRes T} {n : Int} {e : Out Unit} (h : failure (getReceiver c n) = some e) : e ≠ .diverge := by
  unfold getReceiver splitTail at h
  rintro rfl
  split at h
  · cases h
  · split at h <;> cases h

/-- What one iteration of the loop leaves in the cache. -/
theorem senderStep_ready (n : Int) (res : SRes T) (copied : Nat) (s : VState T) (hs : SReady s) (h : (copied : Int) < n) {F : Out Unit → VState T → Prop}
    (hF : ∀ e s', Calm e → e ≠ .diverge → SReady s' → SameS s s' → s'.log = s.log → F e s') : Loc ((
        if (copied : Int) + s.sCached.u.length ≤ n then do
          let u ← VM.lift (setSeg res.u copied s.sCached.u)
          let v ← VM.lift (setSeg res.v copied s.sCached.v)
          VM.modify (fun s => { s with sCached := ⟨[], [], []⟩ })
          pure (⟨u, v, putIds res.ids copied s.sCached.ids⟩, copied + s.sCached.u.length)
        else do
          let remaining := n - copied
          let c ← getSenderCached remaining
          let u ← VM.lift (setTail res.u remaining c.u)
          let v ← VM.lift (setTail res.v remaining c.v)
          pure (⟨u, v, putIds res.ids copied c.ids⟩, n.toNat) : VM T (SRes T × Nat)) s)
      (fun r s1 => SReady s1 ∧ SameS s s1 ∧ s1.log = s.log ∧ r.2 = min (copied + s.sCached.u.length) n.toNat ∧
        s1.sCached.u.length = copied + s.sCached.u.length - n.toNat) F := by
  by_cases h2 : (copied : Int) + s.sCached.u.length ≤ n
  · rw [if_pos h2]
    refine Loc.liftBind (fun u hu => Loc.liftBind (fun v hv => ?_) (fun e he => hF _ _ ((setSeg_calm _ _ _).failure he) (setSeg_fin he) hs (.refl _) rfl)) (fun e he => hF _ _ ((setSeg_calm _ _ _).failure he) (setSeg_fin he) hs (.refl s) rfl)
    rw [VM.modify_bind]
    refine Loc.ret ⟨hs.cache _ rfl, ⟨rfl, rfl, rfl, rfl, rfl, rfl, rfl⟩, rfl, ?_, ?_⟩ <;> dsimp <;> omega
  · rw [if_neg h2]
    refine Loc.bind ((getSenderCached_loc _ s).mono (fun _ _ h => h) ?_) ?_
    · rintro e s' ⟨rfl, he⟩
      exact hF _ _ ((getSender_calm _ _).failure he) (getSender_fin he) hs (.refl _) rfl
    rintro c s' ⟨rest, hg, rfl⟩
    obtain ⟨g1, g2, g3, rfl, -⟩ := getSender_ok hg
    have hs' : SReady { s with sCached := ⟨s.sCached.u.take (s.sCached.u.length - (n - copied).toNat), s.sCached.v.take (s.sCached.v.length - (n - copied).toNat), s.sCached.ids.take (s.sCached.ids.length - (n - copied).toNat)⟩ } :=
      hs.cache _ (by have := hs.uv; simp; omega)
    refine Loc.liftBind (fun u hu => Loc.liftBind (fun v hv => ?_) (fun e he => hF _ _ ((setTail_calm _ _ _).failure he) (setTail_fin he) hs' ⟨rfl, rfl, rfl, rfl, rfl, rfl, rfl⟩ rfl)) (fun e he => hF _ _ ((setTail_calm _ _ _).failure he) (setTail_fin he) hs' ⟨rfl, rfl, rfl, rfl, rfl, rfl, rfl⟩ rfl)
    refine Loc.ret ⟨hs', ⟨rfl, rfl, rfl, rfl, rfl, rfl, rfl⟩, rfl, ?_, ?_⟩
    · dsimp; omega
    · simp only [List.length_take]; omega

theorem runSenderLoop_ready (E : Env T) (n : Int) (f : Nat) : ∀ (res : SRes T) (copied : Nat) (s : VState T), SReady s →
    Loc (runSenderLoop E n f res copied s) (fun _ s' => SReady s' ∧ SameS s s' ∧ Steady s s') (fun e s' => (E.lib.NoStatus → Calm e) ∧ SReady s' ∧ SameS s s' ∧ Steady s s') := by
  induction f with
  | zero => intro res copied s hs; exact Loc.fail rfl ⟨fun _ => Calm.diverge, hs, .refl s, .refl s⟩
  | succ f ih =>
    intro res copied s hs
    unfold runSenderLoop
    by_cases h : (copied : Int) < n
    · rw [if_pos h, VM.get_bind]
      refine Loc.bind (senderStep_ready n res copied s hs h (fun e s' h1 _ h2 h3 h4 => ⟨fun _ => h1, h2, h3, .of_eq h4⟩)) ?_
      rintro ⟨r, c⟩ s1 ⟨h1, h2, hlog, -⟩
      dsimp only
      have hst := Steady.of_eq hlog
      have step : ∀ s2 : VState T, SameS s s2 → Steady s s2 → ∀ s3 : VState T, Steady s2 s3 → Steady s s3 := fun s2 e1 e2 s3 e3 =>
        e2.trans e1.noise e1.vole e1.batch e1.mpfss e3
      by_cases h3 : (c : Int) < n
      · rw [if_pos h3, VM.get_bind]
        refine Loc.bind ((expandSender_loc E _ _ _ _).mono (fun _ _ h => h) ?_) ?_
        · rintro e s2 ⟨h4, -, ⟨h5, h5'⟩, h6⟩
          refine ⟨fun hl => h4 hl ⟨?_, ?_, h1.cols⟩, h6 h1 rfl rfl, h2.trans h5, step s1 h2 hst s2 h5'⟩
          · have := h1.vu; have := h1.vv; omega
          · rw [h1.rows, h1.vu]
        · rintro - s2 hx
          obtain ⟨h4, h5⟩ := hx.ready h1
          have hs2 : Steady s s2 := step s1 h2 hst s2 (by
            intro x hx'
            rw [hx.log] at hx'
            exact (List.mem_append.1 hx').imp id (fun e => by simpa using e))
          refine (ih r c s2 h4).mono ?_ ?_
          · rintro a s3 ⟨h6, h7, h8⟩
            exact ⟨h6, h2.trans (h5.trans h7), step s2 (h2.trans h5) hs2 s3 h8⟩
          · rintro e s3 ⟨h6, h7, h8, h9⟩
            exact ⟨h6, h7, h2.trans (h5.trans h8), step s2 (h2.trans h5) hs2 s3 h9⟩
      · rw [if_neg h3]
        refine (ih r c s1 h1).mono ?_ ?_
        · rintro a s3 ⟨h6, h7, h8⟩
          exact ⟨h6, h2.trans h7, step s1 h2 hst s3 h8⟩
        · rintro e s3 ⟨h6, h7, h8, h9⟩
          exact ⟨h6, h7, h2.trans h8, step s1 h2 hst s3 h9⟩
    · rw [if_neg h]
      exact Loc.ret ⟨hs, .refl s, .refl s⟩

/-- The number of expansions. -/
theorem runSenderLoop_count (E : Env T) (n b : Nat) (hb : 1 ≤ b) (f : Nat) : ∀ (res : SRes T) (copied : Nat) (s : VState T), SReady s → s.batch = b → copied ≤ n →
    Loc (runSenderLoop E n f res copied s) (fun _ s' =>
      s'.log = s.log ++ List.replicate (cdiv (n - copied - s.sCached.u.length) b) (s.noise, s.voleSize, s.batch + s.voleSize + s.mpfssSize) ∧
      s'.sCached.u.length + (n - copied) = s.sCached.u.length + cdiv (n - copied - s.sCached.u.length) b * b) (fun _ _ => True) := by
  induction f with
  | zero => intro res copied s _ _ _; exact Loc.fail rfl True.intro
  | succ f ih =>
    intro res copied s hs hbat hle
    unfold runSenderLoop
    by_cases h : (copied : Int) < n
    · rw [if_pos h, VM.get_bind]
      refine Loc.bind (senderStep_ready n res copied s hs h (fun _ _ _ _ _ _ _ => True.intro)) ?_
      rintro ⟨r, c⟩ s1 ⟨h1, h2, h2l, h3, h4⟩
      dsimp only at h3 ⊢
      by_cases h5 : (c : Int) < n
      · rw [if_pos h5, VM.get_bind]
        refine Loc.bind ((expandSender_loc E _ _ _ _).mono (fun _ _ h => h) (fun _ _ _ => True.intro)) ?_
        rintro - s2 hx
        obtain ⟨h6, h7⟩ := hx.ready h1
        have hb2 : s2.batch = b := h7.batch.trans (h2.batch.trans hbat)
        refine (ih r c s2 h6 hb2 (by omega)).mono ?_ (fun _ _ h => h)
        rintro a s3 ⟨h8, h9⟩
        have hu := hx.u
        have hbb := h2.batch
        have hc2 : s2.sCached.u.length = b := by omega
        have hcd : cdiv (n - copied - s.sCached.u.length) b = cdiv (n - c - s2.sCached.u.length) b + 1 := by
          rw [cdiv_step hb (by omega), hc2, show n - copied - s.sCached.u.length - b = n - c - b by omega]
        constructor
        · rw [h8, hx.log, h2l, h2.noise, h2.vole, h2.batch, h2.mpfss, hcd, List.replicate_succ, h7.noise, h7.vole, h7.batch, h7.mpfss, h2.noise, h2.vole, h2.batch, h2.mpfss]
          simp
        · rw [hcd, Nat.succ_mul]
          rw [hc2] at h9 ⊢
          omega
      · rw [if_neg h5]
        refine (ih r c s1 h1 (h2.batch.trans hbat) (by omega)).mono ?_ (fun _ _ h => h)
        rintro a s3 ⟨h8, h9⟩
        rw [show n - c - s1.sCached.u.length = 0 by omega, cdiv_zero hb] at h8 h9
        rw [show n - copied - s.sCached.u.length = 0 by omega, cdiv_zero hb]
        exact ⟨by rw [h8, h2l]; simp, by omega⟩
    · rw [if_neg h]
      refine Loc.ret ?_
      rw [show n - copied - s.sCached.u.length = 0 by omega, cdiv_zero hb]
      exact ⟨by simp, by omega⟩


theorem Returns.of_bind {M : Type} {p : Proc M α} {f : α → Proc M β} {a : α} {b : β} (h : Returns p a) (h' : Returns (f a) b) : Returns (p.bind f) b := by
  induction h with
  | ret a => exact h'
  | send ch m k a _ ih => exact .send _ _ _ _ (ih h')
  | recv ch k m a _ ih => exact .recv _ _ m _ (ih h')
  | otSend ch kd ms k a _ ih => exact .otSend _ _ _ _ _ (ih h')
  | otRecv ch kd cs k r a _ ih => exact .otRecv _ _ _ _ r _ (ih h')

/-- Replacing the continuation of a program. -/
theorem Returns.next {x : VM T α} {f g : α → VM T β} {s : VState T} {Q : α → VState T → Prop} (h : Loc (x s) Q (fun _ _ => True))
    {r : Out β × VState T} (hr : Returns ((x >>= f) s) r) (hk : ∀ a s', Q a s' → Returns (f a s') r → Returns (g a s') r) : Returns ((x >>= g) s) r := by
  rw [VM.bind_apply] at hr ⊢
  obtain ⟨⟨o, s1⟩, h1, h2⟩ := Returns.bind hr
  refine Returns.of_bind h1 ?_
  cases o with
  | ok a => exact hk a s1 (h.ok h1) h2
  | err => exact h2
  | throws => exact h2
  | ub => exact h2
  | diverge => exact h2

/-- The bound on the number of iterations does not matter as long as it is large enough: the loop terminates. -/
theorem runSenderLoop_fuel (E : Env T) (n b : Nat) (hb : 1 ≤ b) : ∀ (f f' : Nat) (res : SRes T) (copied : Nat) (s : VState T), SReady s → s.batch = b → copied ≤ n →
    cdiv (n - copied - s.sCached.u.length) b + 2 ≤ f ∨ (1 ≤ f ∧ n ≤ copied) → cdiv (n - copied - s.sCached.u.length) b + 2 ≤ f' ∨ (1 ≤ f' ∧ n ≤ copied) →
    ∀ x, Returns (runSenderLoop E n f res copied s) x → Returns (runSenderLoop E n f' res copied s) x := by
  intro f
  induction f with
  | zero => intro f' res copied s _ _ _ h; omega
  | succ f ih =>
    intro f' res copied s hs hbat hle hf hf' x hx
    obtain ⟨f', rfl⟩ : ∃ k, f' = k + 1 := ⟨f' - 1, by omega⟩
    unfold runSenderLoop at hx ⊢
    by_cases h : (copied : Int) < n
    · rw [if_pos h, VM.get_bind] at hx ⊢
      refine Returns.next (senderStep_ready n res copied s hs h (fun _ _ _ _ _ _ _ => True.intro)) hx ?_
      rintro ⟨r, c⟩ s1 ⟨h1, h2, h2l, h3, h4⟩ hx
      dsimp only at h3 hx ⊢
      by_cases h5 : (c : Int) < n
      · rw [if_pos h5, VM.get_bind] at hx ⊢
        refine Returns.next ((expandSender_loc E _ _ _ _).mono (fun _ _ h => h) (fun _ _ _ => True.intro)) hx ?_
        rintro - s2 he hx
        obtain ⟨h6, h7⟩ := he.ready h1
        have hb2 : s2.batch = b := h7.batch.trans (h2.batch.trans hbat)
        have hu := he.u
        have hbb := h2.batch
        have hc2 : s2.sCached.u.length = b := by omega
        have hcd : cdiv (n - copied - s.sCached.u.length) b = cdiv (n - c - s2.sCached.u.length) b + 1 := by
          rw [cdiv_step hb (by omega), hc2, show n - copied - s.sCached.u.length - b = n - c - b by omega]
        exact ih f' r c s2 h6 hb2 (by omega) (by omega) (by omega) x hx
      · rw [if_neg h5] at hx ⊢
        exact ih f' r c s1 h1 (h2.batch.trans hbat) (by omega) (by omega) (by omega) x hx
    · rw [if_neg h] at hx ⊢
      exact hx

/-! ### The receiver -/

theorem RReady.cache {s : VState T} (h : RReady s) (w i) : RReady { s with rCached := ⟨w, s.rCached.delta, i⟩ } := by
  obtain ⟨⟨h1, h2, h3, h4, h5⟩, h6, h7⟩ := h
  exact ⟨⟨h1, h2, h3, h4, h5⟩, h6, h7⟩

theorem ExpR.ready {o : Int} {s s' : VState T} (h : ExpR o s.voleSize s.mpfssSize s s') (hs : RReady s) : RReady s' ∧ SameR s s' := by
  obtain ⟨⟨h1, h2, h3, h4, h5⟩, h6, h7⟩ := hs
  refine ⟨⟨⟨?_, ?_, ?_, ?_, ?_⟩, ?_, ?_⟩, ⟨h.hasher, h.batch, h.voleSize, h.mpfssSize, h.noise, h.code, h.rDone, h.delta⟩⟩
  · rw [h.vol, h.voleSize]
  · rw [h.mp, h.mpfssSize]
  · rw [h.hasher, h.noise, h.mpfssSize, h3]
  · rw [h.vdelta, h.delta]
  · rw [h.mdelta, h.delta]
  · rw [h.code, h6, h.voleSize]
  · rw [h.code, h7, h.batch, h.voleSize, h.mpfssSize]

/-- What one iteration of the loop leaves in the cache. -/
theorem receiverStep_ready (n : Int) (res : RRes T) (copied : Nat) (s : VState T) (hs : RReady s) (h : (copied : Int) < n) {F : Out Unit → VState T → Prop}
    (hF : ∀ e s', Calm e → e ≠ .diverge → RReady s' → SameR s s' → s'.log = s.log → F e s') : Loc ((
        if (copied : Int) + s.rCached.w.length ≤ n then do
          let w ← VM.lift (setSeg res.w copied s.rCached.w)
          VM.modify (fun s => { s with rCached := { s.rCached with w := [], ids := [] } })
          pure (⟨w, res.delta, putIds res.ids copied s.rCached.ids⟩, copied + s.rCached.w.length)
        else do
          let remaining := n - copied
          let c ← getReceiverCached remaining
          let w ← VM.lift (setTail res.w remaining c.w)
          pure (⟨w, res.delta, putIds res.ids copied c.ids⟩, n.toNat) : VM T (RRes T × Nat)) s)
      (fun r s1 => RReady s1 ∧ SameR s s1 ∧ s1.log = s.log ∧ r.2 = min (copied + s.rCached.w.length) n.toNat ∧
        s1.rCached.w.length = copied + s.rCached.w.length - n.toNat) F := by
  by_cases h2 : (copied : Int) + s.rCached.w.length ≤ n
  · rw [if_pos h2]
    refine Loc.liftBind (fun u hu => ?_) (fun e he => hF _ _ ((setSeg_calm _ _ _).failure he) (setSeg_fin he) hs (.refl _) rfl)
    rw [VM.modify_bind]
    refine Loc.ret ⟨hs.cache _ _, ⟨rfl, rfl, rfl, rfl, rfl, rfl, rfl, rfl⟩, rfl, ?_, ?_⟩ <;> dsimp <;> omega
  · rw [if_neg h2]
    refine Loc.bind ((getReceiverCached_loc _ s).mono (fun _ _ h => h) ?_) ?_
    · rintro e s' ⟨rfl, he⟩
      exact hF _ _ ((getReceiver_calm _ _).failure he) (getReceiver_fin he) hs (.refl _) rfl
    rintro c s' ⟨rest, hg, rfl⟩
    obtain ⟨g1, g2, rfl, -⟩ := getReceiver_ok hg
    have hs' : RReady { s with rCached := ⟨s.rCached.w.take (s.rCached.w.length - (n - copied).toNat), s.rCached.delta, s.rCached.ids.take (s.rCached.ids.length - (n - copied).toNat)⟩ } :=
      hs.cache _ _
    refine Loc.liftBind (fun u hu => ?_) (fun e he => hF _ _ ((setTail_calm _ _ _).failure he) (setTail_fin he) hs' ⟨rfl, rfl, rfl, rfl, rfl, rfl, rfl, rfl⟩ rfl)
    refine Loc.ret ⟨hs', ⟨rfl, rfl, rfl, rfl, rfl, rfl, rfl, rfl⟩, rfl, ?_, ?_⟩
    · dsimp; omega
    · simp only [List.length_take]; omega

theorem runReceiverLoop_ready (E : Env T) (n : Int) (f : Nat) : ∀ (res : RRes T) (copied : Nat) (s : VState T), RReady s →
    Loc (runReceiverLoop E n f res copied s) (fun _ s' => RReady s' ∧ SameR s s' ∧ Steady s s') (fun e s' => (E.lib.NoStatus → Calm e) ∧ RReady s' ∧ SameR s s' ∧ Steady s s') := by
  induction f with
  | zero => intro res copied s hs; exact Loc.fail rfl ⟨fun _ => Calm.diverge, hs, .refl s, .refl s⟩
  | succ f ih =>
    intro res copied s hs
    unfold runReceiverLoop
    by_cases h : (copied : Int) < n
    · rw [if_pos h, VM.get_bind]
      refine Loc.bind (receiverStep_ready n res copied s hs h (fun e s' h1 _ h2 h3 h4 => ⟨fun _ => h1, h2, h3, .of_eq h4⟩)) ?_
      rintro ⟨r, c⟩ s1 ⟨h1, h2, hlog, -⟩
      dsimp only
      have hst := Steady.of_eq hlog
      have step : ∀ s2 : VState T, SameR s s2 → Steady s s2 → ∀ s3 : VState T, Steady s2 s3 → Steady s s3 := fun s2 e1 e2 s3 e3 =>
        e2.trans e1.noise e1.vole e1.batch e1.mpfss e3
      by_cases h3 : (c : Int) < n
      · rw [if_pos h3, VM.get_bind]
        refine Loc.bind ((expandReceiver_loc E _ _ _ _).mono (fun _ _ h => h) ?_) ?_
        · rintro e s2 ⟨h4, -, ⟨h5, h5'⟩, h6⟩
          refine ⟨fun hl => h4 hl ⟨?_, h1.cols⟩, h6 h1 rfl rfl, h2.trans h5, step s1 h2 hst s2 h5'⟩
          rw [h1.rows, h1.vw]
        · rintro - s2 hx
          obtain ⟨h4, h5⟩ := hx.ready h1
          have hs2 : Steady s s2 := step s1 h2 hst s2 (by
            intro x hx'
            rw [hx.log] at hx'
            exact (List.mem_append.1 hx').imp id (fun e => by simpa using e))
          refine (ih r c s2 h4).mono ?_ ?_
          · rintro a s3 ⟨h6, h7, h8⟩
            exact ⟨h6, h2.trans (h5.trans h7), step s2 (h2.trans h5) hs2 s3 h8⟩
          · rintro e s3 ⟨h6, h7, h8, h9⟩
            exact ⟨h6, h7, h2.trans (h5.trans h8), step s2 (h2.trans h5) hs2 s3 h9⟩
      · rw [if_neg h3]
        refine (ih r c s1 h1).mono ?_ ?_
        · rintro a s3 ⟨h6, h7, h8⟩
          exact ⟨h6, h2.trans h7, step s1 h2 hst s3 h8⟩
        · rintro e s3 ⟨h6, h7, h8, h9⟩
          exact ⟨h6, h7, h2.trans h8, step s1 h2 hst s3 h9⟩
    · rw [if_neg h]
      exact Loc.ret ⟨hs, .refl s, .refl s⟩

/-- The number of expansions. -/
theorem runReceiverLoop_count (E : Env T) (n b : Nat) (hb : 1 ≤ b) (f : Nat) : ∀ (res : RRes T) (copied : Nat) (s : VState T), RReady s → s.batch = b → copied ≤ n →
    Loc (runReceiverLoop E n f res copied s) (fun _ s' =>
      s'.log = s.log ++ List.replicate (cdiv (n - copied - s.rCached.w.length) b) (s.noise, s.voleSize, s.batch + s.voleSize + s.mpfssSize) ∧
      s'.rCached.w.length + (n - copied) = s.rCached.w.length + cdiv (n - copied - s.rCached.w.length) b * b) (fun _ _ => True) := by
  induction f with
  | zero => intro res copied s _ _ _; exact Loc.fail rfl True.intro
  | succ f ih =>
    intro res copied s hs hbat hle
    unfold runReceiverLoop
    by_cases h : (copied : Int) < n
    · rw [if_pos h, VM.get_bind]
      refine Loc.bind (receiverStep_ready n res copied s hs h (fun _ _ _ _ _ _ _ => True.intro)) ?_
      rintro ⟨r, c⟩ s1 ⟨h1, h2, h2l, h3, h4⟩
      dsimp only at h3 ⊢
      by_cases h5 : (c : Int) < n
      · rw [if_pos h5, VM.get_bind]
        refine Loc.bind ((expandReceiver_loc E _ _ _ _).mono (fun _ _ h => h) (fun _ _ _ => True.intro)) ?_
        rintro - s2 hx
        obtain ⟨h6, h7⟩ := hx.ready h1
        have hb2 : s2.batch = b := h7.batch.trans (h2.batch.trans hbat)
        refine (ih r c s2 h6 hb2 (by omega)).mono ?_ (fun _ _ h => h)
        rintro a s3 ⟨h8, h9⟩
        have hu := hx.w
        have hbb := h2.batch
        have hc2 : s2.rCached.w.length = b := by omega
        have hcd : cdiv (n - copied - s.rCached.w.length) b = cdiv (n - c - s2.rCached.w.length) b + 1 := by
          rw [cdiv_step hb (by omega), hc2, show n - copied - s.rCached.w.length - b = n - c - b by omega]
        constructor
        · rw [h8, hx.log, h2l, h2.noise, h2.vole, h2.batch, h2.mpfss, hcd, List.replicate_succ, h7.noise, h7.vole, h7.batch, h7.mpfss, h2.noise, h2.vole, h2.batch, h2.mpfss]
          simp
        · rw [hcd, Nat.succ_mul]
          rw [hc2] at h9 ⊢
          omega
      · rw [if_neg h5]
        refine (ih r c s1 h1 (h2.batch.trans hbat) (by omega)).mono ?_ (fun _ _ h => h)
        rintro a s3 ⟨h8, h9⟩
        rw [show n - c - s1.rCached.w.length = 0 by omega, cdiv_zero hb] at h8 h9
        rw [show n - copied - s.rCached.w.length = 0 by omega, cdiv_zero hb]
        exact ⟨by rw [h8, h2l]; simp, by omega⟩
    · rw [if_neg h]
      refine Loc.ret ?_
      rw [show n - copied - s.rCached.w.length = 0 by omega, cdiv_zero hb]
      exact ⟨by simp, by omega⟩

/-- The bound on the number of iterations does not matter as long as it is large enough: the loop terminates. -/
theorem runReceiverLoop_fuel (E : Env T) (n b : Nat) (hb : 1 ≤ b) : ∀ (f f' : Nat) (res : RRes T) (copied : Nat) (s : VState T), RReady s → s.batch = b → copied ≤ n →
    cdiv (n - copied - s.rCached.w.length) b + 2 ≤ f ∨ (1 ≤ f ∧ n ≤ copied) → cdiv (n - copied - s.rCached.w.length) b + 2 ≤ f' ∨ (1 ≤ f' ∧ n ≤ copied) →
    ∀ x, Returns (runReceiverLoop E n f res copied s) x → Returns (runReceiverLoop E n f' res copied s) x := by
  intro f
  induction f with
  | zero => intro f' res copied s _ _ _ h; omega
  | succ f ih =>
    intro f' res copied s hs hbat hle hf hf' x hx
    obtain ⟨f', rfl⟩ : ∃ k, f' = k + 1 := ⟨f' - 1, by omega⟩
    unfold runReceiverLoop at hx ⊢
    by_cases h : (copied : Int) < n
    · rw [if_pos h, VM.get_bind] at hx ⊢
      refine Returns.next (receiverStep_ready n res copied s hs h (fun _ _ _ _ _ _ _ => True.intro)) hx ?_
      rintro ⟨r, c⟩ s1 ⟨h1, h2, h2l, h3, h4⟩ hx
      dsimp only at h3 hx ⊢
      by_cases h5 : (c : Int) < n
      · rw [if_pos h5, VM.get_bind] at hx ⊢
        refine Returns.next ((expandReceiver_loc E _ _ _ _).mono (fun _ _ h => h) (fun _ _ _ => True.intro)) hx ?_
        rintro - s2 he hx
        obtain ⟨h6, h7⟩ := he.ready h1
        have hb2 : s2.batch = b := h7.batch.trans (h2.batch.trans hbat)
        have hu := he.w
        have hbb := h2.batch
        have hc2 : s2.rCached.w.length = b := by omega
        have hcd : cdiv (n - copied - s.rCached.w.length) b = cdiv (n - c - s2.rCached.w.length) b + 1 := by
          rw [cdiv_step hb (by omega), hc2, show n - copied - s.rCached.w.length - b = n - c - b by omega]
        exact ih f' r c s2 h6 hb2 (by omega) (by omega) (by omega) x hx
      · rw [if_neg h5] at hx ⊢
        exact ih f' r c s1 h1 (h2.batch.trans hbat) (by omega) (by omega) (by omega) x hx
    · rw [if_neg h] at hx ⊢
      exact hx

end DVO.VOLE
