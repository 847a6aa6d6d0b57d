/-
The code generator: where it comes from, and runs with a generator that was not sampled (C59).
-/
import Verif.Props.VOLELocal4
import Verif.Spec.Generator

namespace DVO.VOLE
open Net MPFSS
set_option linter.unusedSectionVars false
variable {T α β : Type} [Scalar T]

theorem Loc.any (p : Proc (Msg T) (Out α × VState T)) : Loc p (fun _ _ => True) (fun _ _ => True) := by
  intro o s' _
  cases o with
  | ok a => exact .inl ⟨a, rfl, True.intro⟩
  | _ => exact .inr ⟨_, rfl, True.intro⟩

/-! ### The generator is sampled in a precomputation that returns OK -/

theorem common_sampled {E : Env T} {o : Int} {s s' : VState T} (h : Returns (precomputeCommon E o s) (.ok (), s')) : FromSeed E s'.code := by
  rcases common_cases E o s with ⟨st, -, ho, e⟩ | ⟨x, t, e, hx⟩
  swap
  · rw [e] at h
    cases h
    exact absurd rfl (hx _)
  rw [e] at h
  have key : ∀ seed p, Returns (fromSeed E o seed { s with mpfss := st, code := ⟨s.voleSize, List.replicate o.toNat []⟩, pos := p }) (.ok (), s') →
      FromSeed E s'.code := by
    intro seed p hr
    obtain ⟨x, t, e1, h1, -⟩ := fromSeed_local E o seed { s with mpfss := st, code := ⟨s.voleSize, List.replicate o.toNat []⟩, pos := p }
    rw [e1] at hr
    cases hr
    obtain ⟨g, hg, -, h2⟩ := h1 rfl
    exact ⟨_, seed, g, s.voleSize, o.toNat, by rw [show ((o.toNat : Nat) : Int) = o by omega]; exact hg, h2⟩
  cases hl : E.lower with
  | true =>
    rw [exchange_send E hl] at h
    cases h
    rename_i h
    exact key _ _ h
  | false =>
    rw [exchange_recv E hl] at h
    cases h with | recv _ _ m _ h =>
    cases m with
    | bytes b => exact key b _ h
    | _ => cases h

theorem finish_sampled (E : Env T) (b : Int) (s : VState T) : Loc (finishPrecompute E b s) (fun _ s' => FromSeed E s'.code) (fun _ _ => True) := by
  unfold finishPrecompute
  rw [VM.get_bind]
  refine Loc.liftBind (fun last _ => Loc.liftBind (fun cap _ => ?_) (fun _ _ => True.intro)) (fun _ _ => True.intro)
  rw [VM.modify_bind, VM.get_bind]
  intro o s' hr
  cases hx : failure o with
  | none => obtain ⟨⟨⟩, rfl⟩ := failure_none hx; exact .inl ⟨(), rfl, common_sampled hr⟩
  | some e => exact .inr ⟨e, rfl, True.intro⟩

theorem precomputeSender_sampled (E : Env T) (b : Int) (s : VState T) :
    Loc (precomputeSender E b s) (fun _ s' => FromSeed E s'.code) (fun _ _ => True) := by
  rw [precomputeSender_eq]
  refine Loc.bind (Loc.any _) (fun _ s1 _ => Loc.bind (finish_sampled E b s1) (fun _ s2 h2 => ?_))
  exact Loc.ret h2

theorem precomputeReceiver_sampled (E : Env T) (b : Int) (d : T) (s : VState T) :
    Loc (precomputeReceiver E b d s) (fun _ s' => FromSeed E s'.code) (fun _ _ => True) := by
  rw [precomputeReceiver_eq]
  refine Loc.bind (Loc.any _) (fun _ s1 _ => Loc.bind (finish_sampled E b s1) (fun _ s2 h2 => ?_))
  exact Loc.ret h2

/-! ### Runs do not change it -/

/-- What a run of a sender that has been precomputed leaves alone. -/
def KeepS (s s' : VState T) : Prop := s'.code = s.code ∧ s'.sDone = s.sDone

theorem senderStep_frame (n : Int) (res : SRes T) (copied : Nat) (s : VState T) : Loc ((
        if (copied : Int) + s.sCached.u.length ≤ n then do
          let u ← VM.lift (setSeg res.u copied s.sCached.u)
          let v ← VM.lift (setSeg res.v copied s.sCached.v)
          VM.modify (fun s => { s with sCached := ⟨[], [], []⟩ })
          pure (⟨u, v, putIds res.ids copied s.sCached.ids⟩, copied + s.sCached.u.length)
        else do
          let remaining := n - copied
          let c ← getSenderCached remaining
          let u ← VM.lift (setTail res.u remaining c.u)
          let v ← VM.lift (setTail res.v remaining c.v)
          pure (⟨u, v, putIds res.ids copied c.ids⟩, n.toNat) : VM T (SRes T × Nat)) s)
      (fun _ s1 => ∃ c, s1 = { s with sCached := c }) (fun _ s1 => ∃ c, s1 = { s with sCached := c }) := by
  split
  · refine Loc.liftBind (fun u _ => Loc.liftBind (fun v _ => ?_) (fun _ _ => ⟨_, rfl⟩)) (fun _ _ => ⟨_, rfl⟩)
    rw [VM.modify_bind]
    exact Loc.ret ⟨_, rfl⟩
  · refine Loc.bind ((getSenderCached_loc _ s).mono (fun _ _ h => h) ?_) ?_
    · rintro e s' ⟨rfl, -⟩
      exact ⟨_, rfl⟩
    rintro c s' ⟨rest, -, rfl⟩
    refine Loc.liftBind (fun u _ => Loc.liftBind (fun v _ => ?_) (fun _ _ => ⟨_, rfl⟩)) (fun _ _ => ⟨_, rfl⟩)
    exact Loc.ret ⟨_, rfl⟩

theorem runSenderLoop_keep (E : Env T) (n : Int) (f : Nat) : ∀ (res : SRes T) (copied : Nat) (s : VState T),
    Loc (runSenderLoop E n f res copied s) (fun _ s' => KeepS s s') (fun _ s' => KeepS s s') := by
  induction f with
  | zero => intro res copied s; exact Loc.fail rfl ⟨rfl, rfl⟩
  | succ f ih =>
    intro res copied s
    unfold runSenderLoop
    by_cases h : (copied : Int) < n
    · rw [if_pos h, VM.get_bind]
      refine Loc.bind ((senderStep_frame n res copied s).mono (fun _ _ h => h) ?_) ?_
      · rintro e s' ⟨c, rfl⟩
        exact ⟨rfl, rfl⟩
      rintro ⟨r, k⟩ s1 ⟨c, rfl⟩
      dsimp only
      by_cases h3 : (k : Int) < n
      · rw [if_pos h3, VM.get_bind]
        refine Loc.bind ((expandSender_loc E _ _ _ _).mono (fun _ _ h => h) ?_) ?_
        · rintro e s2 ⟨-, -, ⟨h5, -⟩, -⟩
          exact ⟨h5.code, h5.sDone⟩
        · rintro - s2 hx
          refine (ih r k s2).mono ?_ ?_
          · rintro a s3 ⟨h6, h7⟩
            exact ⟨h6.trans hx.code, h7.trans hx.sDone⟩
          · rintro a s3 ⟨h6, h7⟩
            exact ⟨h6.trans hx.code, h7.trans hx.sDone⟩
      · rw [if_neg h3]
        exact ih r k _
    · rw [if_neg h]
      exact Loc.ret ⟨rfl, rfl⟩

theorem senderRest_keep (E : Env T) (n : Int) (s : VState T) : Loc (senderRest E n s) (fun _ s' => KeepS s s') (fun _ s' => KeepS s s') := by
  rcases senderRest_cases E n s with ⟨rest, res, hg, e⟩ | ⟨hg, e⟩ | ⟨w, e⟩
  · rw [e]; exact Loc.ret ⟨rfl, rfl⟩
  · rw [e]; exact runSenderLoop_keep E n _ _ _ _
  · rw [e]; exact Loc.fail rfl ⟨rfl, rfl⟩

/-- What a run of a receiver that has been precomputed leaves alone. -/
def KeepR (s s' : VState T) : Prop := s'.code = s.code ∧ s'.rDone = s.rDone

theorem receiverStep_frame (n : Int) (res : RRes T) (copied : Nat) (s : VState T) : Loc ((
        if (copied : Int) + s.rCached.w.length ≤ n then do
          let w ← VM.lift (setSeg res.w copied s.rCached.w)
          VM.modify (fun s => { s with rCached := { s.rCached with w := [], ids := [] } })
          pure (⟨w, res.delta, putIds res.ids copied s.rCached.ids⟩, copied + s.rCached.w.length)
        else do
          let remaining := n - copied
          let c ← getReceiverCached remaining
          let w ← VM.lift (setTail res.w remaining c.w)
          pure (⟨w, res.delta, putIds res.ids copied c.ids⟩, n.toNat) : VM T (RRes T × Nat)) s)
      (fun _ s1 => ∃ c, s1 = { s with rCached := c }) (fun _ s1 => ∃ c, s1 = { s with rCached := c }) := by
  split
  · refine Loc.liftBind (fun u _ => ?_) (fun _ _ => ⟨_, rfl⟩)
    rw [VM.modify_bind]
    exact Loc.ret ⟨_, rfl⟩
  · refine Loc.bind ((getReceiverCached_loc _ s).mono (fun _ _ h => h) ?_) ?_
    · rintro e s' ⟨rfl, -⟩
      exact ⟨_, rfl⟩
    rintro c s' ⟨rest, -, rfl⟩
    refine Loc.liftBind (fun u _ => ?_) (fun _ _ => ⟨_, rfl⟩)
    exact Loc.ret ⟨_, rfl⟩

theorem runReceiverLoop_keep (E : Env T) (n : Int) (f : Nat) : ∀ (res : RRes T) (copied : Nat) (s : VState T),
    Loc (runReceiverLoop E n f res copied s) (fun _ s' => KeepR s s') (fun _ s' => KeepR s s') := by
  induction f with
  | zero => intro res copied s; exact Loc.fail rfl ⟨rfl, rfl⟩
  | succ f ih =>
    intro res copied s
    unfold runReceiverLoop
    by_cases h : (copied : Int) < n
    · rw [if_pos h, VM.get_bind]
      refine Loc.bind ((receiverStep_frame n res copied s).mono (fun _ _ h => h) ?_) ?_
      · rintro e s' ⟨c, rfl⟩
        exact ⟨rfl, rfl⟩
      rintro ⟨r, k⟩ s1 ⟨c, rfl⟩
      dsimp only
      by_cases h3 : (k : Int) < n
      · rw [if_pos h3, VM.get_bind]
        refine Loc.bind ((expandReceiver_loc E _ _ _ _).mono (fun _ _ h => h) ?_) ?_
        · rintro e s2 ⟨-, -, ⟨h5, -⟩, -⟩
          exact ⟨h5.code, h5.rDone⟩
        · rintro - s2 hx
          refine (ih r k s2).mono ?_ ?_
          · rintro a s3 ⟨h6, h7⟩
            exact ⟨h6.trans hx.code, h7.trans hx.rDone⟩
          · rintro a s3 ⟨h6, h7⟩
            exact ⟨h6.trans hx.code, h7.trans hx.rDone⟩
      · rw [if_neg h3]
        exact ih r k _
    · rw [if_neg h]
      exact Loc.ret ⟨rfl, rfl⟩

theorem receiverRest_keep (E : Env T) (n : Int) (s : VState T) : Loc (receiverRest E n s) (fun _ s' => KeepR s s') (fun _ s' => KeepR s s') := by
  rcases receiverRest_cases E n s with ⟨rest, res, hg, e⟩ | ⟨hg, e⟩ | ⟨-, w, e⟩
  · rw [e]; exact Loc.ret ⟨rfl, rfl⟩
  · rw [e]; exact runReceiverLoop_keep E n _ _ _ _
  · rw [e]; exact Loc.fail rfl ⟨rfl, rfl⟩

/-- A call as a sender: after OK the generator is sampled, or it is the one there was. -/
theorem asSender_code (E : Env T) (op : Op T) (s : VState T) : Loc (asSender E op s)
    (fun _ s' => FromSeed E s'.code ∨ (s'.code = s.code ∧ s.sDone = true))
    (fun _ s' => (∃ f n, op = .run f n) → FromSeed E s'.code ∨ (s'.code = s.code ∧ s.sDone = true) ∨ s'.sDone = false) := by
  cases op with
  | precompute f b d =>
    exact Loc.bind ((precomputeSender_sampled E b s).mono (fun _ _ h => h) (fun _ _ _ ⟨_, _, h⟩ => by cases h)) (fun _ s' h => Loc.ret (.inl h))
  | precomputeRandom f b =>
    exact Loc.bind ((precomputeSender_sampled E b s).mono (fun _ _ h => h) (fun _ _ _ ⟨_, _, h⟩ => by cases h)) (fun _ s' h => Loc.ret (.inl h))
  | run f n =>
    refine Loc.bind (x := runSender E n) (Q := fun _ s' => FromSeed E s'.code ∨ (s'.code = s.code ∧ s.sDone = true)) ?_ (fun _ s' h => Loc.ret h)
    rw [runSender_eq]
    split
    · rename_i hd
      refine (senderRest_keep E n s).mono ?_ ?_
      · rintro - s' ⟨h1, h2⟩; exact .inr ⟨h1, hd⟩
      · rintro - s' ⟨h1, h2⟩ -; exact .inr (.inl ⟨h1, hd⟩)
    · rename_i hd
      refine Loc.bind ((Loc.and (precomputeSender_loc E n s) (precomputeSender_sampled E n s)).mono (fun _ _ h => h.2) ?_) ?_
      · rintro e s' ⟨⟨-, -, h2, -⟩, -⟩ -
        right; right
        rw [h2]; simpa using hd
      · rintro - s1 hp
        refine (senderRest_keep E n s1).mono ?_ ?_
        · rintro - s' ⟨h1, h2⟩; left; rw [h1]; exact hp
        · rintro - s' ⟨h1, h2⟩ -; left; rw [h1]; exact hp

/-- A call as a receiver. -/
theorem asReceiver_code (E : Env T) (op : Op T) (s : VState T) : Loc (asReceiver E op s)
    (fun _ s' => FromSeed E s'.code ∨ (s'.code = s.code ∧ s.rDone = true))
    (fun _ s' => (∃ f n, op = .run f n) → FromSeed E s'.code ∨ (s'.code = s.code ∧ s.rDone = true) ∨ s'.rDone = false) := by
  cases op with
  | precompute f b d =>
    exact Loc.bind ((precomputeReceiver_sampled E b d s).mono (fun _ _ h => h) (fun _ _ _ ⟨_, _, h⟩ => by cases h)) (fun _ s' h => Loc.ret (.inl h))
  | precomputeRandom f b =>
    refine Loc.bind (x := precomputeReceiver' E b) (Q := fun _ s' => FromSeed E s'.code) ?_ (fun _ s' h => Loc.ret (.inl h))
    exact (precomputeReceiver_sampled E b _ _).mono (fun _ _ h => h) (fun _ _ _ ⟨_, _, h⟩ => by cases h)
  | run f n =>
    refine Loc.bind (x := runReceiver E n) (Q := fun _ s' => FromSeed E s'.code ∨ (s'.code = s.code ∧ s.rDone = true)) ?_ (fun _ s' h => Loc.ret h)
    rw [runReceiver_eq]
    split
    · rename_i hd
      refine (receiverRest_keep E n s).mono ?_ ?_
      · rintro - s' ⟨h1, h2⟩; exact .inr ⟨h1, hd⟩
      · rintro - s' ⟨h1, h2⟩ -; exact .inr (.inl ⟨h1, hd⟩)
    · rename_i hd
      refine Loc.bind (x := precomputeReceiver' E n) (Q := fun _ s' => FromSeed E s'.code) ?_ ?_
      · refine (Loc.and (precomputeReceiver_loc E n _ _) (precomputeReceiver_sampled E n _ _)).mono (fun _ _ h => h.2) ?_
        rintro e s' ⟨⟨-, -, h2, -⟩, -⟩ -
        right; right
        rw [h2]; simpa using hd
      · rintro - s1 hp
        refine (receiverRest_keep E n s1).mono ?_ ?_
        · rintro - s' ⟨h1, h2⟩; left; rw [h1]; exact hp
        · rintro - s' ⟨h1, h2⟩ -; left; rw [h1]; exact hp

end DVO.VOLE
