/-
Reasoning about one party, whatever its peer does.
-/
import Verif.Proofs.Pair
import Verif.Proofs.MPFSS

namespace DVO.VOLE
open MPFSS
variable {T α β γ : Type}

/-- The failure contained in an outcome. -/
def failure : Out α → Option (Out Unit)
  | .ok _ => none
  | .err c m => some (.err c m)
  | .throws m => some (.throws m)
  | .ub w => some (.ub w)
  | .diverge => some .diverge

theorem failure_none {o : Out α} (h : failure o = none) : ∃ a, o = .ok a := by
  cases o <;> first | exact ⟨_, rfl⟩ | cases h

/-- Whatever the peer does, the program returns a result and state in `Q`, or a failure and state in `F`, or does not return. -/
def Loc (p : Proc (Msg T) (Out α × VState T)) (Q : α → VState T → Prop) (F : Out Unit → VState T → Prop) : Prop :=
  ∀ o s', Returns p (o, s') → (∃ a, o = .ok a ∧ Q a s') ∨ (∃ e, failure o = some e ∧ F e s')

variable {Q : α → VState T → Prop} {F : Out Unit → VState T → Prop}

theorem Loc.mono {p : Proc (Msg T) (Out α × VState T)} (h : Loc p Q F) {Q' : α → VState T → Prop} {F' : Out Unit → VState T → Prop}
    (hq : ∀ a s, Q a s → Q' a s) (hf : ∀ e s, F e s → F' e s) : Loc p Q' F' := by
  intro o s' hr
  rcases h o s' hr with ⟨a, e, h1⟩ | ⟨e, h1, h2⟩
  · exact .inl ⟨a, e, hq _ _ h1⟩
  · exact .inr ⟨e, h1, hf _ _ h2⟩

theorem Loc.ok {p : Proc (Msg T) (Out α × VState T)} (h : Loc p Q F) {a : α} {s : VState T} (hr : Returns p (.ok a, s)) : Q a s := by
  rcases h _ _ hr with ⟨a', e, h1⟩ | ⟨e, h1, -⟩
  · cases e; exact h1
  · cases h1

theorem Loc.fails {p : Proc (Msg T) (Out α × VState T)} (h : Loc p Q F) {o : Out α} {e : Out Unit} {s : VState T} (hr : Returns p (o, s))
    (he : failure o = some e) : F e s := by
  rcases h _ _ hr with ⟨a', e', h1⟩ | ⟨e', h1, h2⟩
  · rw [e'] at he; cases he
  · rw [he] at h1; cases h1; exact h2

theorem Loc.ret {a : α} {s : VState T} (h : Q a s) : Loc (.ret (.ok a, s)) Q F := by
  intro o s' hr
  cases hr
  exact .inl ⟨a, rfl, h⟩

theorem Loc.fail {o : Out α} {e : Out Unit} {s : VState T} (he : failure o = some e) (h : F e s) : Loc (.ret (o, s)) Q F := by
  intro o' s' hr
  cases hr
  exact .inr ⟨e, he, h⟩

theorem Loc.lift {x : Out α} {s : VState T} (h : ∀ a, x = .ok a → Q a s) (hf : ∀ e, failure x = some e → F e s) : Loc (VM.lift x s) Q F := by
  intro o s' hr
  cases hr
  cases hx : failure x with
  | none => obtain ⟨a, rfl⟩ := failure_none hx; exact .inl ⟨a, rfl, h a rfl⟩
  | some e => exact .inr ⟨e, rfl, hf e hx⟩

theorem Loc.bind {x : VM T α} {f : α → VM T β} {s : VState T} {Q' : β → VState T → Prop} (h : Loc (x s) Q F)
    (hk : ∀ a s', Q a s' → Loc (f a s') Q' F) : Loc ((x >>= f) s) Q' F := by
  intro o s' hr
  rw [VM.bind_apply] at hr
  obtain ⟨⟨o1, s1⟩, h1, h2⟩ := Returns.bind hr
  rcases h _ _ h1 with ⟨a, rfl, h3⟩ | ⟨e, h3, h4⟩
  · exact hk a s1 h3 _ _ h2
  · right
    cases o1 <;> cases h3 <;> cases h2 <;> exact ⟨_, rfl, h4⟩

theorem Loc.liftBind {x : Out α} {f : α → VM T β} {s : VState T} {Q' : β → VState T → Prop}
    (h : ∀ a, x = .ok a → Loc (f a s) Q' F) (hf : ∀ e, failure x = some e → F e s) : Loc ((VM.lift x >>= f) s) Q' F :=
  Loc.bind (Q := fun a s' => s' = s ∧ x = .ok a) (Loc.lift (fun a e => ⟨rfl, e⟩) hf) (by rintro a s' ⟨rfl, e⟩; exact h a e)

theorem Loc.run {p : PM (Msg T) α} {s : VState T} (h : ∀ a, Returns (α := Out α) p (.ok a) → Q a s)
    (hf : ∀ (o : Out α) e, Returns p o → failure o = some e → F e s) : Loc (VM.run p s) Q F := by
  intro o s' hr
  obtain ⟨o1, h1, h2⟩ := Returns.bind (M := Msg T) hr
  cases h2
  cases hx : failure o with
  | none => obtain ⟨a, rfl⟩ := failure_none hx; exact .inl ⟨a, rfl, h a h1⟩
  | some e => exact .inr ⟨e, rfl, hf _ e h1 hx⟩

theorem Loc.runBind {p : PM (Msg T) α} {f : α → VM T β} {s : VState T} {Q' : β → VState T → Prop}
    (h : ∀ a, Returns (α := Out α) p (.ok a) → Loc (f a s) Q' F)
    (hf : ∀ (o : Out α) e, Returns p o → failure o = some e → F e s) : Loc ((VM.run p >>= f) s) Q' F :=
  Loc.bind (Q := fun a s' => s' = s ∧ Returns (α := Out α) p (.ok a)) (Loc.run (fun a e => ⟨rfl, e⟩) hf) (by rintro a s' ⟨rfl, e⟩; exact h a e)

theorem Loc.runMpfss {p : MPFSS.State → Proc (Msg T) (MPFSS.Res T)} {s : VState T} {Q : List T → VState T → Prop}
    (h : ∀ r, Returns (p s.mpfss) r → r.status = .ok () → Q r.output { s with mpfss := r.st })
    (hf : ∀ r e, Returns (p s.mpfss) r → failure r.status = some e → F e { s with mpfss := r.st }) : Loc (VM.runMpfss p s) Q F := by
  intro o s' hr
  obtain ⟨r, h1, h2⟩ := Returns.bind hr
  cases hx : r.status with
  | ok a =>
    rw [hx] at h2
    cases h2
    exact .inl ⟨_, rfl, h r h1 hx⟩
  | err c m => rw [hx] at h2; cases h2; exact .inr ⟨_, rfl, hf r _ h1 (by rw [hx]; rfl)⟩
  | throws m => rw [hx] at h2; cases h2; exact .inr ⟨_, rfl, hf r _ h1 (by rw [hx]; rfl)⟩
  | ub m => rw [hx] at h2; cases h2; exact .inr ⟨_, rfl, hf r _ h1 (by rw [hx]; rfl)⟩
  | diverge => rw [hx] at h2; cases h2; exact .inr ⟨_, rfl, hf r _ h1 (by rw [hx]; rfl)⟩

theorem Loc.runMpfssBind {p : MPFSS.State → Proc (Msg T) (MPFSS.Res T)} {f : List T → VM T β} {s : VState T} {Q' : β → VState T → Prop}
    (h : ∀ r, Returns (p s.mpfss) r → r.status = .ok () → Loc (f r.output { s with mpfss := r.st }) Q' F)
    (hf : ∀ r e, Returns (p s.mpfss) r → failure r.status = some e → F e { s with mpfss := r.st }) : Loc ((VM.runMpfss p >>= f) s) Q' F :=
  Loc.bind (Q := fun a s' => ∃ r, Returns (p s.mpfss) r ∧ r.status = .ok () ∧ a = r.output ∧ s' = { s with mpfss := r.st })
    (Loc.runMpfss (fun r h1 h2 => ⟨r, h1, h2, rfl, rfl⟩) hf) (by rintro a s' ⟨r, h1, h2, rfl, rfl⟩; exact h r h1 h2)

/-- Conjunction of two facts about the same program. -/
theorem Loc.and {p : Proc (Msg T) (Out α × VState T)} {Q1 Q2 : α → VState T → Prop} {F1 F2 : Out Unit → VState T → Prop}
    (h1 : Loc p Q1 F1) (h2 : Loc p Q2 F2) : Loc p (fun a s => Q1 a s ∧ Q2 a s) (fun e s => F1 e s ∧ F2 e s) := by
  intro o s' hr
  rcases h1 o s' hr with ⟨a, rfl, h3⟩ | ⟨e, h3, h4⟩
  · exact .inl ⟨a, rfl, h3, h2.ok hr⟩
  · exact .inr ⟨e, h3, h4, h2.fails hr h3⟩

/-! ### Lengths (C30) -/

theorem splitTail_ok {l a b : List α} {n : Int} (h : splitTail l n = .ok (a, b)) :
    0 ≤ n ∧ n ≤ l.length ∧ a = l.take (l.length - n.toNat) ∧ b = l.drop (l.length - n.toNat) := by
  unfold splitTail at h
  by_cases hn : n < 0 ∨ n > l.length
  · rw [if_pos hn] at h; cases h
  · rw [if_neg hn] at h
    cases h
    exact ⟨by omega, by omega, rfl, rfl⟩

theorem setSeg_ok {l y r : List α} {o : Nat} (h : setSeg l o y = .ok r) : o + y.length ≤ l.length ∧ r = l.take o ++ y ++ l.drop (o + y.length) := by
  unfold setSeg at h
  by_cases hn : o + y.length ≤ l.length
  · rw [if_pos hn] at h; cases h; exact ⟨hn, rfl⟩
  · rw [if_neg hn] at h; cases h

theorem setSeg_len {l y r : List α} {o : Nat} (h : setSeg l o y = .ok r) : r.length = l.length := by
  obtain ⟨h1, rfl⟩ := setSeg_ok h
  simp; omega

theorem setTail_ok {l y r : List α} {n : Int} (h : setTail l n y = .ok r) :
    0 ≤ n ∧ n ≤ l.length ∧ n = y.length ∧ r = l.take (l.length - n.toNat) ++ y := by
  unfold setTail at h
  by_cases hn : n < 0 ∨ n > l.length ∨ n ≠ y.length
  · rw [if_pos hn] at h; cases h
  · rw [if_neg hn] at h; cases h; exact ⟨by omega, by omega, by omega, rfl⟩

theorem setTail_len {l y r : List α} {n : Int} (h : setTail l n y = .ok r) : r.length = l.length := by
  obtain ⟨h1, h2, h3, rfl⟩ := setTail_ok h
  simp; omega

theorem getSender_ok {c rest res : SRes T} {n : Int} (h : getSender c n = .ok (rest, res)) :
    0 ≤ n ∧ n ≤ c.u.length ∧ n ≤ c.v.length ∧
    rest = ⟨c.u.take (c.u.length - n.toNat), c.v.take (c.v.length - n.toNat), c.ids.take (c.ids.length - n.toNat)⟩ ∧
    res = ⟨c.u.drop (c.u.length - n.toNat), c.v.drop (c.v.length - n.toNat), c.ids.drop (c.ids.length - n.toNat)⟩ := by
  unfold getSender at h
  by_cases hn : (c.u.length : Int) < n
  · rw [if_pos hn] at h; cases h
  · rw [if_neg hn] at h
    obtain ⟨⟨u0, u1⟩, e1, h⟩ := Out.bind_eq_ok.1 h
    obtain ⟨⟨v0, v1⟩, e2, h⟩ := Out.bind_eq_ok.1 h
    obtain ⟨h1, h2, rfl, rfl⟩ := splitTail_ok e1
    obtain ⟨-, h3, rfl, rfl⟩ := splitTail_ok e2
    cases h
    exact ⟨h1, h2, h3, rfl, rfl⟩

theorem getReceiver_ok {c rest res : RRes T} {n : Int} (h : getReceiver c n = .ok (rest, res)) :
    0 ≤ n ∧ n ≤ c.w.length ∧
    rest = ⟨c.w.take (c.w.length - n.toNat), c.delta, c.ids.take (c.ids.length - n.toNat)⟩ ∧
    res = ⟨c.w.drop (c.w.length - n.toNat), c.delta, c.ids.drop (c.ids.length - n.toNat)⟩ := by
  unfold getReceiver at h
  by_cases hn : (c.w.length : Int) < n
  · rw [if_pos hn] at h; cases h
  · rw [if_neg hn] at h
    obtain ⟨⟨w0, w1⟩, e1, h⟩ := Out.bind_eq_ok.1 h
    obtain ⟨h1, h2, rfl, rfl⟩ := splitTail_ok e1
    cases h
    exact ⟨h1, h2, rfl, rfl⟩

theorem vecOf_ok {r : Rand T} {n : Int} {l : List T} (h : vecOf r n = .ok l) : 0 ≤ n ∧ l = (List.range n.toNat).map r.elems := by
  unfold vecOf at h
  by_cases hn : n < 0
  · rw [if_pos hn] at h; cases h
  · rw [if_neg hn] at h; cases h; exact ⟨by omega, rfl⟩

theorem Loc.trivial (p : Proc (Msg T) (Out α × VState T)) : Loc p (fun _ _ => True) (fun _ _ => True) := by
  intro o s' _
  cases hx : failure o with
  | none => obtain ⟨a, rfl⟩ := failure_none hx; exact .inl ⟨a, rfl, True.intro⟩
  | some e => exact .inr ⟨e, rfl, True.intro⟩

set_option linter.unusedSectionVars false
variable [Scalar T]

/-- The part of a run after the (optional) precomputation. -/
def senderRest (E : Env T) (size : Int) : VM T (SRes T) := do
  let s ← VM.get
  match getSender s.sCached size with
  | .ok (rest, res) => do
    VM.modify (fun s => { s with sCached := rest })
    pure res
  | .err _ _ => do
    let ru ← VM.draw E
    let u ← VM.lift (vecOf ru size)
    let rv ← VM.draw E
    let v ← VM.lift (vecOf rv size)
    runSenderLoop E size E.fuel ⟨u, v, List.replicate size.toNat none⟩ 0
  | .throws m => VM.lift (.throws m)
  | .ub w => VM.lift (.ub w)
  | .diverge => VM.lift .diverge

/-- The part of a run after the (optional) precomputation. -/
def receiverRest (E : Env T) (size : Int) : VM T (RRes T) := do
  let s ← VM.get
  match getReceiver s.rCached size with
  | .ok (rest, res) => do
    VM.modify (fun s => { s with rCached := rest })
    pure res
  | .err _ _ => do
    let r ← VM.draw E
    let w ← VM.lift (vecOf r size)
    runReceiverLoop E size E.fuel ⟨w, s.rCached.delta, List.replicate size.toNat none⟩ 0
  | .throws m => VM.lift (.throws m)
  | .ub w => VM.lift (.ub w)
  | .diverge => VM.lift .diverge

theorem runSender_eq (E : Env T) (size : Int) (s : VState T) :
    runSender E size s = if s.sDone then senderRest E size s else (precomputeSender E size >>= fun _ => senderRest E size) s := by
  unfold runSender
  rw [VM.get_bind]
  split <;> rfl

theorem runReceiver_eq (E : Env T) (size : Int) (s : VState T) :
    runReceiver E size s = if s.rDone then receiverRest E size s else (precomputeReceiver' E size >>= fun _ => receiverRest E size) s := by
  unfold runReceiver
  rw [VM.get_bind]
  split <;> rfl

theorem getSenderCached_loc (n : Int) (s : VState T) : Loc (getSenderCached n s)
    (fun res s' => ∃ rest, getSender s.sCached n = .ok (rest, res) ∧ s' = { s with sCached := rest }) (fun e s' => s' = s ∧ failure (getSender s.sCached n) = some e) := by
  unfold getSenderCached
  rw [VM.get_bind]
  refine Loc.liftBind ?_ ?_
  · rintro ⟨rest, res⟩ e
    exact Loc.ret ⟨rest, e, rfl⟩
  · intro e he; exact ⟨rfl, he⟩

theorem getReceiverCached_loc (n : Int) (s : VState T) : Loc (getReceiverCached n s)
    (fun res s' => ∃ rest, getReceiver s.rCached n = .ok (rest, res) ∧ s' = { s with rCached := rest }) (fun e s' => s' = s ∧ failure (getReceiver s.rCached n) = some e) := by
  unfold getReceiverCached
  rw [VM.get_bind]
  refine Loc.liftBind ?_ ?_
  · rintro ⟨rest, res⟩ e
    exact Loc.ret ⟨rest, e, rfl⟩
  · intro e he; exact ⟨rfl, he⟩

theorem runSenderLoop_len (E : Env T) (n : Int) (f : Nat) : ∀ (res : SRes T) (copied : Nat) (s : VState T),
    Loc (runSenderLoop E n f res copied s) (fun r _ => r.u.length = res.u.length ∧ r.v.length = res.v.length) (fun _ _ => True) := by
  induction f with
  | zero => intro res copied s; exact Loc.fail rfl True.intro
  | succ f ih =>
    intro res copied s
    unfold runSenderLoop
    by_cases h : (copied : Int) < n
    · rw [if_pos h, VM.get_bind]
      refine Loc.bind (Q := fun (r : SRes T × Nat) _ => r.1.u.length = res.u.length ∧ r.1.v.length = res.v.length) ?_ ?_
      · by_cases h2 : (copied : Int) + s.sCached.u.length ≤ n
        · rw [if_pos h2]
          refine Loc.liftBind (fun u hu => Loc.liftBind (fun v hv => ?_) (fun _ _ => True.intro)) (fun _ _ => True.intro)
          rw [VM.modify_bind]
          exact Loc.ret ⟨setSeg_len hu, setSeg_len hv⟩
        · rw [if_neg h2]
          refine Loc.bind ((getSenderCached_loc _ s).mono (fun _ _ h => h) (fun _ _ _ => True.intro)) (fun c s' _ => ?_)
          refine Loc.liftBind (fun u hu => Loc.liftBind (fun v hv => ?_) (fun _ _ => True.intro)) (fun _ _ => True.intro)
          exact Loc.ret ⟨setTail_len hu, setTail_len hv⟩
      · rintro ⟨r, c⟩ s' ⟨h1, h2⟩
        dsimp only at h1 h2 ⊢
        have key : ∀ s, Loc (runSenderLoop E n f r c s) (fun r _ => r.u.length = res.u.length ∧ r.v.length = res.v.length) (fun _ _ => True) :=
          fun s => (ih r c s).mono (fun a _ h => ⟨h.1.trans h1, h.2.trans h2⟩) (fun _ _ h => h)
        by_cases h3 : (c : Int) < n
        · rw [if_pos h3, VM.get_bind]
          exact Loc.bind (Loc.trivial _) (fun _ s2 _ => key s2)
        · rw [if_neg h3]; exact key s'
    · rw [if_neg h]
      exact Loc.ret ⟨rfl, rfl⟩

theorem runReceiverLoop_len (E : Env T) (n : Int) (f : Nat) : ∀ (res : RRes T) (copied : Nat) (s : VState T),
    Loc (runReceiverLoop E n f res copied s) (fun r _ => r.w.length = res.w.length ∧ r.delta = res.delta) (fun _ _ => True) := by
  induction f with
  | zero => intro res copied s; exact Loc.fail rfl True.intro
  | succ f ih =>
    intro res copied s
    unfold runReceiverLoop
    by_cases h : (copied : Int) < n
    · rw [if_pos h, VM.get_bind]
      refine Loc.bind (Q := fun (r : RRes T × Nat) _ => r.1.w.length = res.w.length ∧ r.1.delta = res.delta) ?_ ?_
      · by_cases h2 : (copied : Int) + s.rCached.w.length ≤ n
        · rw [if_pos h2]
          refine Loc.liftBind (fun u hu => ?_) (fun _ _ => True.intro)
          rw [VM.modify_bind]
          exact Loc.ret ⟨setSeg_len hu, rfl⟩
        · rw [if_neg h2]
          refine Loc.bind ((getReceiverCached_loc _ s).mono (fun _ _ h => h) (fun _ _ _ => True.intro)) (fun c s' _ => ?_)
          refine Loc.liftBind (fun u hu => ?_) (fun _ _ => True.intro)
          exact Loc.ret ⟨setTail_len hu, rfl⟩
      · rintro ⟨r, c⟩ s' ⟨h1, h2⟩
        dsimp only at h1 h2 ⊢
        have key : ∀ s, Loc (runReceiverLoop E n f r c s) (fun r _ => r.w.length = res.w.length ∧ r.delta = res.delta) (fun _ _ => True) :=
          fun s => (ih r c s).mono (fun a _ h => ⟨h.1.trans h1, h.2.trans h2⟩) (fun _ _ h => h)
        by_cases h3 : (c : Int) < n
        · rw [if_pos h3, VM.get_bind]
          exact Loc.bind (Loc.trivial _) (fun _ s2 _ => key s2)
        · rw [if_neg h3]; exact key s'
    · rw [if_neg h]
      exact Loc.ret ⟨rfl, rfl⟩

/-- The three ways a run can go. -/
theorem senderRest_cases (E : Env T) (n : Int) (s : VState T) :
    (∃ rest res, getSender s.sCached n = .ok (rest, res) ∧ senderRest E n s = .ret (.ok res, { s with sCached := rest })) ∨
    ((s.sCached.u.length : Int) < n ∧ senderRest E n s = runSenderLoop E n E.fuel ⟨(List.range n.toNat).map (E.rand s.pos).elems,
      (List.range n.toNat).map (E.rand (s.pos + 1)).elems, List.replicate n.toNat none⟩ 0 { s with pos := s.pos + 1 + 1 }) ∨
    (∃ w, senderRest E n s = .ret (.ub w, s)) := by
  unfold senderRest
  rw [VM.get_bind]
  by_cases h : (s.sCached.u.length : Int) < n
  · right; left
    refine ⟨h, ?_⟩
    have e : getSender s.sCached n = .err .outOfRange "Requested cached sender elements" := by unfold getSender; rw [if_pos h]
    have e1 : ∀ r : Rand T, vecOf r n = .ok ((List.range n.toNat).map r.elems) := fun r => by unfold vecOf; rw [if_neg (by omega)]
    rw [e]
    show ((VM.draw E >>= fun ru => _) s) = _
    rw [VM.draw_bind, e1, VM.lift_ok_bind, VM.draw_bind, e1, VM.lift_ok_bind]
  · by_cases hb : 0 ≤ n ∧ n ≤ s.sCached.v.length
    · left
      have e : ∀ {α : Type} (l : List α), n ≤ l.length → splitTail l n = .ok (l.take (l.length - n.toNat), l.drop (l.length - n.toNat)) := by
        intro α l hl
        unfold splitTail
        rw [if_neg (by omega)]
      have : ∃ rest res, getSender s.sCached n = .ok (rest, res) := by
        unfold getSender
        rw [if_neg h, e _ (by omega), Out.ok_bind]
        dsimp only
        rw [e _ hb.2, Out.ok_bind]
        exact ⟨_, _, rfl⟩
      obtain ⟨rest, res, this⟩ := this
      refine ⟨rest, res, this, ?_⟩
      rw [this]
      rfl
    · right; right
      have : ∃ w, getSender s.sCached n = .ub w := by
        unfold getSender
        rw [if_neg h]
        by_cases hn : n < 0
        · exact ⟨_, by unfold splitTail; rw [if_pos (Or.inl hn)]; rfl⟩
        · refine ⟨"Eigen: tail", ?_⟩
          have e1 : splitTail s.sCached.u n = .ok (s.sCached.u.take (s.sCached.u.length - n.toNat), s.sCached.u.drop (s.sCached.u.length - n.toNat)) := by
            unfold splitTail; rw [if_neg (by omega)]
          have e2 : splitTail s.sCached.v n = .ub "Eigen: tail" := by unfold splitTail; rw [if_pos (by omega)]
          rw [e1, Out.ok_bind]
          dsimp only
          rw [e2]
          rfl
      obtain ⟨w, e⟩ := this
      exact ⟨w, by rw [e]; rfl⟩

/-- The three ways a run can go. -/
theorem receiverRest_cases (E : Env T) (n : Int) (s : VState T) :
    (∃ rest res, getReceiver s.rCached n = .ok (rest, res) ∧ receiverRest E n s = .ret (.ok res, { s with rCached := rest })) ∨
    ((s.rCached.w.length : Int) < n ∧ receiverRest E n s = runReceiverLoop E n E.fuel ⟨(List.range n.toNat).map (E.rand s.pos).elems,
      s.rCached.delta, List.replicate n.toNat none⟩ 0 { s with pos := s.pos + 1 }) ∨
    (n < 0 ∧ ∃ w, receiverRest E n s = .ret (.ub w, s)) := by
  unfold receiverRest
  rw [VM.get_bind]
  by_cases h : (s.rCached.w.length : Int) < n
  · right; left
    refine ⟨h, ?_⟩
    have e : getReceiver s.rCached n = .err .outOfRange "Requested cached receiver elements" := by unfold getReceiver; rw [if_pos h]
    have e1 : ∀ r : Rand T, vecOf r n = .ok ((List.range n.toNat).map r.elems) := fun r => by unfold vecOf; rw [if_neg (by omega)]
    rw [e]
    show ((VM.draw E >>= fun ru => _) s) = _
    rw [VM.draw_bind, e1, VM.lift_ok_bind]
  · by_cases hb : 0 ≤ n
    · left
      have : ∃ rest res, getReceiver s.rCached n = .ok (rest, res) := by
        unfold getReceiver splitTail
        rw [if_neg h, if_neg (by omega), Out.ok_bind]
        exact ⟨_, _, rfl⟩
      obtain ⟨rest, res, this⟩ := this
      refine ⟨rest, res, this, ?_⟩
      rw [this]
      rfl
    · right; right
      refine ⟨by omega, ?_⟩
      have : ∃ w, getReceiver s.rCached n = .ub w := by
        unfold getReceiver
        rw [if_neg h]
        exact ⟨_, by unfold splitTail; rw [if_pos (Or.inl (by omega))]; rfl⟩
      obtain ⟨w, e⟩ := this
      exact ⟨w, by rw [e]; rfl⟩

theorem runSender_len (E : Env T) (n : Int) (s : VState T) :
    Loc (runSender E n s) (fun r _ => (r.u.length : Int) = n ∧ (r.v.length : Int) = n) (fun _ _ => True) := by
  have key : ∀ s, Loc (senderRest E n s) (fun r _ => (r.u.length : Int) = n ∧ (r.v.length : Int) = n) (fun _ _ => True) := by
    intro s
    rcases senderRest_cases E n s with ⟨rest, res, h, e⟩ | ⟨h, e⟩ | ⟨w, e⟩
    · obtain ⟨h1, h2, h3, -, rfl⟩ := getSender_ok h
      rw [e]
      refine Loc.ret ⟨?_, ?_⟩ <;> simp <;> omega
    · rw [e]
      refine (runSenderLoop_len E n _ _ _ _).mono ?_ (fun _ _ h => h)
      rintro r s ⟨h1, h2⟩
      simp only [List.length_map, List.length_range] at h1 h2
      omega
    · rw [e]; exact Loc.fail rfl True.intro
  rw [runSender_eq]
  split
  · exact key s
  · exact Loc.bind (Loc.trivial _) (fun _ s' _ => key s')

theorem runReceiver_len (E : Env T) (n : Int) (s : VState T) :
    Loc (runReceiver E n s) (fun r _ => (r.w.length : Int) = n) (fun _ _ => True) := by
  have key : ∀ s, Loc (receiverRest E n s) (fun r _ => (r.w.length : Int) = n) (fun _ _ => True) := by
    intro s
    rcases receiverRest_cases E n s with ⟨rest, res, h, e⟩ | ⟨h, e⟩ | ⟨-, w, e⟩
    · obtain ⟨h1, h2, -, rfl⟩ := getReceiver_ok h
      rw [e]
      refine Loc.ret ?_
      simp; omega
    · rw [e]
      refine (runReceiverLoop_len E n _ _ _ _).mono ?_ (fun _ _ h => h)
      rintro r s ⟨h1, -⟩
      simp only [List.length_map, List.length_range] at h1
      omega
    · rw [e]; exact Loc.fail rfl True.intro
  rw [runReceiver_eq]
  split
  · exact key s
  · exact Loc.bind (Loc.trivial _) (fun _ s' _ => key s')

end DVO.VOLE
