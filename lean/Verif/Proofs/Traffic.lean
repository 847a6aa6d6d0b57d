/-
How much the two-party programs send: compositional reasoning, and the protocols below the vector OLE.
-/
import Verif.Spec.Traffic
import Verif.Proofs.Local5
import Verif.Proofs.MPFSS3

namespace DVO
open Net
variable {T α β : Type}

/-- `p` can return `a` having spent `n`. -/
inductive Runs (P : Price) : Proc (Msg T) α → α → Nat → Prop
  | ret (a) : Runs P (.ret a) a 0
  | send (ch m k a n) : Runs P k a n → Runs P (.send ch m k) a (P.msg m + n)
  | recv (ch k m a n) : Runs P (k m) a n → Runs P (.recv ch k) a n
  | otSend (ch kd ms k a n) : Runs P k a n → Runs P (.otSend ch kd ms k) a (P.ot * ms.length + n)
  | otRecv (ch kd cs k r a n) : Runs P (k r) a n → Runs P (.otRecv ch kd cs k) a (P.ot * cs.length + n)

theorem Runs.returns {P : Price} {p : Proc (Msg T) α} {a : α} {n : Nat} (h : Runs P p a n) : Returns p a := by
  induction h with
  | ret a => exact .ret a
  | send _ _ _ _ _ _ ih => exact .send _ _ _ _ ih
  | recv _ _ _ _ _ _ ih => exact .recv _ _ _ _ ih
  | otSend _ _ _ _ _ _ _ ih => exact .otSend _ _ _ _ _ ih
  | otRecv _ _ _ _ _ _ _ _ ih => exact .otRecv _ _ _ _ _ _ ih

theorem Runs.some (P : Price) (p : Proc (Msg T) α) : ∃ a n, Runs P p a n := by
  induction p with
  | ret a => exact ⟨a, 0, .ret a⟩
  | send _ _ _ ih => obtain ⟨a, n, h⟩ := ih; exact ⟨a, _, .send _ _ _ _ _ h⟩
  | recv _ _ ih => obtain ⟨a, n, h⟩ := ih .token; exact ⟨a, _, .recv _ _ _ _ _ h⟩
  | otSend _ _ _ _ ih => obtain ⟨a, n, h⟩ := ih; exact ⟨a, _, .otSend _ _ _ _ _ _ h⟩
  | otRecv _ _ _ _ ih => obtain ⟨a, n, h⟩ := ih []; exact ⟨a, _, .otRecv _ _ _ _ _ _ _ h⟩

theorem Runs.bind {P : Price} {p : Proc (Msg T) α} {f : α → Proc (Msg T) β} {b : β} {n : Nat} (h : Runs P (p.bind f) b n) :
    ∃ a n1 n2, Runs P p a n1 ∧ Runs P (f a) b n2 ∧ n = n1 + n2 := by
  induction p generalizing n with
  | ret a => exact ⟨a, 0, n, .ret a, h, by omega⟩
  | send ch m k ih =>
    cases h with
    | send _ _ _ _ n h => obtain ⟨a, n1, n2, h1, h2, e⟩ := ih h; exact ⟨a, _, n2, .send _ _ _ _ _ h1, h2, by omega⟩
  | recv ch k ih =>
    cases h with
    | recv _ _ m _ _ h => obtain ⟨a, n1, n2, h1, h2, e⟩ := ih m h; exact ⟨a, _, n2, .recv _ _ m _ _ h1, h2, by omega⟩
  | otSend ch kd ms k ih =>
    cases h with
    | otSend _ _ _ _ _ _ h => obtain ⟨a, n1, n2, h1, h2, e⟩ := ih h; exact ⟨a, _, n2, .otSend _ _ _ _ _ _ h1, h2, by omega⟩
  | otRecv ch kd cs k ih =>
    cases h with
    | otRecv _ _ _ _ r _ _ h => obtain ⟨a, n1, n2, h1, h2, e⟩ := ih r h; exact ⟨a, _, n2, .otRecv _ _ _ _ r _ _ h1, h2, by omega⟩

theorem Price.spent_append (P : Price) (v w : List (Event (Msg T))) : P.spent (v ++ w) = P.spent v + P.spent w := by
  simp [Price.spent]

theorem steps_runs {P : Price} {k : Nat} {s s' : Net (Msg T) α β} (h : Steps k s s') :
    ∃ v, s'.pv = s.pv ++ v ∧ ∀ a n, Runs P s'.p a n → Runs P s.p a (P.spent v + n) := by
  induction h with
  | zero s => exact ⟨[], by simp, fun a n h => by simpa [Price.spent] using h⟩
  | succ h1 _ ih =>
    obtain ⟨v, e, h2⟩ := ih
    have ev : ∀ (x : Event (Msg T)), P.spent (x :: v) = P.event x + P.spent v := by intro x; simp [Price.spent]
    cases h1 with
    | pSend ch m k q pq qp pv qv =>
      refine ⟨.sent ch m :: v, by simpa using e, fun a n h => ?_⟩
      rw [ev, Nat.add_assoc]
      exact .send _ _ _ _ _ (h2 a n h)
    | qSend => exact ⟨v, e, h2⟩
    | pRecv ch m ms k q pq qp pv qv h =>
      refine ⟨.rcvd ch m :: v, by simpa using e, fun a n h => ?_⟩
      rw [ev, Nat.add_assoc, show P.event (.rcvd ch m : Event (Msg T)) = 0 from rfl, Nat.zero_add]
      exact .recv _ _ _ _ _ (h2 a n h)
    | qRecv => exact ⟨v, e, h2⟩
    | otPQ ch kd ms cs kp kq pq qp pv qv =>
      refine ⟨.otSent ch ms :: v, by simpa using e, fun a n h => ?_⟩
      rw [ev, Nat.add_assoc]
      exact .otSend _ _ _ _ _ _ (h2 a n h)
    | otQP ch kd ms cs kp kq pq qp pv qv =>
      refine ⟨.otRcvd ch cs (otResult ms cs) :: v, by simpa using e, fun a n h => ?_⟩
      rw [ev, Nat.add_assoc]
      exact .otRecv _ _ _ _ _ _ _ (h2 a n h)

/-- Every complete run of the program alone costs at most `N`, and exactly `N` if its result is good. -/
def Fee (P : Price) (good : α → Prop) (p : Proc (Msg T) α) (N : Nat) : Prop :=
  ∀ a n, Runs P p a n → n ≤ N ∧ (good a → n = N)

theorem Fee.costs {P : Price} {good : α → Prop} {p : Proc (Msg T) α} {N : Nat} (h : Fee P good p N) : Costs P good p N := by
  intro β q k s hs
  obtain ⟨v, e, h1⟩ := steps_runs (P := P) hs
  rw [e]
  simp only [init, List.nil_append] at h1 ⊢
  constructor
  · obtain ⟨a, n, h2⟩ := Runs.some P s.p
    have := (h a _ (h1 a n h2)).1
    omega
  · intro a ha hg
    have h2 := h1 a 0 (by rw [ha]; exact .ret a)
    simpa using (h a _ h2).2 hg

variable {P : Price}

theorem Fee.ret {good : α → Prop} {a : α} : Fee P good (.ret a : Proc (Msg T) α) 0 := by
  intro b n h; cases h; exact ⟨le_refl _, fun _ => rfl⟩

/-- A program that gives up has paid nothing. -/
theorem Fee.bad {good : α → Prop} {a : α} {N : Nat} (h : ¬ good a) : Fee P good (.ret a : Proc (Msg T) α) N := by
  intro b n h'; cases h'; exact ⟨Nat.zero_le _, fun hg => absurd hg h⟩

theorem Fee.bind' {good : α → Prop} {good' : β → Prop} {p : Proc (Msg T) α} {f : α → Proc (Msg T) β} {N M : Nat} (h : Fee P good p N)
    (h1 : ∀ a, Returns p a → good a → Fee P good' (f a) M) (h2 : ∀ a, ¬ good a → Fee P good' (f a) 0 ∧ ∀ b n, Runs P (f a) b n → ¬ good' b) :
    Fee P good' (p.bind f) (N + M) := by
  intro b n hr
  obtain ⟨a, n1, n2, r1, r2, rfl⟩ := hr.bind
  by_cases hg : good a
  · have := h a n1 r1
    have h3 := h1 a r1.returns hg b n2 r2
    have h4 := this.2 hg
    exact ⟨by omega, fun hb => by have := h3.2 hb; omega⟩
  · have := (h a n1 r1).1
    have h3 := ((h2 a hg).1 b n2 r2).1
    exact ⟨by omega, fun hb => absurd hb ((h2 a hg).2 b n2 r2)⟩

/-- The same for programs with outcomes: the full price is paid exactly if the program succeeds. -/
abbrev PFee (P : Price) (p : PM (Msg T) α) (N : Nat) : Prop := Fee P Out.IsOk (show Proc (Msg T) (Out α) from p) N

theorem not_ok {o : Out α} (h : ∀ a, o ≠ .ok a) : ¬ o.IsOk := fun ⟨a, e⟩ => h a e

theorem Fee.bind {p : PM (Msg T) α} {f : α → PM (Msg T) β} {N M : Nat} (h : PFee P p N)
    (h1 : ∀ a, Returns (α := Out α) p (.ok a) → PFee P (f a) M) : PFee P (p >>= f) (N + M) := by
  refine Fee.bind' (M := M) (good := Out.IsOk) h ?_ ?_
  · rintro _ hr ⟨a, rfl⟩
    exact h1 a hr
  · intro o ho
    cases o with
    | ok a => exact absurd ⟨a, rfl⟩ ho
    | _ => exact ⟨Fee.ret, by intro b n hr; cases hr; exact not_ok (by intro a e; cases e)⟩

theorem Fee.lift {x : Out α} : PFee P (PM.lift x : PM (Msg T) α) 0 := Fee.ret

theorem Fee.liftBind {x : Out α} {f : α → PM (Msg T) β} {M : Nat}
    (h1 : ∀ a, x = .ok a → PFee P (f a) M) : PFee P (PM.lift x >>= f) M := by
  have := Fee.bind (P := P) (p := (PM.lift x : PM (Msg T) α)) (f := f) Fee.lift (fun a ha => h1 a (by
    generalize hy : (Out.ok a : Out α) = y at ha
    cases ha; exact hy.symm ▸ rfl))
  rwa [Nat.zero_add] at this

theorem Fee.fail {x : Out α} {N : Nat} (h : ∀ a, x ≠ .ok a) : PFee P (PM.lift x : PM (Msg T) α) N := Fee.bad (not_ok h)

theorem Fee.send {good : α → Prop} {ch : Nat} {m : Msg T} {p : Proc (Msg T) α} {N M : Nat} (hm : P.msg m = M) (h : Fee P good p N) :
    Fee P good (.send ch m p) (M + N) := by
  intro b n hr
  cases hr with
  | send _ _ _ _ n hr => have := h b n hr; exact ⟨by omega, fun hg => by have := this.2 hg; omega⟩

theorem Fee.recv {good : α → Prop} {ch : Nat} {f : Msg T → Proc (Msg T) α} {N : Nat} (h : ∀ m, Fee P good (f m) N) :
    Fee P good (.recv ch f) N := by
  intro b n hr
  cases hr with
  | recv _ _ m _ n hr => exact h m b n hr

theorem Fee.otSend {good : α → Prop} {ch kd} {ms : List (Block × Block)} {p : Proc (Msg T) α} {N : Nat} (h : Fee P good p N) :
    Fee P good (.otSend ch kd ms p) (P.ot * ms.length + N) := by
  intro b n hr
  cases hr with
  | otSend _ _ _ _ _ n hr => have := h b n hr; exact ⟨by omega, fun hg => by have := this.2 hg; omega⟩

theorem Fee.otRecv {good : α → Prop} {ch kd} {cs : List Bool} {f : List Block → Proc (Msg T) α} {N : Nat} (h : ∀ r, Fee P good (f r) N) :
    Fee P good (.otRecv ch kd cs f) (P.ot * cs.length + N) := by
  intro b n hr
  cases hr with
  | otRecv _ _ _ _ r _ n hr => have := h r b n hr; exact ⟨by omega, fun hg => by have := this.2 hg; omega⟩

/-! ### Trees and oblivious transfer -/

theorem wr_len {l r : List α} {i : Nat} {a : α} (h : wr l i a = .ok r) : r.length = l.length := by
  unfold wr at h
  split at h
  · cases h; simp
  · cases h

theorem wr2_len {l r : List (List α)} {i j : Nat} {a : α} (h : wr2 l i j a = .ok r) : r.length = l.length := by
  unfold wr2 at h
  obtain ⟨x, -, h⟩ := Out.bind_eq_ok.1 h
  obtain ⟨y, -, h⟩ := Out.bind_eq_ok.1 h
  exact wr_len h

namespace GGM

theorem allocSizes_len (a : Nat) : ∀ k n acc, (allocSizes a k n acc).length = k + acc.length := by
  intro k
  induction k with
  | zero => intro n acc; simp [allocSizes]
  | succ k ih => intro n acc; rw [allocSizes, ih]; simp; omega

theorem allocateLevels_len {fl a n r} (h : allocateLevels fl a n = .ok r) : r.length = 1 + fl n a := by
  unfold allocateLevels at h
  have hl : ((allocSizes a (1 + fl n a) n []).map (fun n => List.replicate n (0 : Block))).length = 1 + fl n a := by
    rw [List.length_map, allocSizes_len]; simp
  dsimp only at h
  generalize ((allocSizes a (1 + fl n a) n []).map (fun n => List.replicate n (0 : Block))) = L at h hl
  cases L with
  | nil => cases h
  | cons l0 L =>
    dsimp only at h
    split at h
    · cases h
    · cases h; exact hl

theorem expandSubtree_len {aes a k l s n r} (h : expandSubtree aes a k l s n = .ok r) : r.length = l.length := by
  unfold expandSubtree at h
  obtain ⟨st, h1, e⟩ := Out.bind_eq_ok.1 h
  clear h
  cases e
  refine VOLE.loop_post (fun _ (st : List (List Block) × Nat × Nat) => st.1.length = l.length) ?_ _ _ _ _ rfl h1
  rintro i ⟨L, x, y⟩ r hi e
  obtain ⟨cur, -, e⟩ := Out.bind_eq_ok.1 e
  obtain ⟨L', h1, e⟩ := Out.bind_eq_ok.1 e
  cases e
  refine VOLE.loop_post (fun _ (L' : List (List Block)) => L'.length = l.length) ?_ _ _ _ _ hi h1
  intro i L1 L2 hL e
  obtain ⟨next, -, e⟩ := Out.bind_eq_ok.1 e
  refine VOLE.loop_post (fun _ (L' : List (List Block)) => L'.length = l.length) ?_ _ _ _ _ hL e
  intro i L1 L2 hL e
  obtain ⟨p, -, e⟩ := Out.bind_eq_ok.1 e
  obtain ⟨key, -, e⟩ := Out.bind_eq_ok.1 e
  exact (wr2_len e).trans hL

theorem create_len {aes fl} {n : Nat} {seed keys} {t : Tree} (hk : keys.length = 2) (h : create aes fl (n : Int) seed keys = .ok t) : t.levels.length = 1 + fl n 2 := by
  unfold create at h
  rw [hk] at h
  dsimp only at h
  rw [if_neg (by omega)] at h
  split at h
  · cases h
  obtain ⟨L, h1, h⟩ := Out.bind_eq_ok.1 h
  obtain ⟨L2, h2, h⟩ := Out.bind_eq_ok.1 h
  obtain ⟨L3, h3, h⟩ := Out.bind_eq_ok.1 h
  cases h
  rw [Int.toNat_natCast] at h1
  exact (expandSubtree_len h3).trans ((wr2_len h2).trans (allocateLevels_len h1))

end GGM

namespace ROT
open GGM

theorem collectOT_len {fl : Nat → Nat → Nat} : ∀ (ns : List Nat) (l : List (Option (Out Tree))) (trees : List (Option Tree)) (ms : List (Block × Block)),
    l.length = ns.length → (∀ (i n : Nat) (x : Option (Out Tree)), ns[i]? = some n → l[i]? = some x → (n = 0 → x = none) ∧ (n ≠ 0 → ∃ st, x = some st ∧ ∀ t, st = .ok t → t.numLevels = 1 + fl n 2)) →
    collectOT l = .ok (trees, ms) → ms.length = (ns.map (treeOTs fl)).sum := by
  intro ns
  induction ns with
  | nil =>
    intro l trees ms hl _ h
    rw [List.length_nil, List.length_eq_zero_iff] at hl
    subst hl
    rw [collectOT] at h
    cases h; rfl
  | cons n ns ih =>
    intro l trees ms hl hx h
    cases l with
    | nil => simp at hl
    | cons x l =>
      have htl := fun i n' x' (h1 : ns[i]? = some n') (h2 : l[i]? = some x') => hx (i + 1) n' x' (by simpa using h1) (by simpa using h2)
      have hhd := hx 0 n x (by simp) (by simp)
      simp only [List.length_cons, Nat.add_right_cancel_iff] at hl
      rw [List.map_cons, List.sum_cons]
      by_cases hn : n = 0
      · rw [hhd.1 hn, collectOT] at h
        obtain ⟨⟨tr, ms'⟩, h1, h⟩ := Out.bind_eq_ok.1 h
        cases h
        rw [treeOTs, if_pos hn, Nat.zero_add]
        exact ih l tr _ hl htl h1
      · obtain ⟨st, rfl, hst⟩ := hhd.2 hn
        rw [collectOT] at h
        obtain ⟨t, ht, h⟩ := Out.bind_eq_ok.1 h
        obtain ⟨xors, -, h⟩ := Out.bind_eq_ok.1 h
        obtain ⟨ms1, hms, h⟩ := Out.bind_eq_ok.1 h
        obtain ⟨⟨tr, ms2⟩, h1, h⟩ := Out.bind_eq_ok.1 h
        cases h
        have e1 := VOLE.loop_post (fun i (ms : List (Block × Block)) => ms.length = i) (by
          intro i s r hs e
          obtain ⟨x0, -, e⟩ := Out.bind_eq_ok.1 e
          obtain ⟨x1, -, e⟩ := Out.bind_eq_ok.1 e
          cases e
          simpa using hs) _ 0 [] _ rfl hms
        rw [List.length_append, ih l tr ms2 hl htl h1, e1, treeOTs, if_neg hn, hst t ht]
        omega

theorem choiceBits_len {k : Nat} {i : Int} {r : List Bool} (h : choiceBits k i = .ok r) : r.length = k := by
  unfold choiceBits at h
  refine VOLE.loop_post (fun _ (cs : List Bool) => cs.length = k) ?_ _ _ _ _ (by simp) h
  intro j s r hs e
  split at e
  · cases e
  · exact (wr_len e).trans hs

theorem allChoices_len {fl : Nat → Nat → Nat} : ∀ (ns : List Nat) (is : List Int) (off : Nat) (cs : List Bool) (offs : List Nat),
    allChoices fl ns is off = .ok (cs, offs) → cs.length = (ns.map (treeOTs fl)).sum := by
  intro ns
  induction ns with
  | nil => intro is off cs offs h; rw [allChoices] at h; cases h; rfl
  | cons n ns ih =>
    intro is off cs offs h
    cases is with
    | nil => rw [allChoices] at h; cases h
    | cons i is =>
      rw [allChoices] at h
      rw [List.map_cons, List.sum_cons, treeOTs]
      split at h
      · next hn =>
        obtain ⟨⟨cs', o'⟩, h1, h⟩ := Out.bind_eq_ok.1 h
        cases h
        rw [if_pos hn, Nat.zero_add]
        exact ih _ _ _ _ h1
      · next hn =>
        obtain ⟨c0, h0, h⟩ := Out.bind_eq_ok.1 h
        obtain ⟨⟨cs', o'⟩, h1, h⟩ := Out.bind_eq_ok.1 h
        cases h
        rw [if_neg hn, List.length_append, choiceBits_len h0, ih _ _ _ _ h1]

variable [Scalar T]

theorem sendTrees_fee (aes fl c sec key seed) (ns : List Nat) :
    PFee P (sendTrees T aes fl c sec key seed ns) (P.ot * (ns.map (treeOTs fl)).sum + P.block * 2) := by
  unfold sendTrees
  split
  · exact Fee.fail (by intro a h; cases h)
  dsimp only
  refine Fee.liftBind ?_
  rintro ⟨trees, ms⟩ hms
  have hl := collectOT_len (fl := fl) ns _ trees ms (by simp [createTrees]) (by
    intro i n x h1 h2
    simp only [createTrees, List.getElem?_mapIdx, h1, Option.map_some, Option.some.injEq] at h2
    subst h2
    refine ⟨fun h => if_pos h, fun h => ⟨_, if_neg h, fun t ht => create_len (by simp) ht⟩⟩) hms
  have hk : PFee P (PM.send c.rot (.blocks ((List.range 2).map key)) >>= fun _ => (pure trees : PM (Msg T) _)) (P.block * 2) := by
    rw [PM.send_bind]
    exact Fee.send (M := P.block * 2) (N := 0) (by simp [Price.msg]) Fee.ret
  dsimp only
  rw [← hl]
  split
  · rw [PM.otSend_bind]
    exact Fee.otSend hk
  · next h0 =>
    rw [show ms.length = 0 by omega, Nat.mul_zero, Nat.zero_add]
    exact hk

omit [Scalar T] in
theorem receiveTrees_fee (aes fl c) (ns : List Nat) (is : List Int) :
    PFee P (receiveTrees T aes fl c ns is) (P.ot * (ns.map (treeOTs fl)).sum) := by
  unfold receiveTrees
  split
  · exact Fee.fail (by intro a h; cases h)
  refine Fee.liftBind ?_
  rintro ⟨cs, offs⟩ hcs
  have hl := allChoices_len _ _ _ _ _ hcs
  have hk : ∀ ot, PFee P (do
      let m ← PM.recv c.rot
      let keys ← PM.lift (PM.unBlocks m)
      let (trees, status) ← PM.lift (buildTrees aes fl keys cs ot offs ns is)
      match status with
      | none => (pure trees : PM (Msg T) _)
      | some (cd, ms) => PM.lift (.err cd ms)) 0 := by
    intro ot
    rw [PM.recv_bind]
    refine Fee.recv (fun m => Fee.liftBind (fun keys _ => Fee.liftBind ?_))
    rintro ⟨trees, status⟩ -
    dsimp only
    split
    · exact Fee.ret
    · exact Fee.lift
  dsimp only
  rw [← hl]
  split
  · rw [PM.otRecv_bind]
    exact Fee.otRecv (N := 0) hk
  · next h0 =>
    rw [show cs.length = 0 by omega, Nat.mul_zero]
    exact hk []

theorem runSenderBatched_fee (aes fl c sec key seed) (outputs : List (List T)) :
    PFee P (runSenderBatched aes fl c sec key seed outputs) (P.ot * (outputs.map (fun o => treeOTs fl o.length)).sum + P.block * 2) := by
  unfold runSenderBatched
  have := sendTrees_fee (P := P) (T := T) aes fl c sec key seed (outputs.map List.length)
  rw [List.map_map] at this
  exact Fee.bind (M := 0) this (fun _ _ => Fee.lift)

theorem runReceiverBatched_fee (aes fl c is) (outputs : List (List T)) :
    PFee P (runReceiverBatched aes fl c is outputs) (P.ot * (outputs.map (fun o => treeOTs fl o.length)).sum) := by
  unfold runReceiverBatched
  split
  · exact Fee.fail (by intro a h; cases h)
  split
  · exact Fee.fail (by intro a h; cases h)
  have := receiveTrees_fee (P := P) (T := T) aes fl c (outputs.map List.length) is
  rw [List.map_map] at this
  exact Fee.bind (M := 0) this (fun _ _ => Fee.lift)

end ROT

/-! ### Single-point FSS -/

namespace SPFSS
variable [Scalar T]

theorem sumNegateAll_len {a b : List T} {o o' : List (List T)} (h : sumNegateAll a o = .ok (b, o')) : b.length = a.length := by
  unfold sumNegateAll at h
  refine VOLE.loop_post (fun _ (st : List T × List (List T)) => st.1.length = a.length) ?_ _ _ _ _ rfl h
  intro i s r hs e
  obtain ⟨x, -, e⟩ := Out.bind_eq_ok.1 e
  obtain ⟨y, -, e⟩ := Out.bind_eq_ok.1 e
  obtain ⟨⟨z, z'⟩, -, e⟩ := Out.bind_eq_ok.1 e
  obtain ⟨w, hw, e⟩ := Out.bind_eq_ok.1 e
  obtain ⟨w', -, e⟩ := Out.bind_eq_ok.1 e
  cases e
  exact (wr_len hw).trans hs

theorem runValueProviderBatched_fee (aes fl c sec key seed) (shares : List T) (outputs : List (List T)) :
    PFee P (runValueProviderBatched aes fl c sec key seed shares outputs)
      (P.ot * (outputs.map (fun o => treeOTs fl o.length)).sum + P.block * 2 + P.elem * outputs.length) := by
  unfold runValueProviderBatched
  split
  · exact Fee.fail (by intro a h; cases h)
  next hl =>
  refine Fee.bind (ROT.runSenderBatched_fee aes fl c sec key seed outputs) (fun o _ => Fee.liftBind ?_)
  rintro ⟨sums, o'⟩ hs
  dsimp only
  rw [PM.send_bind]
  refine Fee.send (M := P.elem * outputs.length) (N := 0) ?_ Fee.ret
  have := sumNegateAll_len hs
  simp only [Price.msg]
  rw [this]
  congr 1
  omega

theorem runIndexProviderBatched_fee (aes fl c) (shares : List T) (is) (outputs : List (List T)) :
    PFee P (runIndexProviderBatched aes fl c shares is outputs) (P.ot * (outputs.map (fun o => treeOTs fl o.length)).sum) := by
  unfold runIndexProviderBatched
  split
  · exact Fee.fail (by intro a h; cases h)
  refine Fee.bind (M := 0) (ROT.runReceiverBatched_fee aes fl c is outputs) (fun o _ => Fee.liftBind (fun s _ => ?_))
  rw [PM.recv_bind]
  exact Fee.recv (fun m => Fee.liftBind (fun _ _ => Fee.lift))

end SPFSS
end DVO
