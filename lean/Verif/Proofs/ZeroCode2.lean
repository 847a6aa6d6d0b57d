/-
Expansions with an empty code generator (C59).
-/
import Verif.Proofs.ZeroCode

namespace DVO.VOLE
open Net MPFSS
set_option linter.unusedSectionVars false
variable {T α β : Type} [Scalar T]

/-! ### Weights -/

theorem weight_append (a b : List T) : weight (a ++ b) = weight a + weight b := by
  classical
  unfold weight
  exact List.countP_append

theorem weight_take_le (n : Nat) (a : List T) : weight (a.take n) ≤ weight a := by
  have := weight_append (a.take n) (a.drop n)
  rw [List.take_append_drop] at this
  omega

theorem weight_split (n : Nat) (a : List T) : weight (a.take n) + weight (a.drop n) = weight a := by
  rw [← weight_append, List.take_append_drop]

theorem weight_zeros (n : Nat) : weight (List.replicate n (0 : T)) = 0 := by
  classical
  unfold weight
  rw [List.countP_eq_zero]
  intro a ha
  simp [List.eq_of_mem_replicate ha]

theorem weight_cons_le (x : T) (l : List T) : weight l ≤ weight (x :: l) ∧ weight (x :: l) ≤ weight l + 1 := by
  classical
  unfold weight
  rw [List.countP_cons]
  split <;> omega

theorem weight_set_le (l : List T) (i : Nat) (x : T) : weight (l.set i x) ≤ weight l + 1 := by
  induction l generalizing i with
  | nil => simp
  | cons a l ih =>
    cases i with
    | zero =>
      have h1 := weight_cons_le x l
      have h2 := weight_cons_le a l
      simp only [List.set_cons_zero]
      omega
    | succ i =>
      have := ih i
      classical
      unfold weight at this ⊢
      rw [List.set_cons_succ, List.countP_cons, List.countP_cons]
      omega

theorem spread_weight {o : Nat} {noise : Int} {ix : List Int} {y mu : List T} (h : spread o noise ix y = .ok mu) : weight mu ≤ noise.toNat := by
  have := loop_post (f := fun i mu => do
    let k ← rd ix i
    let yi ← rd y i
    if k < 0 then .ub "negative index" else
    wr mu k.toNat yi) (fun i (m : List T) => weight m ≤ i) ?_ noise.toNat 0 _ mu (by rw [weight_zeros]) h
  · simpa using this
  · intro i m r hm hr
    obtain ⟨k, -, hr⟩ := Out.bind_eq_ok.1 hr
    obtain ⟨yi, -, hr⟩ := Out.bind_eq_ok.1 hr
    split at hr
    · cases hr
    · unfold wr at hr
      split at hr
      · cases hr
        have := weight_set_le m k.toNat yi
        omega
      · cases hr

/-- A generator without entries. -/
def Empty (c : Sparse T) : Prop := ∀ col ∈ c.cols, col = []

theorem vecMat_empty {u r : List T} {c : Sparse T} (hz : Empty c) (h : vecMat u c = .ok r) : r = List.replicate c.cols.length 0 := by
  unfold vecMat at h
  split at h
  · cases h
  · revert hz h
    unfold Empty
    generalize c.cols = cols
    induction cols generalizing r with
    | nil => intro _ h; cases h; rfl
    | cons a l ih =>
      intro hz h
      unfold mapOut at h
      obtain ⟨b, hb, h⟩ := Out.bind_eq_ok.1 h
      obtain ⟨q, hq, h⟩ := Out.bind_eq_ok.1 h
      cases h
      rw [hz a (by simp)] at hb
      cases hb
      rw [ih (fun col hc => hz col (by simp [hc])) hq]
      rfl

theorem add_zeros {m : List T} : List.zipWith (· + ·) (List.replicate m.length (0 : T)) m = m := by
  induction m with
  | nil => rfl
  | cons a l ih => simp only [List.length_cons, List.replicate_succ, List.zipWith_cons_cons, ih, zero_add]

theorem expand_zero {vu u mu u2 : List T} {c : Sparse T} (hz : Empty c) (h : vecMat vu c = .ok u) (h2 : vecOp (· + ·) u mu = .ok u2) : u2 = mu := by
  have hl := vecOp_len h2
  rw [vecMat_empty hz h] at h2 hl
  unfold vecOp at h2
  rw [if_neg (by rw [hl.2]; simp)] at h2
  cases h2
  rw [show c.cols.length = mu.length by simpa using hl.2]
  exact add_zeros

/-- What is left in the cache after taking some of it. -/
theorem getSender_weight {c rest res : SRes T} {n : Int} (h : getSender c n = .ok (rest, res)) : weight rest.u + weight res.u = weight c.u := by
  obtain ⟨-, -, -, rfl, rfl⟩ := getSender_ok h
  exact weight_split _ _

theorem expandSender_weight (E : Env T) (o nv nm : Int) (s : VState T) (hz : Empty s.code) : Loc (expandSender E o nv nm s)
    (fun _ s' => weight s'.sCached.u ≤ weight s.sCached.u + s.noise.toNat) (fun _ _ => True) := by
  unfold expandSender
  rw [VM.get_bind]
  split
  · exact Loc.fail rfl True.intro
  split
  · exact Loc.fail rfl True.intro
  refine Loc.drawBind (fun rg p1 => Loc.liftBind (fun rng _ => ?_) (fun _ _ => True.intro))
  split
  · exact Loc.fail rfl True.intro
  refine Loc.liftBind (fun set _ => Loc.drawBind (fun ry p2 => ?_)) (fun _ _ => True.intro)
  dsimp only
  refine Loc.liftBind (fun y _ => Loc.drawBind (fun rv p3 => ?_)) (fun _ _ => True.intro)
  dsimp only
  refine Loc.liftBind (fun v0 _ => ?_) (fun _ _ => True.intro)
  refine Loc.runMpfssBind (fun r hr _ => ?_) (fun _ _ _ _ => True.intro)
  dsimp only
  refine Loc.liftBind (fun mu hmu => Loc.liftBind (fun u hu => Loc.liftBind (fun u2 hu2 => ?_) (fun _ _ => True.intro)) (fun _ _ => True.intro)) (fun _ _ => True.intro)
  refine Loc.liftBind (fun v hv => Loc.liftBind (fun v2 hv2 => ?_) (fun _ _ => True.intro)) (fun _ _ => True.intro)
  have hm := spread_weight hmu
  rw [expand_zero hz hu hu2]
  rw [VM.modify_bind]
  refine Loc.bind ((getSenderCached_loc nv _).mono (fun _ _ h => h) (fun _ _ _ => True.intro)) ?_
  rintro a s1 ⟨rest, hg, rfl⟩
  rw [VM.modify_bind]
  refine Loc.bind ((getSenderCached_loc nm _).mono (fun _ _ h => h) (fun _ _ _ => True.intro)) ?_
  rintro b s1 ⟨rest', hg', rfl⟩
  refine Loc.ret ?_
  have w1 := getSender_weight hg
  have w2 := getSender_weight hg'
  dsimp only at w1 w2 ⊢
  rw [weight_append] at w1
  omega

theorem senderStep_weight (n : Int) (res : SRes T) (copied : Nat) (s : VState T) (hl : res.u.length = n.toNat) (h : (copied : Int) < n) : Loc ((
        if (copied : Int) + s.sCached.u.length ≤ n then do
          let u ← VM.lift (setSeg res.u copied s.sCached.u)
          let v ← VM.lift (setSeg res.v copied s.sCached.v)
          VM.modify (fun s => { s with sCached := ⟨[], [], []⟩ })
          pure (⟨u, v, putIds res.ids copied s.sCached.ids⟩, copied + s.sCached.u.length)
        else do
          let remaining := n - copied
          let c ← getSenderCached remaining
          let u ← VM.lift (setTail res.u remaining c.u)
          let v ← VM.lift (setTail res.v remaining c.v)
          pure (⟨u, v, putIds res.ids copied c.ids⟩, n.toNat) : VM T (SRes T × Nat)) s)
      (fun r s1 => (∃ c, s1 = { s with sCached := c }) ∧ r.1.u.length = n.toNat ∧
        weight (r.1.u.take r.2) + weight s1.sCached.u = weight (res.u.take copied) + weight s.sCached.u) (fun _ _ => True) := by
  split
  · refine Loc.liftBind (fun u hu => Loc.liftBind (fun v _ => ?_) (fun _ _ => True.intro)) (fun _ _ => True.intro)
    rw [VM.modify_bind]
    refine Loc.ret ⟨⟨_, rfl⟩, ?_, ?_⟩
    · obtain ⟨h1, rfl⟩ := setSeg_ok hu
      simp; omega
    · dsimp only
      rw [take_seg' hu, weight_append]
      simp [weight]
  · refine Loc.bind ((getSenderCached_loc _ s).mono (fun _ _ h => h) (fun _ _ _ => True.intro)) ?_
    rintro c s' ⟨rest, hg, rfl⟩
    refine Loc.liftBind (fun u hu => Loc.liftBind (fun v _ => ?_) (fun _ _ => True.intro)) (fun _ _ => True.intro)
    refine Loc.ret ⟨⟨_, rfl⟩, ?_, ?_⟩
    · obtain ⟨h1, h2, h3, rfl⟩ := setTail_ok hu
      simp; omega
    · have w := getSender_weight hg
      dsimp only
      rw [take_tail hu hl h, weight_append]
      omega

theorem runSenderLoop_weight (E : Env T) (n : Int) (f : Nat) : ∀ (res : SRes T) (copied : Nat) (s : VState T), Empty s.code → res.u.length = n.toNat →
    Loc (runSenderLoop E n f res copied s) (fun r s' => s.log.length ≤ s'.log.length ∧
      weight r.u ≤ weight (res.u.take copied) + weight s.sCached.u + s.noise.toNat * (s'.log.length - s.log.length)) (fun _ _ => True) := by
  induction f with
  | zero => intro res copied s _ _; exact Loc.fail rfl True.intro
  | succ f ih =>
    intro res copied s hz hl
    unfold runSenderLoop
    by_cases h : (copied : Int) < n
    · rw [if_pos h, VM.get_bind]
      refine Loc.bind (senderStep_weight n res copied s hl h) ?_
      rintro ⟨r, k⟩ s1 ⟨⟨c, rfl⟩, h1, h2⟩
      dsimp only at h1 h2 ⊢
      by_cases h3 : (k : Int) < n
      · rw [if_pos h3, VM.get_bind]
        refine Loc.bind ((Loc.and (expandSender_loc E _ _ _ _) (expandSender_weight E _ _ _ { s with sCached := c } hz)).mono (fun _ _ h => h) (fun _ _ _ => True.intro)) ?_
        rintro - s2 ⟨hx, hw⟩
        refine (ih r k s2 (by rw [hx.code]; exact hz) h1).mono ?_ (fun _ _ h => h)
        rintro a s3 ⟨h6, h7⟩
        have e1 : s2.log.length = s.log.length + 1 := by rw [hx.log]; simp
        have e2 : s2.noise = s.noise := hx.noise
        dsimp only at hw
        rw [e2] at h7
        refine ⟨by omega, ?_⟩
        rw [show s3.log.length - s.log.length = (s3.log.length - s2.log.length) + 1 by omega, Nat.mul_succ]
        omega
      · rw [if_neg h3]
        refine (ih r k { s with sCached := c } hz h1).mono ?_ (fun _ _ h => h)
        rintro a s3 ⟨h6, h7⟩
        dsimp only at h6 h7
        exact ⟨h6, by omega⟩
    · rw [if_neg h]
      refine Loc.ret ⟨Nat.le_refl _, ?_⟩
      rw [List.take_of_length_le (by omega)]
      omega

theorem senderRest_weight (E : Env T) (n : Int) (s : VState T) (hz : Empty s.code) : Loc (senderRest E n s)
    (fun r s' => s.log.length ≤ s'.log.length ∧ weight r.u ≤ weight s.sCached.u + s.noise.toNat * (s'.log.length - s.log.length)) (fun _ _ => True) := by
  rcases senderRest_cases E n s with ⟨rest, res, hg, e⟩ | ⟨hg, e⟩ | ⟨w, e⟩
  · rw [e]
    have := getSender_weight hg
    exact Loc.ret ⟨Nat.le_refl _, by omega⟩
  · rw [e]
    refine (runSenderLoop_weight E n _ _ 0 { s with pos := s.pos + 1 + 1 } hz (by simp)).mono ?_ (fun _ _ h => h)
    rintro r s' ⟨h1, h2⟩
    refine ⟨h1, ?_⟩
    simpa [weight] using h2
  · rw [e]; exact Loc.fail rfl True.intro

theorem runSender_weight (E : Env T) (n : Int) (s : VState T) (hd : s.sDone = true) (hz : Empty s.code) : Loc (runSender E n s)
    (fun r s' => s.log.length ≤ s'.log.length ∧ weight r.u ≤ weight s.sCached.u + s.noise.toNat * (s'.log.length - s.log.length)) (fun _ _ => True) := by
  rw [runSender_eq, if_pos hd]
  exact senderRest_weight E n s hz

/-! ### A sampled generator has no empty column -/

theorem setEntry_ne (col : List (Nat × T)) (row : Nat) (x : T) : setEntry col row x ≠ [] := by
  unfold setEntry
  split
  · rename_i h
    intro e
    rw [List.map_eq_nil_iff] at e
    rw [e] at h
    cases h
  · simp

theorem sampleCol_ne {lib : Lib} {aes : Cipher} {rows : Int} {elems : List T} {col : Nat} {g : RNG.Gen} {r : List (Nat × T) × RNG.Gen}
    (h : sampleCol lib aes rows elems col g = .ok r) : r.1 ≠ [] := by
  unfold sampleCol at h
  refine loop_post (fun i (s : List (Nat × T) × RNG.Gen) => 1 ≤ i → s.1 ≠ []) ?_ _ _ _ _ (by omega) h (by decide)
  intro i s r _ hr _
  obtain ⟨k, -, hr⟩ := Out.bind_eq_ok.1 hr
  dsimp only at hr
  split at hr
  · cases hr
  · obtain ⟨x, -, hr⟩ := Out.bind_eq_ok.1 hr
    cases hr
    exact setEntry_ne _ _ _

theorem sampleCode_ne {lib : Lib} {aes : Cipher} {rows : Int} {cols : Nat} {g : RNG.Gen} {c : Sparse T}
    (h : sampleCode lib aes rows cols g = .ok c) : ∀ col ∈ c.cols, col ≠ [] := by
  unfold sampleCode at h
  obtain ⟨⟨e, g⟩, -, h⟩ := Out.bind_eq_ok.1 h
  dsimp only at h
  split at h
  · cases h
  obtain ⟨⟨cs, g'⟩, hl, h⟩ := Out.bind_eq_ok.1 h
  cases h
  refine loop_post (fun i (s : List (List (Nat × T)) × RNG.Gen) => ∀ col ∈ s.1, col ≠ []) ?_ _ _ _ _ (by simp) hl
  intro i s r hs hr
  obtain ⟨k, hk, hr⟩ := Out.bind_eq_ok.1 hr
  cases hr
  intro col hc
  rcases List.mem_append.1 hc with hc | hc
  · exact hs col hc
  · rw [List.mem_singleton.1 hc]
    exact sampleCol_ne hk

/-- An empty generator was not sampled. -/
theorem Empty.not_sampled {E : Env T} {c : Sparse T} (h : Empty c) (hn : c.cols ≠ []) : ¬ FromSeed E c := by
  rintro ⟨_, _, g, rows, cols, -, hc⟩
  obtain ⟨a, ha⟩ := List.exists_mem_of_ne_nil _ hn
  exact sampleCode_ne hc a ha (h a ha)

end DVO.VOLE
