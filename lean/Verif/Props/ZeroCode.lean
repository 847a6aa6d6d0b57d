/-
C59: a run that returns OK uses a code generator that was sampled. False: a precomputation that
fails after the generator was cleared leaves the object ready.
-/
import Verif.Proofs.ZeroCode3

namespace DVO.VOLE
open Net MPFSS
set_option linter.unusedSectionVars false
variable {T : Type} [Scalar T]

/-! ### What is true -/

/-- C59: an object that is always the sender, and whose explicit precomputations have all returned
    OK (runs may fail in any way, whatever the peer does): when it is ready for runs, its generator
    was sampled from a seed. Missing: failed precomputations (false, see `C59_false`). -/
theorem C59_sender_partial {E : Env T} {h : Cuckoo.Hasher} {junk : T} {l : List (Op T × Out (Answer T))} {s : VState T}
    (hl : Lives E (created h junk) l s) (hrole : ∀ x ∈ l, x.1.fwd = true) (hpre : ∀ x ∈ l, (∃ f n, x.1 = .run f n) ∨ ∃ a, x.2 = .ok a)
    (hd : s.sDone = true) : FromSeed E s.code := by
  induction hl with
  | new => cases hd
  | @call l s op o s' _ hr ih =>
    have ih' := ih (fun x hx => hrole x (List.mem_append_left _ hx)) (fun x hx => hpre x (List.mem_append_left _ hx))
    have hf : op.fwd = true := hrole (op, o) (by simp)
    rw [hf] at hr
    rcases asSender_code E op s _ _ hr with ⟨a, -, h1 | ⟨h1, h2⟩⟩ | ⟨e, he, h1⟩
    · exact h1
    · rw [h1]; exact ih' h2
    · rcases hpre (op, o) (by simp) with hp | ⟨a, hp⟩
      · rcases h1 hp with h1 | ⟨h1, h2⟩ | h1
        · exact h1
        · rw [h1]; exact ih' h2
        · rw [h1] at hd; cases hd
      · dsimp only at hp; rw [hp] at he; cases he

/-- C59: the same for an object that is always the receiver. -/
theorem C59_receiver_partial {E : Env T} {h : Cuckoo.Hasher} {junk : T} {l : List (Op T × Out (Answer T))} {s : VState T}
    (hl : Lives E (created h junk) l s) (hrole : ∀ x ∈ l, x.1.fwd = false) (hpre : ∀ x ∈ l, (∃ f n, x.1 = .run f n) ∨ ∃ a, x.2 = .ok a)
    (hd : s.rDone = true) : FromSeed E s.code := by
  induction hl with
  | new => cases hd
  | @call l s op o s' _ hr ih =>
    have ih' := ih (fun x hx => hrole x (List.mem_append_left _ hx)) (fun x hx => hpre x (List.mem_append_left _ hx))
    have hf : op.fwd = false := hrole (op, o) (by simp)
    rw [hf] at hr
    rcases asReceiver_code E op s _ _ hr with ⟨a, -, h1 | ⟨h1, h2⟩⟩ | ⟨e, he, h1⟩
    · exact h1
    · rw [h1]; exact ih' h2
    · rcases hpre (op, o) (by simp) with hp | ⟨a, hp⟩
      · rcases h1 hp with h1 | ⟨h1, h2⟩ | h1
        · exact h1
        · rw [h1]; exact ih' h2
        · rw [h1] at hd; cases hd
      · dsimp only at hp; rw [hp] at he; cases he

/-- C59: an object used in any roles, if all calls have returned OK. -/
theorem C59_ok_partial {E : Env T} {h : Cuckoo.Hasher} {junk : T} {l : List (Op T × Out (Answer T))} {s : VState T}
    (hl : Lives E (created h junk) l s) (hok : ∀ x ∈ l, ∃ a, x.2 = .ok a) (hd : s.sDone = true ∨ s.rDone = true) : FromSeed E s.code := by
  induction hl with
  | new => rcases hd with hd | hd <;> cases hd
  | @call l s op o s' _ hr ih =>
    have ih' := ih (fun x hx => hok x (List.mem_append_left _ hx))
    obtain ⟨a, rfl⟩ : ∃ a, o = .ok a := hok (op, o) (by simp)
    split at hr
    · rcases asSender_code E op s _ _ hr with ⟨a, -, h1 | ⟨h1, h2⟩⟩ | ⟨e, he, -⟩
      · exact h1
      · rw [h1]; exact ih' (.inl h2)
      · cases he
    · rcases asReceiver_code E op s _ _ hr with ⟨a, -, h1 | ⟨h1, h2⟩⟩ | ⟨e, he, -⟩
      · exact h1
      · rw [h1]; exact ih' (.inr h2)
      · cases he

/-- The hypotheses hold in the examples: eight calls in one role, and an object that precomputes in
    both roles. -/
example (f : Bool) : ∃ l s, Lives (toyEnv true 1 30000000) (created toyHasher 0) l s ∧ l.map Prod.fst = exOps f ∧ ∀ x ∈ l, ∃ a, x.2 = .ok a := by
  obtain ⟨l, s, h1, h2, h3⟩ := exLives f
  exact ⟨l, s, h3, h1, h2⟩

example : ∃ s, Lives exA (created toyHasher 0) [(.precompute true 1 0, .ok .done), (.precompute false 3000 6, .ok .done)] s ∧ s.sDone = true ∧ s.rDone = true := by
  obtain ⟨s1, r1, s2, r2, va, vb, va', vb', c1, c2, F⟩ := mixed_precompute
  have h1 := c1.returns
  have h2 := c2.returnsRight
  rcases precomputeSender_loc exA 1 _ _ _ h1 with ⟨-, -, p1⟩ | ⟨e, he, -⟩
  swap; · cases he
  rcases precomputeReceiver_loc exA 3000 6 _ _ _ h2 with ⟨-, -, p2⟩ | ⟨e, he, -⟩
  swap; · cases he
  exact ⟨s2, (Lives.new.precomputeS 0 h1).precomputeR h2, F.sDone.trans p1.sDone, p2.rDone⟩

/-! ### What an unsampled generator means -/

/-- C59: what happens in any state: if the sender is ready and its generator has no entries, a run
    that returns OK adds at most as many nonzero elements as `u` is given noise positions: all
    other elements are zero. -/
theorem C59_sparse {E : Env T} {n : Int} {s s' : VState T} {r : SRes T} (hd : s.sDone = true) (hz : ∀ col ∈ s.code.cols, col = [])
    (h : Returns (runSender E n s) (.ok r, s')) : weight r.u ≤ weight s.sCached.u + s.noise.toNat * (s'.log.length - s.log.length) := by
  rcases runSender_weight E n s hd hz _ _ h with ⟨a, e, -, h1⟩ | ⟨e, he, -⟩
  · cases e; exact h1
  · cases he

/-- The two parties of the counterexample: integers modulo a prime of 64 bits, 40 bits of
    statistical security. -/
def zA : Env (ZZp zMod) := zEnv true 1 30000000
def zB : Env (ZZp zMod) := zEnv false 2 30000000

/-- C59 is false. `Precompute(5)` succeeds. Then `Precompute(10000000)` is refused on both sides,
    since so many elements cannot be sampled with 40 bits of security. Then the parties run for
    1000000 elements: both calls return OK and the results are correlated, but the generator has no entries and at
    most 1324 of the 1000000 elements of `u` are not zero. -/
theorem C59_false : ∃ s1 r1 s2 r2 s3 r3 x y va vb wa wb xa xb,
    Computes (precomputeSender zA 5 (created toyHasher 0)) (precomputeReceiver zB 5 7 (created toyHasher 0)) (.ok (), s1) (.ok (), r1) va vb ∧
    Computes (precomputeSender zA 10000000 s1) (precomputeReceiver zB 10000000 7 r1)
      (.err .invalidArgument tooFew, s2) (.err .invalidArgument tooFew, r2) wa wb ∧
    Computes (runSender zA 1000000 s2) (runReceiver zB 1000000 r2) (.ok x, s3) (.ok y, r3) xa xb ∧
    s2.sDone = true ∧ r2.rDone = true ∧ ¬ FromSeed zA s2.code ∧ ¬ FromSeed zB r2.code ∧
    Correlated 7 x.u x.v y.w ∧ x.u.length = 1000000 ∧ weight x.u ≤ 1324 := by
  have W : Together toyHasher zA zB := z_together _ _ _ _
  have SA : SmoothTo 600000 10616092 toyHasher zA := z_smooth _ _ _ (by omega)
  have SB : SmoothTo 600000 10616092 toyHasher zB := z_smooth _ _ _ (by omega)
  obtain ⟨⟨⟩, s1, ⟨⟩, r1, va, vb, J1, -, F, -, -⟩ := (precompute_pair_to (P := fun _ => False) (fun o _ h2 => h2 ⟨SA, SB⟩) W (batch := 5) (by omega) (z_enough 5)
    (by
      intro i t v H
      obtain ⟨-, -, c3⟩ := H.bounds
      show min 5 (10616092 - 2000 - (v : Int)) + v + 2000 ≤ _
      push_cast; omega) (.inl (by omega)) (d := (7 : ZZp zMod)) (s := created toyHasher 0) (r := created toyHasher 0) (Coherent.new _) (Coherent.new _) rfl).joint
  obtain ⟨s2, r2, wa, wb, t, v, b, J2, H, D, hb, hd1, hd2, he, hc, hrdy⟩ := precompute_refused W SA SB (batch := 10000000) (by omega) (by omega) (z_enough _)
    (by
      intro i t v H o ho
      obtain ⟨-, c2, c3⟩ := H.bounds
      have ho : (o : Int) = min 10000000 (10616092 - 2000 - (v : Int)) + v + 2000 := ho
      have e : Scalar.canHash (ZZp zMod) (ROT.secPerLeaf (some (2 ^ 40)) ((10 * o : Nat) : Int)) 128 ≠ true := by
        rw [Ne, z_can]; omega
      have := Bool.eq_false_iff.2 e
      rw [Nat.cast_mul] at this
      exact this) (d := (7 : ZZp zMod)) F.cohS F.cohR F.log
  obtain ⟨i, hrow⟩ := H.readyS.row
  obtain ⟨-, c2, c3⟩ := hrow.bounds
  have ht := noise_le hrow.mem
  have hb : (b : Int) = min 10000000 (10616092 - 2000 - (v : Int)) := hb
  have P := rest_pair (P := fun _ => False) (Nat.le_refl _) (fun o _ h2 => h2 ⟨SA, SB⟩) W (n := 1000000)
    (.inr ⟨by show _ ≤ 30000000; omega, by show _ ≤ 30000000; omega⟩) H D
  obtain ⟨x, s3, y, r3, xa, xb, J3, hx⟩ := P.joint
  obtain ⟨q1, q2, -⟩ := hx
  have d1 : s2.sDone = true := hd1.trans F.doneS
  have d2 : r2.rDone = true := hd2.trans F.doneR
  have J3' : Joint (runSender zA 1000000 s2) (runReceiver zB 1000000 r2) (.ok x, s3) (.ok y, r3) xa xb := by
    rw [runSender_eq, runReceiver_eq, if_pos d1, if_pos d2]
    exact J3
  have hz : ∀ col ∈ s2.code.cols, col = [] := by rw [hc]; exact fun col h => List.eq_of_mem_replicate h
  have hne : s2.code.cols ≠ [] := by
    rw [hc, Ne, List.replicate_eq_nil_iff]; omega
  have w := C59_sparse d1 hz J3'.computes.returns
  have hlog := senderRest_count zA 1000000 b H.readyS.pos s2 hrdy H.readyS.batch _ _ J3.computes.returns
  rcases hlog with ⟨a, -, hlog, -⟩ | ⟨e, he, -⟩
  swap; · cases he
  have hk : cdiv (1000000 - s2.sCached.u.length) b = 1 := by
    rw [he]
    unfold cdiv
    rw [Nat.div_eq_iff (by omega)]
    omega
  rw [hk] at hlog
  have hcu : weight s2.sCached.u = 0 := by rw [List.length_eq_zero_iff.1 he]; simp [weight]
  rw [hlog, hcu, H.readyS.noise] at w
  refine ⟨s1, r1, s2, r2, s3, r3, x, y, va, vb, wa, wb, xa, xb, J1.computes, J2.computes, J3'.computes, d1, d2, Empty.not_sampled hz hne, ?_, q1.corr, q2, ?_⟩
  · rw [H.code]; exact Empty.not_sampled hz hne
  · simp at w
    omega

end DVO.VOLE
