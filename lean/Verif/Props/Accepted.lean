/-
C65: what an accepted statistical security leads to.
-/
import Verif.Props.Create
import Verif.Props.MPFSS
import Verif.Proofs.MPFSS3
import Verif.Proofs.VOLE4

set_option linter.unusedSectionVars false

namespace DVO.Create
open Net Cuckoo MPFSS
variable {T : Type} [Scalar T]

/-- The values of an `int64_t`. -/
def IsInt64 (x : Int) : Prop := -2 ^ 63 ≤ x ∧ x < 2 ^ 63

/-- The call ends in undefined behaviour before it communicates. -/
def Undefined {M α : Type} (status : α → Out Unit) (p : Proc M α) : Prop := ∃ r w, p = .ret r ∧ status r = .ub w

theorem getOptimal_ub {h : Hasher} (hh : h.numHash = 3) {t : Nat} (h0 : 0 < t) (hbad : ¬ IsInt64 (h.optimal t)) :
    ∃ w, getOptimalNumberOfBuckets h t = .ub w := by
  unfold getOptimalNumberOfBuckets
  rw [if_neg (by omega), if_neg (by omega), if_pos (.inl hh), Int.toNat_natCast]
  exact ⟨_, if_neg hbad⟩

theorem update_ub {h : Hasher} (hh : h.numHash = 3) {t : Nat} (h0 : 0 < t) (hbad : ¬ IsInt64 (h.optimal t)) (thr : Nat → List Nat) (m : Nat) :
    ∃ w, MPFSS.updateBuckets thr (State.new h) m t = (.ub w, State.new h) := by
  obtain ⟨w, e⟩ := getOptimal_ub hh h0 hbad
  refine ⟨w, ?_⟩
  unfold MPFSS.updateBuckets
  rw [if_pos (.inl (by simp [State.new]))]
  have : computeBuckets thr h m t = .ub w := by
    unfold computeBuckets
    rw [if_neg (by omega), e]
    rfl
  show (match computeBuckets thr h m t with | .ok b => _ | .err c m => _ | .throws m => _ | .ub w => _ | .diverge => _) = _
  rw [this]

/-- What a created object does if the estimated number of buckets is not an `int64_t`: both roles of
    MPFSS have undefined behaviour for valid arguments. -/
theorem C65_out_of_range (h : Hasher) (hh : h.numHash = 3) (t m : Nat) (h0 : 0 < t) (h1 : t ≤ m) (h2 : t < 2 ^ 31) (hbad : ¬ IsInt64 (h.optimal t))
    (aes : Cipher) (fl : Nat → Nat → Nat) (c : Chans) (sec : Sec) (key seed : Nat → Block) (thr : Nat → List Nat)
    (x : T) (w y u v out : List T) (indices : List Int) (hy : y.length = t) (hi : indices.length = t) (ho : out.length = m)
    (hr : ∀ i ∈ indices, 0 ≤ i ∧ i < m) :
    Undefined Res.status (runValueProviderVectorOLE aes fl c sec key seed thr (State.new h) x t w out) ∧
    Undefined Res.status (runIndexProviderVectorOLE aes fl c thr (State.new h) y indices u v out) := by
  obtain ⟨e, he⟩ := update_ub hh h0 hbad thr m
  constructor
  · unfold runValueProviderVectorOLE
    rw [if_neg (by omega), ho, he]
    exact ⟨_, e, rfl, rfl⟩
  · unfold runIndexProviderVectorOLE
    have hc : (indices.take (toInt32 indices.length).toNat).any (fun i => decide (i > (out.length : Int))) = false := by
      rw [List.any_eq_false]
      intro i hi
      have := hr i (List.mem_of_mem_take hi)
      simp only [decide_eq_true_eq]
      omega
    rw [if_neg (by omega), if_neg (by omega), if_neg (by omega), hc]
    simp only [Bool.false_eq_true, if_false]
    rw [toInt32_eq (by omega), hy, ho, he]
    exact ⟨_, e, rfl, rfl⟩

theorem start_ub {β : Type} {h : Hasher} {w : String} (e : numBuckets h 98 = .ub w) {s : VOLE.VState T} (hs : s.mpfss.hasher = h) (f : Int → VOLE.VM T β) :
    (VOLE.startPrecompute >>= f) s = .ret (.ub w, { s with batch := 0, noise := 98, voleSize := 1589 }) := by
  unfold VOLE.startPrecompute
  rw [VOLE.VM.bind_assoc, VOLE.VM.modify_bind, VOLE.VM.bind_assoc, VOLE.rd_of_get (a := 98) rfl, VOLE.VM.lift_ok_bind, VOLE.VM.bind_assoc,
    VOLE.rd_of_get (a := 1589) rfl, VOLE.VM.lift_ok_bind, VOLE.VM.bind_assoc, VOLE.VM.modify_bind, VOLE.VM.bind_assoc, VOLE.VM.get_bind, VOLE.VM.bind_assoc]
  dsimp only
  rw [hs, e]
  rfl

/-- The same for the precomputations of `DistributedVectorOLE`, whose first row has 98 noise indices. -/
theorem C65_precompute (h : Hasher) (hh : h.numHash = 3) (hbad : ¬ IsInt64 (h.optimal 98)) (E : VOLE.Env T) (batch : Int) (hb : 1 ≤ batch) (junk d : T) :
    Undefined Prod.fst (VOLE.precomputeSender E batch (VOLE.VState.new (State.new h) junk)) ∧
    Undefined Prod.fst (VOLE.precomputeReceiver E batch d (VOLE.VState.new (State.new h) junk)) := by
  obtain ⟨w, e⟩ := getOptimal_ub hh (t := 98) (by omega) hbad
  have e' : numBuckets h 98 = .ub w := by
    unfold numBuckets
    rw [show (98 : Int) = ((98 : Nat) : Int) from rfl, e]
    rfl
  constructor
  · refine ⟨(.ub w, { VOLE.VState.new (State.new h) junk with batch := 0, noise := 98, voleSize := 1589 }), w, ?_, rfl⟩
    unfold VOLE.precomputeSender
    rw [if_neg (by omega), start_ub e' rfl]
  · refine ⟨(.ub w, { VOLE.VState.new (State.new h) junk with batch := 0, noise := 98, voleSize := 1589 }), w, ?_, rfl⟩
    unfold VOLE.precomputeReceiver
    rw [if_neg (by omega), start_ub e' rfl]

/-- C65 is false of the code. Both parties' `Create` accept NaN (`none`) and every number, however large;
    if the formula of cuckoo_hasher.cpp:67-91 then yields something that is not an `int64_t` (NaN yields
    NaN, and large numbers yield large numbers), then the objects that they return have undefined
    behaviour in the first call with valid arguments. -/
theorem C65_false (aes : Cipher) (bits : Sec → Nat → Nat → Nat → Bool) (optimal : Sec → Nat → Nat → Int) {P Q : Party} (hPQ : Peers P Q)
    (seed seed' : Block) (ch : Chans) (sec : Sec) (hs : ∀ f, sec = some f → 1 ≤ f) (hbad : ¬ IsInt64 (optimal ((sec.map (· * 3)).map (· * 2)) 3 98))
    (E : VOLE.Env T) (junk d : T) :
    ∃ o va vb, Computes (voleCreate aes bits optimal P seed (some ch) sec : PM (Msg T) _) (voleCreate aes bits optimal Q seed' (some ch) sec : PM (Msg T) _)
      (.ok o) (.ok o) va vb ∧ ∀ batch : Int, 1 ≤ batch →
      Undefined Prod.fst (VOLE.precomputeSender E batch (VOLE.VState.new (State.new o.mpfss.hasher) junk)) ∧
      Undefined Prod.fst (VOLE.precomputeReceiver E batch d (VOLE.VState.new (State.new o.mpfss.hasher) junk)) := by
  obtain ⟨va, vb, j⟩ := vole_joint (T := T) aes bits optimal hPQ seed seed' ch hs
  exact ⟨_, va, vb, j.computes, fun batch hb => C65_precompute (agreed aes bits optimal (if P.lower then seed else seed') (sec.map (· * 3))).hasher rfl hbad E batch hb junk d⟩

/-- An estimate that is NaN (here: a number outside the range) for NaN, and grows with the security. -/
def exOptimal : Sec → Nat → Nat → Int
  | none, _, _ => 2 ^ 63
  | some f, _, t => f.num + t

/-- A hasher with such an estimate meets the hypotheses of `C65_out_of_range`. -/
example (x : BitVec 64) (w u v : List (BitVec 64)) (thr : Nat → List Nat) :
    let h : Hasher := ⟨exHasher.enc, 3, fun _ _ => false, exOptimal none 3⟩
    Undefined Res.status (@runValueProviderVectorOLE _ (scalarUInt 64) GGM.exCipher (fun _ _ => 6) ⟨0, 1, 2⟩ none (fun j => j) (fun i => i) thr
      (State.new h) x (2 : Nat) w (List.replicate 5 0)) ∧
    Undefined Res.status (@runIndexProviderVectorOLE _ (scalarUInt 64) GGM.exCipher (fun _ _ => 6) ⟨0, 1, 2⟩ thr (State.new h) [10, 20] [4, 1] u v
      (List.replicate 5 0)) :=
  @C65_out_of_range _ (scalarUInt 64) ⟨exHasher.enc, 3, fun _ _ => false, exOptimal none 3⟩ rfl 2 5 (by omega) (by omega) (by omega)
    (by unfold IsInt64 exOptimal; norm_num) _ _ _ _ _ _ _ x w [10, 20] u v _ [4, 1] rfl rfl rfl (by decide)

/-- `C65_false` (and so `C65_precompute`) for NaN, and for a security of 100 bits with that estimate. -/
example (E : VOLE.Env (BitVec 64)) (junk d : BitVec 64) (sec : Sec) (hsec : sec = none ∨ sec = some (2 ^ 100)) :=
  @C65_false _ (scalarUInt 64) GGM.exCipher (fun _ _ _ _ => false) exOptimal ⟨true, false, .ok (), .ok ()⟩ ⟨false, false, .ok (), .ok ()⟩
    ⟨rfl, rfl, rfl, rfl, rfl, rfl⟩ 1 2 ⟨0, 1, 2⟩ sec
    (by rcases hsec with rfl | rfl
        · simp
        · rintro f ⟨⟩; norm_num)
    (by rcases hsec with rfl | rfl
        · show ¬ IsInt64 (2 ^ 63); unfold IsInt64; norm_num
        · show ¬ (-2 ^ 63 ≤ (2 ^ 100 * 3 * 2 : ℚ).num + 98 ∧ (2 ^ 100 * 3 * 2 : ℚ).num + 98 < 2 ^ 63)
          norm_num) E junk d

/-- C65 as far as it holds: if the estimate is an `int64_t`, then neither the computation of the buckets
    nor that of their number has undefined behaviour, whatever the sizes. Together with C18, C29 and C60,
    which cover the rest of the calls. -/
theorem C65_partial (h : Hasher) (hint : ∀ t, 0 < t → IsInt64 (h.optimal t)) (thr : Nat → List Nat) (ht : Threads thr) (o n : Int) :
    (computeBuckets thr h o n).NoUB ∧ (getOptimalNumberOfBuckets h n).NoUB ∧ (numBuckets h n).NoUB := by
  have hg : (∃ c m, getOptimalNumberOfBuckets h n = .err c m) ∨ ∃ k, getOptimalNumberOfBuckets h n = .ok k ∧ k < 2 ^ 63 := by
    unfold getOptimalNumberOfBuckets
    split
    · exact .inl ⟨_, _, rfl⟩
    · split
      · exact .inr ⟨1, rfl, by omega⟩
      · split
        · have := hint n.toNat (by omega)
          exact .inr ⟨_, if_pos this, this.2⟩
        · exact .inl ⟨_, _, rfl⟩
  rcases hg with ⟨c, m, e⟩ | ⟨k, e, hk⟩
  · refine ⟨?_, by rw [e]; exact trivial, by unfold numBuckets; rw [e]; exact trivial⟩
    unfold computeBuckets
    split
    · exact trivial
    · rw [e]; exact trivial
  · refine ⟨?_, by rw [e]; exact trivial, by unfold numBuckets; rw [e]; exact trivial⟩
    unfold computeBuckets
    split
    · exact trivial
    · rw [e, Out.ok_bind]
      by_cases hp : k ≤ 0
      · unfold hashSimple; rw [if_pos hp]; exact trivial
      · cases hb : h.tooManyBits (allIndices o.toNat).length k.toNat with
        | true => unfold hashSimple; rw [if_neg hp, if_pos hb]; exact trivial
        | false =>
          rw [hashSimple_eq h (by omega) hk _ _ (by rw [ht, allIndices_length]) hb]
          exact trivial

/-- The example hasher satisfies the hypothesis. -/
example (thr : Nat → List Nat) (ht : Threads thr) : (computeBuckets thr exH 12 3).NoUB :=
  (C65_partial exH (fun t _ => by
    show -2 ^ 63 ≤ (if t < 100 then 10 * t else 1000 : Int) ∧ (if t < 100 then 10 * t else 1000 : Int) < 2 ^ 63
    split <;> omega) thr ht 12 3).1

end DVO.Create
