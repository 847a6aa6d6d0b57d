/-
A precomputation that is refused after the generator has been cleared, and the run after it (C59).
-/
import Verif.Proofs.ZeroCode2

namespace DVO.Net
variable {M S S' α β : Type}

theorem Pair.joint {p : Proc M (Out α × S)} {q : Proc M (Out β × S')} {Post : α → S → β → S' → Prop}
    (h : Pair (fun _ => False) p q Post) : ∃ a s b t va vb, Joint p q (.ok a, s) (.ok b, t) va vb ∧ Post a s b t := by
  rcases h with ⟨a, s1, b, t1, va1, vb1, h1, h2⟩ | ⟨k, s1, h1, h2⟩
  · exact ⟨a, s1, b, t1, va1, vb1, h1, h2⟩
  · rcases h2 with ⟨o, t, -, hb⟩ | ⟨o, t, -, hb⟩ <;> cases o <;> exact absurd hb id

end DVO.Net

namespace DVO.VOLE
open Net MPFSS
set_option linter.unusedSectionVars false
variable {T : Type} [Scalar T] [LawfulScalar T] {h : Cuckoo.Hasher} {A B : Env T}

/-- The error of distributed_vector_ole.h:383-386. -/
def tooFew : String := "Cannot sample enough random elements for the code generator with the given statistical security"

theorem fromSeed_refused (E : Env T) {o : Nat} {seed : List (BitVec 8)} (hl : seed.length = 32) (ho : o ≤ 10616092)
    (hc : Scalar.canHash T (ROT.secPerLeaf E.sec (nonzeros * o)) 128 = false) (s : VState T) :
    fromSeed E o seed s = .ret (.err .invalidArgument tooFew, { s with pos := s.pos + 1 }) := by
  unfold fromSeed
  obtain ⟨g, -, eg⟩ := create_usable (E.rand s.pos).junk seed (b := (nonzeros : Int) * o) (by omega) (by unfold nonzeros; omega)
  rw [VM.draw_bind, eg, VM.lift_ok_bind, hc]
  rfl

theorem common_refused (W : Together h A B) {t o : Nat} {s r : VState T} (ht : (t : Int) ∈ noiseSizes) (hle : t ≤ o) (ho : o ≤ 10616092)
    (hbits : h.tooManyBits o (h.optimal t).toNat = false) (hs : Coherent h s.mpfss) (hr : Coherent h r.mpfss)
    (hns : s.noise = t) (hnr : r.noise = t) (hc : Scalar.canHash T (ROT.secPerLeaf A.sec (nonzeros * o)) 128 = false) :
    ∃ st st' p q va vb, Coherent h st ∧ Coherent h st' ∧ Joint (precomputeCommon A o s) (precomputeCommon B o r)
      (.err .invalidArgument tooFew, { s with mpfss := st, code := ⟨s.voleSize, List.replicate o []⟩, pos := p })
      (.err .invalidArgument tooFew, { r with mpfss := st', code := ⟨r.voleSize, List.replicate o []⟩, pos := q }) va vb := by
  rcases updateBuckets_cases W ht hle ho W.threadsA hs with ⟨st, e1, h1⟩ | ⟨hb, -⟩
  swap
  · rw [hbits] at hb; cases hb
  rcases updateBuckets_cases W ht hle ho W.threadsB hr with ⟨st', e2, h2⟩ | ⟨hb, -⟩
  swap
  · rw [hbits] at hb; cases hb
  rw [common_eq A (by omega) (by rw [hns]; exact e1), common_eq B (by omega) (by rw [hnr]; exact e2)]
  obtain ⟨seed, s1, seed', r1, va, vb, J, rfl, hl, rfl, rfl⟩ := (exchange_pair W (P := fun _ => False) { s with mpfss := st, code := ⟨s.voleSize, List.replicate (o : Int).toNat []⟩ }
    { r with mpfss := st', code := ⟨r.voleSize, List.replicate (o : Int).toNat []⟩ }).joint
  refine ⟨st, st', s.pos + 1 + 1, r.pos + 1 + 1, va ++ [], vb ++ [], h1, h2, ?_⟩
  rw [VM.bind_apply, VM.bind_apply]
  refine Joint.bind J ?_
  show Joint (fromSeed A o seed _) (fromSeed B o seed _) _ _ _ _
  rw [fromSeed_refused A hl ho hc, fromSeed_refused B hl ho (by rw [W.sec]; exact hc)]
  exact Joint.ret _ _

/-- Both parties refuse, are as ready as before, and their generator is empty. -/
theorem precompute_refused {M N : Nat} (W : Together h A B) (SA : SmoothTo M N h A) (SB : SmoothTo M N h B) {batch : Int} (hb0 : 1 ≤ batch) (hb1 : batch < 2 ^ 62)
    (hE : Enough h batch M N)
    (hc : ∀ i t v, IsRow i t v → ∀ o : Nat, (o : Int) = min batch (10616092 - h.optimal t - v) + v + h.optimal t →
      Scalar.canHash T (ROT.secPerLeaf A.sec (nonzeros * o)) 128 = false) {d : T}
    {s r : VState T} (hs : Coherent h s.mpfss) (hr : Coherent h r.mpfss) (hlog : s.log = r.log) :
    ∃ s' r' va vb t v b, Joint (precomputeSender A batch s) (precomputeReceiver B batch d r) (.err .invalidArgument tooFew, s') (.err .invalidArgument tooFew, r') va vb ∧
      Shared h t v b s' r' ∧ Dir h False d s' r' ∧ (b : Int) = min batch (10616092 - h.optimal t - v) ∧
      s'.sDone = s.sDone ∧ r'.rDone = r.rDone ∧ s'.sCached.u.length = 0 ∧ s'.code.cols = List.replicate (b + v + (h.optimal t).toNat) [] ∧ SReady s' := by
  obtain ⟨⟨⟩, s1, ⟨⟩, r1, va, vb, J, -, ⟨j, t, v, H⟩, f1, f2, d1, d2⟩ :=
    (front_pair (P := fun _ => False) (fun o _ h2 => h2 ⟨SA, SB⟩) W hb1 hE (.inl hb0) (d := d) hs hr hlog).joint
  have hp := W.optimal_pos H.row.mem
  have hl := W.optimal_lt H.row.mem
  obtain ⟨b1, b2, b3⟩ := H.row.bounds
  obtain ⟨b, hb⟩ : ∃ b : Nat, (b : Int) = min batch (10616092 - h.optimal t - v) := ⟨(min batch (10616092 - h.optimal t - v)).toNat, by omega⟩
  have key : ∀ (E : Env T) (x : VState T), x.mpfssSize = h.optimal t → x.voleSize = v → finishPrecompute E batch x =
      precomputeCommon E ((b + v + (h.optimal t).toNat : Nat) : Int) { x with batch := b } := by
    intro E x e1 e2
    unfold finishPrecompute
    rw [VM.get_bind, rd_of_get (a := 10616092) rfl, VM.lift_ok_bind, e1, e2,
      i32_ok (by omega) (by omega), Out.ok_bind, i32_ok (by omega) (by omega), VM.lift_ok_bind, VM.modify_bind, VM.get_bind]
    dsimp only
    rw [← hb, e1, e2]
    congr 1
    push_cast; omega
  obtain ⟨st, st', p, q, vc, vd, c1, c2, J2⟩ := common_refused W (o := b + v + (h.optimal t).toNat) (s := { s1 with batch := b }) (r := { r1 with batch := b }) H.row.mem (by omega) (by omega)
    (SA.bits t H.row.mem _ (by omega)) H.cohS H.cohR H.noiseS H.noiseR (hc j t v H.row _ (by push_cast; omega))
  refine ⟨{ s1 with batch := b, mpfss := st, code := ⟨s1.voleSize, List.replicate (b + v + (h.optimal t).toNat) []⟩, pos := p },
    { r1 with batch := b, mpfss := st', code := ⟨r1.voleSize, List.replicate (b + v + (h.optimal t).toNat) []⟩, pos := q },
    va ++ (vc ++ []), vb ++ (vd ++ []), t, v, b, ?_, ?_, ?_, hb, d1, d2, H.empty, rfl, ?_⟩
  · rw [precomputeSender_eq, precomputeReceiver_eq, VM.bind_apply, VM.bind_apply]
    refine Joint.bind J ?_
    show Joint ((finishPrecompute A batch >>= fun _ => VM.modify (fun s => { s with sDone := true })) s1)
      ((finishPrecompute B batch >>= fun _ => VM.modify (fun s => { s with rDone := true })) r1) _ _ _ _
    rw [VM.bind_apply, VM.bind_apply, key A s1 H.mpfssS H.voleS, key B r1 H.mpfssR H.voleR]
    refine Joint.bind J2 ?_
    exact Joint.ret _ _
  · have cok : ∀ n : Int, n = v → CodeOk (⟨n, List.replicate (b + v + (h.optimal t).toNat) []⟩ : Sparse T) v (b + v + (h.optimal t).toNat) := fun n hn =>
      ⟨hn, by simp, fun col hc e he => by rw [List.eq_of_mem_replicate hc] at he; cases he⟩
    exact ⟨c1, c2, ⟨⟨j, H.row⟩, H.noiseS, H.voleS, H.mpfssS, rfl, by omega, by omega, cok _ H.voleS⟩,
      ⟨⟨j, H.row⟩, H.noiseR, H.voleR, H.mpfssR, rfl, by omega, by omega, cok _ H.voleR⟩, by simp [H.voleS, H.voleR], H.log⟩
  · exact ⟨H.cached, H.vole, H.mpfss, j, t, v, H.row, H.lenV, H.lenM, .inr H.voleS⟩
  · have e1 := H.vole.corr.len_v
    have e2 := H.mpfss.corr.len_v
    have e3 := H.cached.corr.len_v
    have e4 := H.lenV
    have e5 := H.lenM
    have e6 := H.voleS
    have e7 := H.mpfssS
    refine ⟨⟨?_, ?_, ?_, ?_, ?_⟩, rfl, ?_, by omega⟩
    · show (s1.sVole.u.length : Int) = s1.voleSize; omega
    · show (s1.sVole.v.length : Int) = s1.voleSize; omega
    · show (s1.sMpfss.u.length : Int) = s1.mpfssSize; omega
    · show (s1.sMpfss.v.length : Int) = s1.mpfssSize; omega
    · show numBuckets st.hasher s1.noise = .ok s1.mpfssSize
      rw [c1.hasher, H.noiseS, e7]; exact numBuckets_eq W H.row.mem
    · show ((List.replicate (b + v + (h.optimal t).toNat) ([] : List (Nat × T))).length : Int) = b + s1.voleSize + s1.mpfssSize
      rw [List.length_replicate]; push_cast; omega

/-! ### An environment in which this happens -/

/-- A prime modulus of 64 bits. -/
abbrev zMod : Nat := 9999999999999999491

instance : LawfulScalar (ZZp zMod) := lawful_zzp (by unfold zMod; omega) (by unfold zMod; omega)

/-- Like `toyEnv`, for integers modulo `zMod`. -/
def zEnv (lower : Bool) (salt fuel : Nat) : Env (ZZp zMod) where
  aes := toyAes
  fl := fun _ _ => 31
  c := ⟨0, 1, 2⟩
  sec := some (2 ^ 40)
  lib := toyLib
  thr := fun n => [n / 2, n - n / 2]
  lower := lower
  rand := fun pos => {
    elems := fun i => ((salt * 1000003 + pos * 1009 + i * i + 17 : Nat) : ZZp zMod)
    byte := fun i => BitVec.ofNat 8 (salt + pos * 7 + i)
    junk := ⟨[], 0, 0, 0, 0⟩
    order := List.reverse
    key := fun i => BitVec.ofNat 128 (salt + 3 * pos + i)
    seed := fun i => BitVec.ofNat 128 (salt + 5 * pos + i)
    m0 := fun i => BitVec.ofNat 128 (salt + 11 * pos + i)
    rnd := fun i => [((salt + i : Nat) : ZZp zMod)] }
  fuel := fuel

theorem z_together (x y fx fy : Nat) : Together toyHasher (zEnv true x fx) (zEnv false y fy) where
  aes := rfl
  fl := rfl
  chans := rfl
  sec := rfl
  lib := rfl
  ids := rfl
  threadsA := fun n => by show (n / 2 + (n - n / 2 + 0)) = n; omega
  threadsB := fun n => by show (n / 2 + (n - n / 2 + 0)) = n; omega
  orderA := fun i l => List.reverse_perm l
  orderB := fun i l => List.reverse_perm l
  conforms := toyLib_conforms _
  numHash := rfl
  buckets_pos := fun n _ => by show (0 : Int) < 2000; omega
  buckets_lt := fun n _ => by show (2000 : Int) < _; omega
  trees := fun n hn => ⟨by omega, fun _ => by show n ≤ 2 ^ 31; omega, fun _ => by show 31 ≤ 64; omega⟩

theorem z_can (k n : Nat) : Scalar.canHash (ZZp zMod) (ROT.secPerLeaf (some (2 ^ k)) n) 128 = true ↔ 3747083707536883158 * 2 ^ k * n < 2 ^ 128 := by
  show canHashMod (zMod % 2 ^ 128) (ROT.secPerLeaf (some (2 ^ k)) n) 128 = true ↔ _
  have e : ROT.secPerLeaf (some (2 ^ k)) n = some ((2 ^ k : ℚ) * (n : ℕ)) := by
    unfold ROT.secPerLeaf
    rw [if_neg (by omega)]
    simp
  rw [e]
  unfold canHashMod
  rw [if_neg (by decide)]
  have e2 : (((if 128 < 128 then (2 ^ 128 - 1) / 2 ^ 128 else 2 ^ 128 - 1) % (zMod % 2 ^ 128) + 1) % (zMod % 2 ^ 128) : Nat) = 3747083707536883158 := by decide
  simp only [e2, decide_eq_true_eq]
  rw [← mul_assoc]
  exact_mod_cast Iff.rfl

theorem z_smooth (b : Bool) (x f : Nat) (hf : 1325 ≤ f) : SmoothTo 600000 10616092 toyHasher (zEnv b x f) where
  bits := fun _ _ _ _ => rfl
  trees := fun m hm => by
    show Scalar.canHash _ (ROT.secPerLeaf (some (2 ^ 40 * 2)) ((3 * m : Nat) : Int)) 128 = true
    rw [show (2 ^ 40 * 2 : ℚ) = 2 ^ 41 by norm_num, z_can]
    omega
  elements := fun cols hc => by
    show Scalar.canHash _ (ROT.secPerLeaf (some (2 ^ 40)) ((10 : Nat) * (cols : Int))) 128 = true
    rw [← Nat.cast_mul, z_can]
    omega
  sampling := fun junk seed rows cols g h1 h2 h3 => toy_sampleCode _ junk seed rows cols g h1 (by omega) h3
  indices := fun junk seed t o g ht hle ho hg => by
    have h1 := noise_le ht
    have h2 := noise_pos ht
    refine ⟨_, toy_sampleIndices (t := t) toyAes hle f 0 g (by omega) (by omega) ?_, fun l' hl => toy_hash h1 hl⟩
    have : ∀ t : Nat, (t : Int) ∈ noiseSizes → 2 ≤ t := by intro t ht; simp [noiseSizes] at ht; omega
    exact (Budget.create hg (by have := this t ht; omega)).2

theorem z_enough (batch : Int) : Enough toyHasher batch 600000 10616092 := by
  intro i t v t' v' o H H' _ _
  obtain ⟨c1, c2, c3⟩ := H'.bounds
  show v' + (2000 : Int) ≤ _ ∧ v' + (2000 : Int) ≤ _
  omega

end DVO.VOLE
