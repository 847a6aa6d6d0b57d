/-
C77: how often the vector OLE hangs, with a random function or permutation in place of AES in the hasher.
-/
import Verif.Proofs.FirstRun
import Verif.Props.Failure

namespace DVO.VOLE
open Net MPFSS Cuckoo
set_option linter.unusedSectionVars false
variable {T : Type} [Scalar T] [LawfulScalar T]

theorem mem_noise {t : Nat} (ht : (t : Int) ∈ noiseSizes) : t ∈ [98, 198, 382, 1254, 1324] := by
  simp only [noiseSizes, List.mem_cons, List.not_mem_nil, or_false] at ht ⊢
  omega

/-- The first noise indices of a new object cannot be hashed for more than `2^-36` of the functions and of the permutations in place of AES in the hasher. -/
theorem unlucky_often {bits : Sec → Nat → Nat → Nat → Bool} {optimal : Sec → Nat → Nat → Int} (Hb : FaithfulBits bits) (H : Faithful optimal) {f : ℚ} (h1 : 2 ^ 12 ≤ f)
    (h2 : f ≤ 6 * 2 ^ 40) {A B : Env T} (W : ∀ enc, Together (hasherFor bits optimal f enc) A B) {k o : Nat} (ho : 98 ≤ o)
    (hidx : ∀ g, RNG.create (A.rand k).junk ((List.range 32).map (A.rand k).byte) 98 = .ok g → ∃ l, sampleIndices A.lib A.aes o 98 A.fuel g [] = .ok l) (ho' : o ≤ 2 ^ 31) :
    Often (fun enc => UnluckyAt (hasherFor bits optimal f enc) A k 98 o) := by
  obtain ⟨g, hg, eg⟩ := create_usable (A.rand k).junk ((List.range 32).map (A.rand k).byte) (b := 98) (by simp) (by omega)
  obtain ⟨l, el⟩ := hidx g eg
  have hfine := sampleIndices_fine (lib := A.lib) (aes := A.aes) (W id).conforms (o := (o : Int)) (n := 98) (by omega) (by omega) A.fuel
    (set := []) hg List.nodup_nil (by simp) (by simp)
  rw [el] at hfine
  obtain ⟨hnd, hrange, hlen⟩ := hfine
  have hperm := (W id).orderA k l
  have hll : ((A.rand k).order l).length = 98 := by rw [hperm.length_eq]; omega
  have h3 := C77_noise Hb H h1 h2 (inputs := ((A.rand k).order l).map indexBlock)
    (indexBlock_nodup (m := o) ho' (fun i hi => hrange i (hperm.mem_iff.1 hi)) (hperm.nodup_iff.2 hnd)) (by rw [List.length_map, hll]; decide)
  refine Often.mono h3 fun enc he g' eg' => ?_
  have eg'' : RNG.create (A.rand k).junk ((List.range 32).map (A.rand k).byte) 98 = .ok g' := eg'
  obtain rfl : g = g' := by rw [eg] at eg''; exact Out.ok.inj eg''
  refine ⟨l, el, ?_⟩
  rintro ⟨b, hb⟩
  rw [List.length_map, hll] at he
  have : hashCuckoo (hasherFor bits optimal f enc) (((A.rand k).order l).map indexBlock) ((hasherFor bits optimal f enc).optimal 98) =
    .err .internal "Failed to insert element, maximum number of tries exhausted" := he
  rw [hb] at this
  cases this

/-- C77 for the vector OLE: new objects and up to 2221 elements, where nothing can go wrong before the first expansion. For more than `2^-36` of the functions and
    of the permutations in place of AES in the hasher, a precomputation succeeds, but in the next run the sender returns an error and the receiver waits for ever; the same happens
    without a call of a precomputation. The statistical security (`f` is 2 to the power of that of the hasher) is 12 to 42 bits. -/
theorem C77_vole {bits : Sec → Nat → Nat → Nat → Bool} {optimal : Sec → Nat → Nat → Int} (Hb : FaithfulBits bits) (H : Faithful optimal) {f : ℚ} (h1 : 2 ^ 12 ≤ f)
    (h2 : f ≤ 6 * 2 ^ 40) {A B : Env T} (W : ∀ enc, Together (hasherFor bits optimal f enc) A B) (SA : ∀ enc, SmoothTo 10616092 0 (hasherFor bits optimal f enc) A)
    (SB : ∀ enc, SmoothTo 10616092 0 (hasherFor bits optimal f enc) B) {b : Nat} (hb : 1 ≤ b) (hb' : b ≤ 2221) (d junk junk' : T) (hfA : 1 ≤ A.fuel) (hfB : 1 ≤ B.fuel)
    (hidx : ∀ g, RNG.create (A.rand 7).junk ((List.range 32).map (A.rand 7).byte) 98 = .ok g →
      ∃ l, sampleIndices A.lib A.aes (b + 1589 + (optimal (some f) 3 98).toNat : Nat) 98 A.fuel g [] = .ok l) :
    Often (fun enc =>
      (∃ s r va vb, Computes (precomputeSender A b (created (hasherFor bits optimal f enc) junk)) (precomputeReceiver B b d (created (hasherFor bits optimal f enc) junk'))
        (.ok (), s) (.ok (), r) va vb ∧ ∀ n : Nat, 1 ≤ n → ∃ c m s', Hangs (runSender A n s) (runReceiver B n r) (.err c m, s')) ∧
      ∃ c m s', Hangs (runSender A b (created (hasherFor bits optimal f enc) junk)) (runReceiver B b (created (hasherFor bits optimal f enc) junk')) (.err c m, s')) := by
  have hopt : optimal (some f) 3 98 ≤ 286 := (C77_buckets H (le_trans (by norm_num) h1) h2).1
  have hlt : ∀ t : Nat, (t : Int) ∈ noiseSizes → optimal (some f) 3 t < 2 ^ 12 := fun t ht => (optimal_bounds H h1 h2 (mem_noise ht)).2.1
  have hb2 : (b : Int) + 1589 + optimal (some f) 3 98 ≤ 4096 := by omega
  refine Often.mono (unlucky_often Hb H h1 h2 W (k := 7) (by omega) hidx (by omega)) fun enc he => ⟨?_, ?_⟩
  · obtain ⟨s, r, va, vb, J, -, -, h3⟩ := first_unlucky (W enc) (SA enc) (SB enc) hb hb2 hlt d (s := created _ junk) (r := created _ junk') (.new _) (.new _) rfl hfA hfB he
    refine ⟨s, r, va, vb, J.computes, fun n hn => ?_⟩
    obtain ⟨⟨c, m, s', e⟩, hw⟩ := h3 n hn
    rw [e]
    exact ⟨c, m, s', Hangs.ret hw _⟩
  · obtain ⟨s, r, va, vb, J, ds, dr, h3⟩ := first_unlucky (W enc) (SA enc) (SB enc) hb hb2 hlt ((B.rand 0).elems 0) (s := created _ junk)
      (r := { created _ junk' with pos := 1 }) (.new _) (.new _) rfl hfA hfB he
    obtain ⟨⟨c, m, s', e⟩, hw⟩ := h3 b hb
    rw [runSender_eq, if_pos ds] at e
    rw [runReceiver_eq, if_pos dr] at hw
    rw [runSender_eq, if_neg (by exact Bool.false_ne_true), runReceiver_eq, if_neg (by exact Bool.false_ne_true)]
    exact ⟨c, m, s', Hangs.after J e hw⟩

/-! Example: the environment of the other examples, up to 2221 elements, 42 bits in the hasher (`log2(6)` more than the default of 40). -/
section Example

/-- The hasher of the example. -/
noncomputable def sampleHasher (enc : Block → Block) : Hasher := hasherFor exactBits exact3 (6 * 2 ^ 40) enc

theorem sampleHasher_optimal (enc : Block → Block) {t : Nat} (ht : (t : Int) ∈ noiseSizes) :
    (t : Int) ≤ (sampleHasher enc).optimal t ∧ (sampleHasher enc).optimal t < 2 ^ 12 := by
  have := optimal_bounds exact3_faithful (f := 6 * 2 ^ 40) (by norm_num) le_rfl (mem_noise ht)
  exact ⟨this.1, this.2.1⟩

theorem sampleHasher_together (enc : Block → Block) (x y fx fy : Nat) : Together (sampleHasher enc) (toyEnv true x fx) (toyEnv false y fy) where
  aes := rfl
  fl := rfl
  chans := rfl
  sec := rfl
  lib := rfl
  ids := rfl
  threadsA := (toy_together x y fx fy).threadsA
  threadsB := (toy_together x y fx fy).threadsB
  orderA := (toy_together x y fx fy).orderA
  orderB := (toy_together x y fx fy).orderB
  conforms := toyLib_conforms _
  numHash := rfl
  buckets_pos := fun n hn => by
    have hn0 : 0 < n ∧ ((n.toNat : Nat) : Int) = n := by
      simp only [noiseSizes, List.mem_cons, List.not_mem_nil, or_false] at hn
      omega
    have := sampleHasher_optimal enc (t := n.toNat) (by rw [hn0.2]; exact hn)
    omega
  buckets_lt := fun n hn => by
    have hn0 : 0 < n ∧ ((n.toNat : Nat) : Int) = n := by
      simp only [noiseSizes, List.mem_cons, List.not_mem_nil, or_false] at hn
      omega
    have := sampleHasher_optimal enc (t := n.toNat) (by rw [hn0.2]; exact hn)
    omega
  trees := (toy_together x y fx fy).trees

theorem sampleHasher_smooth (enc : Block → Block) (b : Bool) (x fx : Nat) : SmoothTo 10616092 0 (sampleHasher enc) (toyEnv b x fx) where
  bits := fun t ht m hm => by
    obtain ⟨b1, b2⟩ := sampleHasher_optimal enc ht
    have hpos := noise_pos ht
    refine C68_accepted exactBits_faithful (f := 6 * 2 ^ 40) (by norm_num) (by norm_num) (by omega) ?_
    have e1 : (m : ℚ) ≤ 10616092 := by exact_mod_cast hm
    have e2 : (((sampleHasher enc).optimal t).toNat : ℚ) ≤ 2 ^ 12 := by exact_mod_cast (by omega : ((sampleHasher enc).optimal t).toNat ≤ 2 ^ 12)
    calc (6 * 2 ^ 40 : ℚ) * m * (3 : Nat) * (((sampleHasher enc).optimal t).toNat : ℚ) ≤ 6 * 2 ^ 40 * 10616092 * (3 : Nat) * 2 ^ 12 := by gcongr
      _ ≤ 3 * 2 ^ 126 := by norm_num
  trees := fun _ _ => rfl
  elements := fun _ _ => rfl
  sampling := fun junk seed rows cols g h1 h2 h3 => toy_sampleCode _ junk seed rows cols g h1 h2 h3
  indices := fun junk seed t o g ht hle ho hg => by
    have h2 : 2 ≤ t := by simp [noiseSizes] at ht; omega
    omega

example (d junk junk' : BitVec 64) : Often (fun enc =>
    (∃ s r va vb, Computes (precomputeSender (toyEnv true 1 100) (5 : Nat) (created (sampleHasher enc) junk)) (precomputeReceiver (toyEnv false 2 100) (5 : Nat) d (created (sampleHasher enc) junk'))
      (.ok (), s) (.ok (), r) va vb ∧ ∀ n : Nat, 1 ≤ n → ∃ c m s', Hangs (runSender (toyEnv true 1 100) n s) (runReceiver (toyEnv false 2 100) n r) (.err c m, s')) ∧
    ∃ c m s', Hangs (runSender (toyEnv true 1 100) (5 : Nat) (created (sampleHasher enc) junk)) (runReceiver (toyEnv false 2 100) (5 : Nat) (created (sampleHasher enc) junk')) (.err c m, s')) :=
  C77_vole exactBits_faithful exact3_faithful (f := 6 * 2 ^ 40) (by norm_num) le_rfl (fun enc => sampleHasher_together enc 1 2 100 100) (fun enc => sampleHasher_smooth enc true 1 100)
    (fun enc => sampleHasher_smooth enc false 2 100) (by norm_num) (by norm_num) d junk junk' (by decide) (by decide)
    (fun g hg => ⟨_, toy_sampleIndices (t := 98) toyAes (by omega) 100 0 g (by omega) (by omega) (Budget.create hg (by omega)).2⟩)

end Example

end DVO.VOLE
