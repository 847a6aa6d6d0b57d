/-
C69, continued: the unit tests of the protocols.
-/
import Verif.Props.Tests
import Verif.Props.Gilboa
import Verif.Props.ROT
import Verif.Props.SPFSS
import Verif.Props.MPFSS

set_option linter.unusedSectionVars false

namespace DVO.Tests
open Net Create ROT GGM
variable {T : Type} [Scalar T]

/-- A block can be hashed into the element type for up to 64 bits of statistical security, and the type has the
    properties that the protocols need. -/
structure Tested (T : Type) [Scalar T] : Prop where
  lawful : LawfulScalar T
  hash : ∀ f : ℚ, 0 ≤ f → f ≤ 2 ^ 64 → Scalar.canHash T (some f) 128 = true

/-- The test by remainders. -/
theorem canHashMod_iff {m : Nat} (h0 : 0 < m) (f : ℚ) : canHashMod m (some f) 128 = true ↔ ((2 ^ 128 % m : Nat) : ℚ) * f < 2 ^ 128 := by
  unfold canHashMod
  rw [if_neg (by omega)]
  dsimp only
  rw [if_neg (by omega), decide_eq_true_eq]
  have e : ((2 ^ 128 - 1) % m + 1) % m = 2 ^ 128 % m := by rw [Nat.mod_add_mod]; rfl
  rw [e]

theorem hash_mod {m : Nat} (h : m = 0 ∨ 2 ^ 128 % m < 2 ^ 64) (f : ℚ) (h2 : f ≤ 2 ^ 64) : canHashMod m (some f) 128 = true := by
  rcases h with rfl | h
  · rfl
  rcases Nat.eq_zero_or_pos m with rfl | hm
  · rfl
  rw [canHashMod_iff hm]
  have h3 : ((2 ^ 128 % m : Nat) : ℚ) ≤ 2 ^ 64 - 1 := by
    have : 2 ^ 128 % m + 1 ≤ 2 ^ 64 := h
    have : ((2 ^ 128 % m : Nat) : ℚ) + 1 ≤ 2 ^ 64 := by exact_mod_cast this
    linarith
  have h4 : (0 : ℚ) ≤ ((2 ^ 128 % m : Nat) : ℚ) := Nat.cast_nonneg _
  nlinarith

theorem tested_uint (w : Nat) (h8 : 8 ∣ w) (hw : 8 ≤ w) (hw2 : w ≤ 128) : @Tested (BitVec w) (scalarUInt w) :=
  @Tested.mk (BitVec w) (scalarUInt w) (lawful_uint h8 hw hw2) (fun _ _ _ => decide_eq_true (by omega))

theorem tested_gf128 : Tested GF128 := ⟨inferInstance, fun _ _ _ => rfl⟩

theorem tested_ZZ_p {p : Nat} (hp : 2 ≤ p) (hp2 : p ≤ 2 ^ 128) (h : p % 2 ^ 128 = 0 ∨ 2 ^ 128 % (p % 2 ^ 128) < 2 ^ 64) : Tested (ZZp p) :=
  ⟨lawful_zzp hp hp2, fun f _ h2 => hash_mod h f h2⟩

theorem tested_zz_p {p : Nat} (hp : 2 ≤ p) (hp2 : p < 2 ^ 60) : Tested (Zzp p) :=
  ⟨lawful_zzp_small hp hp2, fun f _ h2 => hash_mod (.inr (by have := Nat.mod_lt (2 ^ 128) (show p > 0 by omega); omega)) f h2⟩

/-- C69: all element types of the tests. -/
theorem C69_types : Tested (BitVec 8) ∧ Tested (BitVec 16) ∧ Tested (BitVec 32) ∧ Tested (BitVec 64) ∧ Tested (BitVec 128) ∧ Tested GF128 ∧
    Tested (ZZp 340282366920938463463374607431768211456) ∧ Tested (ZZp 340282366920938463463374607431768211297) ∧
    Tested (ZZp 18446744073709551557) ∧ Tested (ZZp 4294967291) ∧ Tested (ZZp 65521) ∧ Tested (ZZp 251) ∧
    Tested (Zzp 1125899906842597) ∧ Tested (Zzp 4294967291) ∧ Tested (Zzp 65521) ∧ Tested (Zzp 251) ∧ Tested (Zzp 1152921504606846883) :=
  ⟨tested_uint 8 (by norm_num) (by norm_num) (by norm_num), tested_uint 16 (by norm_num) (by norm_num) (by norm_num),
   tested_uint 32 (by norm_num) (by norm_num) (by norm_num), tested_uint 64 (by norm_num) (by norm_num) (by norm_num),
   tested_uint 128 (by norm_num) (by norm_num) (by norm_num), tested_gf128,
   tested_ZZ_p (by norm_num) (by norm_num) (by norm_num), tested_ZZ_p (by norm_num) (by norm_num) (by norm_num),
   tested_ZZ_p (by norm_num) (by norm_num) (by norm_num), tested_ZZ_p (by norm_num) (by norm_num) (by norm_num),
   tested_ZZ_p (by norm_num) (by norm_num) (by norm_num), tested_ZZ_p (by norm_num) (by norm_num) (by norm_num),
   tested_zz_p (by norm_num) (by norm_num), tested_zz_p (by norm_num) (by norm_num), tested_zz_p (by norm_num) (by norm_num),
   tested_zz_p (by norm_num) (by norm_num), tested_zz_p (by norm_num) (by norm_num)⟩

theorem accumulate_one {n : Nat} (hn : n < 2 ^ 31) : accumulateInt [n] = n := by
  unfold accumulateInt
  simp only [List.foldl, zero_add]
  exact MPFSS.toInt32_eq hn

theorem hash_one (hT : Tested T) {n : Nat} (hn : n ≤ 2 ^ 24) : Scalar.canHash T (secPerLeaf (some (2 ^ 40)) (accumulateInt [n])) 128 = true := by
  rw [accumulate_one (by omega)]
  unfold secPerLeaf
  rw [if_neg (by omega)]
  have : (n : ℚ) ≤ 2 ^ 24 := by exact_mod_cast hn
  refine hT.hash (2 ^ 40 * ((n : Nat) : Int)) (by positivity) ?_
  push_cast
  nlinarith

theorem single {S : List (List T)} {n : Nat} (h : S.map List.length = [n]) : ∃ s, S = [s] ∧ s.length = n := by
  match S, h with
  | [s], h => exact ⟨s, rfl, by simpa using h⟩

theorem match_one {o o' : List T} {n : Nat} (h : o.length = n) (h' : o'.length = n) {i : Int} (h0 : 0 ≤ i) (hi : n = 0 ∨ i < n) : Matching [o] [o'] [i] where
  sizes := by simp [h, h']
  length := rfl
  range := by
    intro k o'' j ho hj
    match k with
    | 0 =>
      simp only [List.getElem?_cons_zero, Option.some.injEq] at ho hj
      subst ho; subst hj
      refine ⟨h0, fun hne => ?_⟩
      rcases hi with hi | hi
      · exact absurd (List.eq_nil_of_length_eq_zero (h'.trans hi)) hne
      · rw [h']; exact hi
    | k + 1 => simp at ho

/-! ### all_but_one_random_ot_test.cpp -/

/-- C69: `TestSmallVectors` and `TestEmpty`, with the creation of the objects: sizes up to 2^24. -/
theorem C69_rot (hT : Tested T) (aes : Cipher) {fl : Nat → Nat → Nat} (H : FaithfulDepth fl) {P Q : Party} (hPQ : Peers P Q) (c : Chans)
    (key seed : Nat → Block) {n : Nat} (hn : n ≤ 2 ^ 24) {index : Int} (h0 : 0 ≤ index) (hi : n = 0 ∨ index < n) {o o' : List T}
    (ho : o.length = n) (ho' : o'.length = n) :
    ∃ s r va vb, Computes
        (rotCreate P (some c) (some (2 ^ 40)) >>= fun sec => ROT.runSender aes fl c sec key seed o : PM (Msg T) _)
        (rotCreate Q (some c) (some (2 ^ 40)) >>= fun _ => ROT.runReceiver aes fl c index o' : PM (Msg T) _) (.ok s) (.ok r) va vb ∧
      s.length = n ∧ r.length = n ∧ ∀ i : Nat, (i : Int) ≠ index → s[i]? = r[i]? := by
  obtain ⟨S, R, va, vb, hc, l1, l2, h1, -, -⟩ := C07_all_but_one (T := T) aes fl c (some (2 ^ 40)) key seed [o] [o'] [index] (match_one ho ho' h0 hi)
    (by intro x hx; simp only [List.mem_singleton] at hx; subst hx; exact C68_good H (by omega)) (by
      rw [show List.map List.length [o] = [n] by simp [ho]]; exact hash_one hT hn)
  obtain ⟨s, rfl, hs⟩ := single (n := n) (l1.trans (by simp [ho]))
  obtain ⟨r, rfl, hr⟩ := single (n := n) (l2.trans (by simp [ho']))
  obtain ⟨va', vb', hj⟩ := bindOk' (rot_joint (T := T) hPQ c (sec := some (2 ^ 40)) (by rintro _ ⟨⟩; norm_num))
    (f := fun sec => ROT.runSender aes fl c sec key seed o) (g := fun _ => ROT.runReceiver aes fl c index o') (c := .ok s) (d := .ok r) (by
      unfold ROT.runSender ROT.runReceiver
      rw [if_neg (by omega)]
      exact bindOk' ⟨_, _, hc.joint⟩ ⟨_, _, Joint.ret _ _⟩)
  refine ⟨s, r, va', vb', hj.computes, hs, hr, ?_⟩
  intro i hne
  have := h1 0 i index rfl hne
  simpa [elem] using this

/-- C69: the tests of error messages. -/
theorem C69_rot_messages (aes : Cipher) (fl : Nat → Nat → Nat) (c : Chans) (P : Party) (x : T) (o : List T) (ho : o.length = 100) (y : T) :
    (runReceiverBatched aes fl c [] [[x]] : PM (Msg T) _) = .ret (.err .invalidArgument "`indices` and `outputs` must have the same size") ∧
    (ROT.runReceiver aes fl c (-1) (o ++ [y]) : PM (Msg T) _) = .ret (.err .invalidArgument "`index` out of range") ∧
    (ROT.runReceiver aes fl c 100 o : PM (Msg T) _) = .ret (.err .invalidArgument "`index` out of range") ∧
    (rotCreate P (some c) (some (1 / 2)) : PM (Msg T) _) = .ret (.err .invalidArgument "`statistical_security` must not be negative.") ∧
    (rotCreate P none (some (2 ^ 40)) : PM (Msg T) _) = .ret (.err .invalidArgument "`channel` must not be NULL") := by
  refine ⟨rfl, ?_, ?_, ?_, rfl⟩
  · unfold ROT.runReceiver; rw [if_pos (by omega)]; rfl
  · unfold ROT.runReceiver; rw [if_pos (by omega)]; rfl
  · unfold rotCreate; rw [show negative (some (1 / 2)) = true by simp [negative]; norm_num]; rfl

/-! ### spfss_known_index_test.cpp -/

/-- C69: `TestSmallVectors`, with the creation of the objects: sizes up to 2^24, all shares. -/
theorem C69_spfss (hT : Tested T) (aes : Cipher) {fl : Nat → Nat → Nat} (H : FaithfulDepth fl) {P Q : Party} (hPQ : Peers P Q) (c : Chans)
    (key seed : Nat → Block) {n : Nat} (hn : n ≤ 2 ^ 24) {index : Int} (h0 : 0 ≤ index) (hi : n = 0 ∨ index < n) (x y : T) {o o' : List T}
    (ho : o.length = n) (ho' : o'.length = n) :
    ∃ V W va vb, Computes
        (spfssCreate P (some c) (some (2 ^ 40)) >>= fun sec => SPFSS.runValueProviderSpan aes fl c sec key seed x o : PM (Msg T) _)
        (spfssCreate Q (some c) (some (2 ^ 40)) >>= fun _ => SPFSS.runIndexProviderSpan aes fl c y index o' : PM (Msg T) _) (.ok V) (.ok W) va vb ∧
      V.length = n ∧ W.length = n ∧ ∀ k : Nat, k < n → ∃ v w, V[k]? = some v ∧ W[k]? = some w ∧ v + w = if (k : Int) = index then x + y else 0 := by
  have := hT.lawful
  obtain ⟨S, R, va, vb, hc, l1, l2, h1⟩ := SPFSS.C10_point_function (T := T) aes fl c (some (2 ^ 40)) key seed [x] [y] [o] [o'] [index] (match_one ho ho' h0 hi)
    rfl rfl (by intro x hx; simp only [List.mem_singleton] at hx; subst hx; exact C68_good H (by omega)) (by
      rw [show List.map List.length [o] = [n] by simp [ho]]; exact hash_one hT hn)
  obtain ⟨s, rfl, hs⟩ := single (n := n) (l1.trans (by simp [ho]))
  obtain ⟨r, rfl, hr⟩ := single (n := n) (l2.trans (by simp [ho']))
  have hsec : ∀ f, (some (2 ^ 40) : Sec) = some f → 1 ≤ f := by rintro _ ⟨⟩; norm_num
  obtain ⟨va', vb', hj⟩ := bindOk' (rot_joint (T := T) hPQ c hsec)
    (f := fun sec => SPFSS.runValueProviderSpan aes fl c sec key seed x o) (g := fun _ => SPFSS.runIndexProviderSpan aes fl c y index o') (c := .ok s) (d := .ok r) (by
      unfold SPFSS.runValueProviderSpan SPFSS.runIndexProviderSpan
      exact bindOk' ⟨_, _, hc.joint⟩ ⟨_, _, Joint.ret _ _⟩)
  rw [spfss_eq P c hsec, spfss_eq Q c hsec]
  refine ⟨s, r, va', vb', hj.computes, hs, hr, ?_⟩
  intro k hk
  obtain ⟨v, w, e1, e2, e3⟩ := h1 0 k o index x y rfl rfl rfl rfl (by omega)
  exact ⟨v, w, by simpa [elem] using e1, by simpa [elem] using e2, e3⟩

/-- C69: `TestNullChannel`. -/
theorem C69_spfss_null (P : Party) : (spfssCreate P none (some (2 ^ 40)) : PM (Msg T) _) = .ret (.err .invalidArgument "`channel` must not be NULL") := rfl

/-! ### scalar_vector_gilboa_product_test.cpp -/

theorem good_length (hT : LawfulScalar T) {n : Nat} (hn : n ≤ 2 ^ 23) : Gilboa.GoodLength T n := by
  have h1 := LawfulScalar.size_pos (T := T)
  have h2 := LawfulScalar.size_le (T := T)
  have h3 : Gilboa.stride T ≤ 16 := Nat.div_le_self _ _
  have h4 : (n + Gilboa.stride T - 1) / Gilboa.stride T ≤ 2 ^ 23 + 15 := (Nat.div_le_self _ _).trans (by omega)
  refine ⟨by omega, ?_⟩
  have h5 : Gilboa.bitWidth T ≤ 128 := by unfold Gilboa.bitWidth; omega
  calc _ ≤ 128 * (2 ^ 23 + 15) := Nat.mul_le_mul h5 h4
    _ < 2 ^ 31 := by norm_num

/-- C69: `TestSmallVectors`, with the creation of the objects: sizes up to 2^23, all values and vectors. -/
theorem C69_gilboa (hT : LawfulScalar T) {P Q : Party} (hPQ : Peers P Q) (c : Chans) (m0 : Nat → Block) (rnd : Nat → List T) (x : T) {v : List T} (hn : v.length ≤ 2 ^ 23) :
    ∃ r0 r1 va vb, Computes
        (gilboaCreate P (some c) (some (2 ^ 40)) >>= fun sec => Gilboa.runVectorProvider' c sec m0 rnd v : PM (Msg T) _)
        (gilboaCreate Q (some c) (some (2 ^ 40)) >>= fun sec => Gilboa.runValueProvider' c sec x v.length : PM (Msg T) _) (.ok r0) (.ok r1) va vb ∧
      r0.length = v.length ∧ r1.length = v.length ∧ ∀ (k : Nat) (y : T), v[k]? = some y → ∃ a b, r0[k]? = some a ∧ r1[k]? = some b ∧ a + b = x * y := by
  obtain ⟨r0, r1, va, vb, hc, l1, l2, h1⟩ := Gilboa.C23_product hT c (some (2 ^ 40)) m0 rnd x v (List.replicate v.length 0) (List.replicate v.length 0)
    (by simp) (by simp) (good_length hT hn)
  obtain ⟨va', vb', hj⟩ := bindOk' (gilboa_joint (T := T) hPQ c (sec := some (2 ^ 40)) (by rintro _ ⟨⟩; norm_num))
    (f := fun sec => Gilboa.runVectorProvider' c sec m0 rnd v) (g := fun sec => Gilboa.runValueProvider' c sec x v.length) (c := .ok r0) (d := .ok r1) (by
      unfold Gilboa.runVectorProvider' Gilboa.runValueProvider'
      rw [if_neg (by omega), Int.toNat_natCast]
      exact ⟨_, _, hc.joint⟩)
  exact ⟨r0, r1, va', vb', hj.computes, l1, l2, h1⟩

/-- C69: `TestConversions`, for all values and multipliers. -/
theorem C69_conversions (hT : LawfulScalar T) (value multiplier : T) :
    ∃ b v2, Gilboa.spanToBlock (List.replicate (16 / Scalar.sizeOf T) value) multiplier = .ok b ∧ Gilboa.blockToVector T b = .ok v2 ∧
      v2 = List.replicate (16 / Scalar.sizeOf T) (value * multiplier) := by
  obtain ⟨b, r, h1, h2, h3, h4, -⟩ := Gilboa.C24_pack_roundtrip hT (List.replicate (16 / Scalar.sizeOf T) value) multiplier (by simp)
  refine ⟨b, r, h1, h2, List.ext_getElem? fun i => ?_⟩
  by_cases hi : i < 16 / Scalar.sizeOf T
  · rw [h4 i value (by simp [hi])]; simp [hi]
  · rw [List.getElem?_eq_none (by omega), List.getElem?_eq_none (by simp; omega)]

/-- C69: the tests of error messages (the modulus is 2^128 + 1 in the test of the length of integers). -/
theorem C69_gilboa_messages (c : Chans) (P : Party) (sec : Sec) (m0 : Nat → Block) (rnd : Nat → List T) (x y z : T) (rnd' : Nat → List (ZZp (2 ^ 128 + 1))) :
    (Gilboa.runValueProvider' c sec x (-1) : PM (Msg T) _) = .ret (.err .invalidArgument "`y_len` must not be negative") ∧
    (Gilboa.runValueProvider' c sec 0 0 : PM (Msg (ZZp (2 ^ 128 + 1))) _) = .ret (.err .invalidArgument "Integers may be at most 16 bytes long") ∧
    (Gilboa.runVectorProvider' c sec m0 rnd' [] : PM (Msg (ZZp (2 ^ 128 + 1))) _) = .ret (.err .invalidArgument "Integers may be at most 16 bytes long") ∧
    (Gilboa.runVectorProvider c sec m0 rnd [x] [y, z] : PM (Msg T) _) = .ret (.err .invalidArgument "`y` and `output` must have the same size") ∧
    (gilboaCreate P (some c) (some (1 / 2)) : PM (Msg T) _) = .ret (.err .invalidArgument "`statistical_security` must not be negative.") ∧
    (gilboaCreate P none (some (2 ^ 40)) : PM (Msg T) _) = .ret (.err .invalidArgument "`channel` must not be NULL") := by
  have hs : Scalar.sizeOf (ZZp (2 ^ 128 + 1)) = 17 := by decide +kernel
  refine ⟨rfl, ?_, ?_, rfl, ?_, rfl⟩
  · unfold Gilboa.runValueProvider' Gilboa.runValueProvider
    rw [if_neg (by omega), if_pos (by omega)]; rfl
  · unfold Gilboa.runVectorProvider' Gilboa.runVectorProvider
    rw [if_neg (by simp), if_pos (by omega)]; rfl
  · unfold gilboaCreate; rw [show negative (some (1 / 2)) = true by simp [negative]; norm_num]; rfl

/-! ### mpfss_known_indices_test.cpp -/

open MPFSS Cuckoo

/-- The hasher of an object created with `f = 2^s`. -/
def testHasher (aes : Cipher) (bits : Sec → Nat → Nat → Nat → Bool) (optimal : Sec → Nat → Nat → Int) (seed : Block) : Hasher :=
  (agreed aes bits optimal seed (some (2 ^ 40))).hasher

theorem test_buckets {optimal : Sec → Nat → Nat → Int} (H : Faithful optimal) (bits : Sec → Nat → Nat → Nat → Bool) (aes : Cipher) (seed : Block) {t : Nat} (h0 : 0 < t) (ht : t ≤ 2 ^ 12) :
    (t : Int) ≤ (testHasher aes bits optimal seed).optimal t ∧ (testHasher aes bits optimal seed).optimal t ≤ 2 ^ 27 := by
  show (t : Int) ≤ optimal (some (2 ^ 40 * 2)) 3 t ∧ optimal (some (2 ^ 40 * 2)) 3 t ≤ 2 ^ 27
  refine ⟨C67_enough H (by norm_num) h0, (H (2 ^ 40 * 2) (by norm_num) t h0).le ?_⟩
  have hs : Real.logb 2 ((2 ^ 40 * 2 : ℚ) : ℝ) = 41 := by
    rw [← pow_succ, Rat.cast_pow, Rat.cast_ofNat, Real.logb_pow, Real.logb_self_eq_one (by norm_num)]
    norm_num
  have hl : Real.logb 2 t ≤ 12 := by have := log_le h0 ht; exact_mod_cast this
  have e1 := estimate_le (s := 41) h0 (by norm_num) (by norm_num) (slope_ge h0)
  have ht' : (t : ℝ) ≤ 2 ^ 12 := by exact_mod_cast ht
  have e2 : estimate3 41 t ≤ 183 / 0.008 * 2 ^ 12 := by
    refine e1.trans (mul_le_mul ?_ ht' (Nat.cast_nonneg t) (by norm_num))
    exact div_le_div_of_nonneg_right (by linarith) (by norm_num)
  rw [hs]
  refine (mul_le_mul_of_nonneg_right e2 (show (0 : ℝ) ≤ 1 + 1 / 2 ^ 40 by norm_num)).trans ?_
  push_cast
  norm_num

theorem test_supported (hT : Tested T) (aes : Cipher) {fl : Nat → Nat → Nat} (H : FaithfulDepth fl) {bits : Sec → Nat → Nat → Nat → Bool}
    {optimal : Sec → Nat → Nat → Int} (F : Faithfully bits optimal) (seed : Block) {t m : Nat} (h0 : 0 < t) (ht : t ≤ 2 ^ 12) (htm : t ≤ m) (hm : m ≤ 2 ^ 20) :
    Supported T (testHasher aes bits optimal seed) fl (some (2 ^ 40 * 2)) t m := by
  obtain ⟨b1, b2⟩ := test_buckets F.buckets bits aes seed h0 ht
  refine { numHash := .inr rfl, pos := h0, le := htm, buckets_pos := by omega, buckets_lt := by omega, bits := ?_, size := ?_, trees := ?_, canHash := ?_ }
  · refine C68_accepted F.bits (f := 2 ^ 40 * 2) (by norm_num) (by omega) (by omega) ?_
    generalize (testHasher aes bits optimal seed).optimal t = N at b1 b2
    have e1 : (m : ℚ) ≤ 2 ^ 20 := by exact_mod_cast hm
    have e2 : ((N.toNat : Nat) : ℚ) ≤ 2 ^ 27 := by exact_mod_cast (show N.toNat ≤ 2 ^ 27 by omega)
    calc (2 : ℚ) ^ 40 * 2 * m * ((3 : Nat) : ℚ) * (N.toNat : Nat) ≤ 2 ^ 40 * 2 * 2 ^ 20 * ((3 : Nat) : ℚ) * 2 ^ 27 := by gcongr
      _ ≤ 3 * 2 ^ 126 := by norm_num
  · show 3 * m < 2 ^ 31; omega
  · intro n hn
    change n ≤ 3 * m at hn
    exact C68_good H (by omega)
  · show Scalar.canHash T (secPerLeaf (some (2 ^ 40 * 2)) ((3 * m : Nat) : Int)) 128 = true
    unfold secPerLeaf
    rw [if_neg (by omega)]
    have : (m : ℚ) ≤ 2 ^ 20 := by exact_mod_cast hm
    refine hT.hash (2 ^ 40 * 2 * ((3 * m : Nat) : Int)) (by positivity) ?_
    push_cast
    nlinarith

/-- C69: `TestVectorOLEVaryingSizes` and `TestVectorOLEVaryingNumIndices`, after any history of the two objects, with
    up to 2^12 distinct indices into outputs of up to 2^20 elements and any correlation with the number of elements
    that `NumBuckets` returns, if the indices can be hashed. -/
theorem C69_mpfss (hT : Tested T) (aes : Cipher) {fl : Nat → Nat → Nat} (H : FaithfulDepth fl) {bits : Sec → Nat → Nat → Nat → Bool}
    {optimal : Sec → Nat → Nat → Int} (F : Faithfully bits optimal) (c : Chans) (key seed : Nat → Block) (sd : Block) {t m : Nat} (h0 : 0 < t)
    (ht : t ≤ 2 ^ 12) (htm : t ≤ m) (hm : m ≤ 2 ^ 20) (thrV thrI : Nat → List Nat) (htV : Threads thrV) (htI : Threads thrI) (stV stI : State)
    (hV : Reached T (testHasher aes bits optimal sd) stV) (hI : Reached T (testHasher aes bits optimal sd) stI) (x : T) (y outV outI : List T)
    (indices : List Int) (hy : y.length = t) (hi : indices.length = t) (hoV : outV.length = m) (hoI : outI.length = m) (hn : indices.Nodup) (hr : InRange m indices) :
    ∃ N : Nat, numBuckets (testHasher aes bits optimal sd) t = .ok (N : Int) ∧ t ≤ N ∧ N ≤ 2 ^ 27 ∧ (∀ w u v : List T, w.length = N → u.length = N → v.length = N →
      (∀ (j : Nat) (uj vj wj : T), u[j]? = some uj → v[j]? = some vj → w[j]? = some wj → wj = uj * x + vj) →
      (∃ hashed, hashCuckoo (testHasher aes bits optimal sd) (indices.map indexBlock) N = .ok hashed) →
      ∃ r0 r1 va vb, Computes (runValueProviderVectorOLE aes fl c (some (2 ^ 40 * 2)) key seed thrV stV x t w outV)
          (runIndexProviderVectorOLE aes fl c thrI stI y indices u v outI) r0 r1 va vb ∧
        r0.status = .ok () ∧ r1.status = .ok () ∧ r0.output.length = m ∧ r1.output.length = m ∧
        ∀ k < m, ∃ a b, r0.output[k]? = some a ∧ r1.output[k]? = some b ∧
          (∀ (i : Nat) (yi : T), indices[i]? = some (k : Int) → y[i]? = some yi → a + b = x * yi) ∧ ((k : Int) ∉ indices → a + b = 0)) := by
  have := hT.lawful
  have S := test_supported hT aes H F sd h0 ht htm hm
  obtain ⟨b1, b2⟩ := test_buckets F.buckets bits aes sd h0 ht
  obtain ⟨N, hN⟩ := Int.eq_ofNat_of_zero_le (show 0 ≤ (testHasher aes bits optimal sd).optimal t by omega)
  refine ⟨N, ?_, by omega, by omega, ?_⟩
  · unfold numBuckets getOptimalNumberOfBuckets
    rw [if_neg (by omega), if_neg (by omega), if_pos (.inl (by rfl)), Int.toNat_natCast, hN]
    unfold toInt64
    rw [if_pos (by constructor <;> omega)]
    show Out.ok (BitVec.ofInt 32 (N : Int)).toInt = _
    have := toInt32_eq (n := N) (by omega)
    unfold toInt32 at this
    rw [BitVec.ofInt_natCast, this]
  · intro w u v hw hu hv hcorr hok
    obtain ⟨r0, r1, va, vb, hc, e1, e2, e3, e4, e5⟩ := C18_shares aes fl c (some (2 ^ 40 * 2)) key seed _ t m S thrV thrI htV htI stV stI hV hI x w outV y indices u v outI
      ⟨hy, hi, hoV, hoI, by rw [hN, hw], by rw [hN, hu], by rw [hN, hv], hcorr⟩ hr (by rw [hN]; exact hok)
    refine ⟨r0, r1, va, vb, hc, e1, e2, e3, e4, ?_⟩
    intro k hk
    obtain ⟨a, b, ha, hb, hab⟩ := e5 k hk
    refine ⟨a, b, ha, hb, ?_⟩
    rw [hab]
    exact C18_pointSum_distinct x y indices hn k

/-- C69: the tests of error messages. -/
theorem C69_mpfss_messages (aes : Cipher) (fl : Nat → Nat → Nat) (c : Chans) (sec : Sec) (key seed : Nat → Block) (thr : Nat → List Nat) (st : State) (a b x : T) :
    runIndexProviderVectorOLE aes fl c thr st [x] [0, 1] [] [] [a, b] = .ret ⟨.err .invalidArgument "`y` and `indices` must have the same size", [a, b], st⟩ ∧
    runIndexProviderVectorOLE aes fl c thr st [x, x] [0, 1] [] [] [a] = .ret ⟨.err .invalidArgument "`output` must be at least as long as `indices`", [a], st⟩ ∧
    runIndexProviderVectorOLE aes fl c thr st [] [] [] [] [a] = .ret ⟨.err .invalidArgument "`y` and `indices` must not be empty", [a], st⟩ ∧
    runValueProviderVectorOLE aes fl c sec key seed thr st x (-1) [] [a] = .ret ⟨.err .invalidArgument "`y_len` must be positive", [a], st⟩ :=
  ⟨rfl, rfl, rfl, rfl⟩

/-- C69: `TestRepeatingIndices`. (With three indices of which two are equal, the result can be OK: C21.) -/
theorem C69_mpfss_repeating (hT : Tested T) (aes : Cipher) {fl : Nat → Nat → Nat} (H : FaithfulDepth fl) {bits : Sec → Nat → Nat → Nat → Bool}
    {optimal : Sec → Nat → Nat → Int} (F : Faithfully bits optimal) (c : Chans) (sd : Block) (thr : Nat → List Nat) (ht : Threads thr) (st : State)
    (hst : Reached T (testHasher aes bits optimal sd) st) (x y a b : T) :
    ∃ r : Res T, runIndexProviderVectorOLE aes fl c thr st [x, y] [0, 0] [] [] [a, b] = .ret r ∧
      r.status = .err .invalidArgument "All `indices` must be unique" ∧ r.output = [a, b] := by
  have S := test_supported hT aes H F sd (t := 2) (m := 2) (by omega) (by omega) (by omega) (by omega)
  obtain ⟨b1, b2⟩ := test_buckets F.buckets bits aes sd (t := 2) (by omega) (by omega)
  refine C21_rejected_if_hashing_fails_partial aes fl c _ _ 2 2 S thr ht st hst [x, y] [0, 0] [] [] [a, b] rfl rfl rfl ?_ (by simp) ?_ S.bits b1
  · intro i hi; simp at hi; omega
  · rintro ⟨hashed, e⟩
    have := C55_negation_two_inputs (testHasher aes bits optimal sd) (by show 2 ≤ 3; omega) (indexBlock 0) (indexBlock 0)
      ((testHasher aes bits optimal sd).optimal 2) (by omega) (by omega) S.bits rfl
    change hashCuckoo _ [indexBlock 0, indexBlock 0] _ = _ at e
    rw [this] at e
    cases e

/-! ### distributed_vector_ole_test.cpp -/

open VOLE

/-- C69: `zz_p` with a modulus `p` is suitable exactly if `2^s * (2^128 mod p) * 30 * 10616092 < 2^128`. (C68 has a bound
    that does not need the remainder.) -/
theorem C69_zz_p {p : Nat} (hp : 0 < p) {f : ℚ} (hf : 1 ≤ f) : Suitable (Zzp p) (some f) ↔ ((2 ^ 128 % p : Nat) : ℚ) * f * 318482760 < 2 ^ 128 := by
  have hz : nonzeros = 10 := rfl
  have key := canHashMod_iff hp
  generalize 2 ^ 128 % p = r at key ⊢
  have h0 : (0 : ℚ) ≤ (r : ℚ) * f := mul_nonneg (Nat.cast_nonneg _) (by linarith)
  constructor
  · intro h
    have := h.elements 10616092 (le_refl _)
    change canHashMod p (secPerLeaf (some (f * 3)) (nonzeros * ((10616092 : Nat) : Int))) 128 = true at this
    unfold secPerLeaf at this
    rw [hz, if_neg (by omega)] at this
    have := (key _).1 this
    push_cast at this
    linarith
  · intro h
    constructor
    · intro m hm
      show canHashMod p (secPerLeaf (some (f * 3 * 2)) ((3 * m : Nat) : Int)) 128 = true
      unfold secPerLeaf
      rw [if_neg (by omega)]
      refine (key _).2 ?_
      have hm' : (m : ℚ) ≤ 10616092 := by exact_mod_cast hm
      push_cast
      nlinarith [mul_le_mul_of_nonneg_left hm' h0]
    · intro m hm
      show canHashMod p (secPerLeaf (some (f * 3)) (nonzeros * (m : Int))) 128 = true
      unfold secPerLeaf
      rw [hz, if_neg (by omega)]
      refine (key _).2 ?_
      have hm' : (m : ℚ) ≤ 10616092 := by exact_mod_cast hm
      push_cast
      nlinarith [mul_le_mul_of_nonneg_left hm' h0]

/-- C69: `gf128` is suitable for every statistical security. -/
theorem C69_gf128 (sec : Sec) : Suitable GF128 sec := ⟨fun _ _ => rfl, fun _ _ => rfl⟩

/-- C69: all element types of the test with 40 bits of statistical security. For the modulus 2^60 - 93 this depends on the
    remainder of 2^128, which is 2214144; the bound of C68 does not suffice. -/
theorem C69_vole_types : Suitable (BitVec 8) (some (2 ^ 40)) ∧ Suitable (BitVec 16) (some (2 ^ 40)) ∧ Suitable (BitVec 32) (some (2 ^ 40)) ∧
    Suitable (BitVec 64) (some (2 ^ 40)) ∧ Suitable (BitVec 128) (some (2 ^ 40)) ∧ Suitable GF128 (some (2 ^ 40)) ∧
    Suitable (Zzp 1152921504606846883) (some (2 ^ 40)) :=
  ⟨C68_uint 8 (by norm_num) _, C68_uint 16 (by norm_num) _, C68_uint 32 (by norm_num) _, C68_uint 64 (by norm_num) _, C68_uint 128 (by norm_num) _,
   C69_gf128 _, (C69_zz_p (by norm_num) (by norm_num)).2 (by norm_num)⟩

/-- Another prime below 2^60, with a large remainder, is refused. -/
example : ¬ Suitable (Zzp 1119275715272449771) (some (2 ^ 40)) := by
  rw [C69_zz_p (by norm_num) (by norm_num)]; norm_num

/-- C69: `TestSmallVectors`, with the creation of the objects, for every `delta`. -/
theorem C69_vole_small [LawfulScalar T] {P Q : Party} {A B : Env T} (W : World P Q A B) {bits : Sec → Nat → Nat → Nat → Bool} {optimal : Sec → Nat → Nat → Int}
    (F : Faithfully bits optimal) (seed seed' : Block) (S : Suitable T (some (2 ^ 40)))
    (LA : Lucky (commonHasher bits optimal P seed seed' (some (2 ^ 40)) A.aes) A) (LB : Lucky (commonHasher bits optimal P seed seed' (some (2 ^ 40)) A.aes) B)
    (junk junk' delta : T) (hA : 200 ≤ A.fuel) (hB : 200 ≤ B.fuel) :
    ∃ x1 x2 x3 y1 y2 y3 s r va vb,
      Computes (program bits optimal P seed (some (2 ^ 40)) A true junk [.precompute true 50 delta, .run true 1, .run true 2, .run true 123])
        (program bits optimal Q seed' (some (2 ^ 40)) B false junk' [.precompute true 50 delta, .run true 1, .run true 2, .run true 123])
        (.ok [.done, .sent x1, .sent x2, .sent x3], some s) (.ok [.done, .rcvd y1, .rcvd y2, .rcvd y3], some r) va vb ∧
      (x1.u.length = 1 ∧ y1.delta = delta ∧ Correlated delta x1.u x1.v y1.w) ∧ (x2.u.length = 2 ∧ y2.delta = delta ∧ Correlated delta x2.u x2.v y2.w) ∧
      (x3.u.length = 123 ∧ y3.delta = delta ∧ Correlated delta x3.u x3.v y3.w) := by
  obtain ⟨as, s, bs, r, va, vb, hc, ha, -⟩ := C68_success W F seed seed' (by norm_num) (by norm_num) S LA LB junk junk'
    [.precompute true 50 delta, .run true 1, .run true 2, .run true 123] (by
      intro op hop
      simp only [List.mem_cons, List.not_mem_nil, or_false] at hop
      rcases hop with rfl | rfl | rfl | rfl <;> simp [Op.Valid] <;> omega) (.inl (by
      intro op hop
      simp only [List.mem_cons, List.not_mem_nil, or_false] at hop
      rcases hop with rfl | rfl | rfl | rfl <;> rfl))
  obtain ⟨a1, as1, b1, bs1, d1, rfl, rfl, h1⟩ := ha
  obtain ⟨⟨rfl, rfl, rfl⟩, a2, as2, b2, bs2, d2, rfl, rfl, h2⟩ := h1
  obtain ⟨⟨e2, x1, y1, rfl, rfl, f2, g2, c2⟩, a3, as3, b3, bs3, d3, rfl, rfl, h3⟩ := h2
  obtain ⟨⟨e3, x2, y2, rfl, rfl, f3, g3, c3⟩, a4, as4, b4, bs4, d4, rfl, rfl, h4⟩ := h3
  obtain ⟨⟨e4, x3, y3, rfl, rfl, f4, g4, c4⟩, rfl, rfl⟩ := h4
  have e2 : d2 = d1 := by rcases e2 with e | e <;> cases e; rfl
  subst e2
  have e3 : d3 = d2 := by rcases e3 with e | e <;> cases e; rfl
  subst e3
  have e4 : d4 = d3 := by rcases e4 with e | e <;> cases e; rfl
  subst e4
  exact ⟨x1, x2, x3, y1, y2, y3, s, r, va, vb, hc, ⟨by omega, f2, c2⟩, ⟨by omega, f3, c3⟩, ⟨by omega, f4, c4⟩⟩

/-- C69: `TestLargeVector`. -/
theorem C69_vole_large [LawfulScalar T] {P Q : Party} {A B : Env T} (W : World P Q A B) {bits : Sec → Nat → Nat → Nat → Bool} {optimal : Sec → Nat → Nat → Int}
    (F : Faithfully bits optimal) (seed seed' : Block) (S : Suitable T (some (2 ^ 40)))
    (LA : Lucky (commonHasher bits optimal P seed seed' (some (2 ^ 40)) A.aes) A) (LB : Lucky (commonHasher bits optimal P seed seed' (some (2 ^ 40)) A.aes) B)
    (junk junk' : T) (hA : 500200 ≤ A.fuel) (hB : 500200 ≤ B.fuel) :
    ∃ x y s r va vb,
      Computes (program bits optimal P seed (some (2 ^ 40)) A true junk [.run true 500000]) (program bits optimal Q seed' (some (2 ^ 40)) B false junk' [.run true 500000])
        (.ok [.sent x], some s) (.ok [.rcvd y], some r) va vb ∧ x.u.length = 500000 ∧ Correlated y.delta x.u x.v y.w := by
  obtain ⟨as, s, bs, r, va, vb, hc, ha, -⟩ := C68_success W F seed seed' (by norm_num) (by norm_num) S LA LB junk junk' [.run true 500000] (by
      intro op hop
      simp only [List.mem_cons, List.not_mem_nil, or_false] at hop
      rcases hop with rfl
      simp [Op.Valid]; omega) (.inl (by
      intro op hop
      simp only [List.mem_cons, List.not_mem_nil, or_false] at hop
      rcases hop with rfl
      rfl))
  obtain ⟨a1, as1, b1, bs1, d1, rfl, rfl, ⟨-, x, y, rfl, rfl, f, g, cc⟩, rfl, rfl⟩ := ha
  exact ⟨x, y, s, r, va, vb, hc, by omega, by rw [f]; exact cc⟩

/-! ### Examples -/

example (key seed : Nat → Block) := C69_rot tested_gf128 exCipher exactDepth_faithful (P := ⟨true, false, .ok (), .ok ()⟩) (Q := ⟨false, false, .ok (), .ok ()⟩)
  ⟨rfl, rfl, rfl, rfl, rfl, rfl⟩ ⟨0, 1, 2⟩ key seed (n := 14) (by norm_num) (index := 13) (by norm_num) (by norm_num) (List.length_replicate (a := 0)) (List.length_replicate (a := 0))

example (key seed : Nat → Block) := C69_spfss C69_types.2.2.1 exCipher exactDepth_faithful (P := ⟨true, false, .ok (), .ok ()⟩) (Q := ⟨false, false, .ok (), .ok ()⟩)
  ⟨rfl, rfl, rfl, rfl, rfl, rfl⟩ ⟨0, 1, 2⟩ key seed (n := 14) (by norm_num) (index := 13) (by norm_num) (by norm_num) 23 42 (List.length_replicate (a := 0)) (List.length_replicate (a := 0))

example (m0 : Nat → Block) (rnd : Nat → List (BitVec 32)) := C69_gilboa (T := BitVec 32) inferInstance (P := ⟨true, false, .ok (), .ok ()⟩) (Q := ⟨false, false, .ok (), .ok ()⟩)
  ⟨rfl, rfl, rfl, rfl, rfl, rfl⟩ ⟨0, 1, 2⟩ m0 rnd (-42) (v := [0, 1, 2, 3, 4, 5, 6]) (by norm_num)

example := C69_conversions (T := BitVec 16) inferInstance (-42) 23

/-- With a cipher that puts the three indices into different buckets, and correlations of zeros. -/
example (key seed : Nat → Block) (x : BitVec 64) : ∃ (w u v : List (BitVec 64)) (r0 r1 : Res (BitVec 64)) (va vb : _),
    Computes (runValueProviderVectorOLE (fun _ _ => 0) exactDepth ⟨0, 1, 2⟩ (some (2 ^ 40 * 2)) key seed exThr (.new (testHasher (fun _ _ => 0) exactBits exact3 0)) x 3 w (List.replicate 50 0))
      (runIndexProviderVectorOLE (fun _ _ => 0) exactDepth ⟨0, 1, 2⟩ exThr (.new (testHasher (fun _ _ => 0) exactBits exact3 0)) [7, 8, 9] [0, 1, 2] u v (List.replicate 50 0)) r0 r1 va vb ∧
    r0.status = .ok () ∧ r1.status = .ok () := by
  have F : Faithfully exactBits exact3 := ⟨exact3_faithful, exactBits_faithful⟩
  obtain ⟨N, -, hN, hN', h⟩ := C69_mpfss C69_types.2.2.2.1 (fun _ _ => 0) exactDepth_faithful F ⟨0, 1, 2⟩ key seed 0 (t := 3) (m := 50)
    (by norm_num) (by norm_num) (by norm_num) (by norm_num) exThr exThr exThr_threads exThr_threads _ _ .new .new x [7, 8, 9] (List.replicate 50 0) (List.replicate 50 0) [0, 1, 2]
    rfl rfl rfl rfl (by decide) (by intro i hi; simp at hi; omega)
  obtain ⟨r0, r1, va, vb, hc, e1, e2, -⟩ := h (List.replicate N 0) (List.replicate N 0) (List.replicate N 0) (by simp) (by simp) (by simp) (by
      intro j uj vj wj h1 h2 h3
      obtain rfl := (List.mem_replicate.1 (List.mem_of_getElem? h1)).2
      obtain rfl := (List.mem_replicate.1 (List.mem_of_getElem? h2)).2
      obtain rfl := (List.mem_replicate.1 (List.mem_of_getElem? h3)).2
      bv_omega) (by
      refine hashCuckoo_distinct _ (by show 2 ≤ 3; omega) (by omega) (by omega) _ (by simp; omega) ?_ ?_
      · refine C68_accepted exactBits_faithful (f := 2 ^ 40 * 2) (by norm_num) (by omega) (by omega) ?_
        have e2 : (N : ℚ) ≤ 2 ^ 27 := by exact_mod_cast hN'
        rw [Int.toNat_natCast]
        calc (2 : ℚ) ^ 40 * 2 * ((3 : Nat) : ℚ) * ((3 : Nat) : ℚ) * N ≤ 2 ^ 40 * 2 * ((3 : Nat) : ℚ) * ((3 : Nat) : ℚ) * 2 ^ 27 := by gcongr
          _ ≤ 3 * 2 ^ 126 := by norm_num
      · have hb : ∀ i < 3, bucketOf (fun _ => 0) N (indexBlock (i : Nat)) 0 = i := fun i hi => by
          unfold bucketOf digest indexBlock
          rw [if_pos rfl, show (0 : Block) ^^^ BitVec.ofInt 128 (i : Int) = BitVec.ofNat 128 i by rw [BitVec.ofInt_natCast]; exact BitVec.zero_xor, BitVec.toNat_ofNat]
          rw [Nat.mod_eq_of_lt (a := i) (b := 2 ^ 128) (by omega), Nat.mod_eq_of_lt (by omega)]
        show [bucketOf (fun _ => 0) N (indexBlock (0 : Nat)) 0, bucketOf (fun _ => 0) N (indexBlock (1 : Nat)) 0, bucketOf (fun _ => 0) N (indexBlock (2 : Nat)) 0].Nodup
        rw [hb 0 (by omega), hb 1 (by omega), hb 2 (by omega)]
        decide)
  exact ⟨_, _, _, r0, r1, va, vb, hc, e1, e2⟩

example (x y a b : BitVec 64) := C69_mpfss_repeating C69_types.2.2.2.1 exCipher exactDepth_faithful ⟨exact3_faithful, exactBits_faithful⟩ ⟨0, 1, 2⟩ 5 exThr exThr_threads _ .new x y a b

example (d : BitVec 64) := C69_vole_small ex_world ⟨exact3_faithful, exactBits_faithful⟩ 3 4 C69_vole_types.2.2.2.1 (ex_lucky _ _ _ _ _) (ex_lucky _ _ _ _ _) 0 7 d (by simp [exEnv, toyEnv]) (by simp [exEnv, toyEnv])
example := C69_vole_large ex_world ⟨exact3_faithful, exactBits_faithful⟩ 3 4 C69_vole_types.2.2.2.1 (ex_lucky _ _ _ _ _) (ex_lucky _ _ _ _ _) 0 7 (by simp [exEnv, toyEnv]) (by simp [exEnv, toyEnv])

end DVO.Tests
