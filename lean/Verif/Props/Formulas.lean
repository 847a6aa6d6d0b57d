/-
C68: the floating-point formulas for the depth of trees and the length of hashes; objects made by `Create`.
-/
import Verif.Model.Formulas
import Verif.Props.Buckets
import Verif.Props.Errors
import Verif.Props.GGM

set_option linter.unusedSectionVars false

namespace DVO.GGM
open Real Cuckoo

/-- `fl` computes the depth of trees with a relative error of at most 2^-40, rounded up. -/
def FaithfulDepth (fl : Nat → Nat → Nat) : Prop := ∀ n a, 0 < n → 2 ≤ a → Rounded (depth n a) (fl n a)

/-- Exact computation is faithful. -/
noncomputable def exactDepth (n a : Nat) : Nat := ⌈depth n a⌉.toNat

theorem depth_nonneg (n a : Nat) : 0 ≤ depth n a := div_nonneg (Real.log_natCast_nonneg n) (Real.log_natCast_nonneg a)

theorem exactDepth_faithful : FaithfulDepth exactDepth := fun n a _ _ =>
  ⟨depth n a, by rw [sub_self, abs_zero]; exact div_nonneg (depth_nonneg n a) (by norm_num), Int.toNat_of_nonneg (Int.ceil_nonneg (depth_nonneg n a))⟩

/-- C68: trees with up to 2^33 leaves, of any arity, are deep enough, in spite of rounding. -/
theorem C68_deep {fl : Nat → Nat → Nat} (H : FaithfulDepth fl) {n a : Nat} (hn : 0 < n) (hn' : n ≤ 2 ^ 33) (ha : 2 ≤ a) : n ≤ a ^ fl n a := by
  by_contra hc
  push Not at hc
  obtain ⟨y, h1, h2⟩ := H n a hn ha
  have hy : y ≤ fl n a := by
    have := Int.le_ceil y
    rw [← h2] at this
    exact_mod_cast this
  have hl : 0 < Real.log a := Real.log_pos (by exact_mod_cast ha)
  have hn0 : (0 : ℝ) < n := by exact_mod_cast hn
  have hp0 : (0 : ℝ) < (a : ℝ) ^ fl n a := by positivity
  have h3 : ((a : ℝ) ^ fl n a) + 1 ≤ n := by exact_mod_cast hc
  -- the depth exceeds the number of levels by at least `1 / (n log a)`
  have h4 : fl n a * Real.log a + 1 / n ≤ Real.log n := by
    have e1 : Real.log n - fl n a * Real.log a = Real.log (n / (a : ℝ) ^ fl n a) := by
      rw [Real.log_div hn0.ne' hp0.ne', Real.log_pow]
    have e2 := Real.one_sub_inv_le_log_of_pos (div_pos hn0 hp0)
    rw [inv_div] at e2
    have e3 : 1 / (n : ℝ) ≤ 1 - (a : ℝ) ^ fl n a / n := by
      rw [le_sub_iff_add_le, ← add_div, div_le_one hn0]
      linarith
    linarith
  have h5 : Real.log n ≤ 23 := by
    have e1 : Real.log n ≤ Real.log (2 ^ 33) := Real.log_le_log hn0 (by exact_mod_cast hn')
    rw [Real.log_pow] at e1
    have := Real.log_two_lt_d9
    push_cast at e1
    linarith
  have h6 := (abs_le.1 h1).1
  have h7 : depth n a * (1 - 1 / 2 ^ 40) ≤ fl n a := by linarith
  unfold depth at h7
  rw [div_mul_eq_mul_div, div_le_iff₀ hl] at h7
  have h8 : 1 / (n : ℝ) ≤ 23 / 2 ^ 40 := by linarith
  rw [div_le_div_iff₀ hn0 (by norm_num)] at h8
  have h9 : (n : ℝ) ≤ 2 ^ 33 := by exact_mod_cast hn'
  linarith

/-- C68: and they are at most one level deeper than necessary. -/
theorem C68_shallow {fl : Nat → Nat → Nat} (H : FaithfulDepth fl) {n a k : Nat} (hn : 0 < n) (ha : 2 ≤ a) (hk : n ≤ a ^ k) (hk' : k ≤ 2 ^ 40) :
    fl n a ≤ k + 1 := by
  have hl : 0 < Real.log a := Real.log_pos (by exact_mod_cast ha)
  have h1 : depth n a ≤ k := by
    unfold depth
    rw [div_le_iff₀ hl, ← Real.log_pow]
    exact Real.log_le_log (by exact_mod_cast hn) (by exact_mod_cast hk)
  have h2 := (H n a hn ha).le (c := k + 1) (by
    have h3 := mul_le_mul_of_nonneg_right h1 (show (0 : ℝ) ≤ 1 + 1 / 2 ^ 40 by norm_num)
    have h4 : (k : ℝ) ≤ 2 ^ 40 := by exact_mod_cast hk'
    push_cast
    linarith)
  exact_mod_cast h2

/-- C68: so every size up to 2^31 is good for the protocols. -/
theorem C68_good {fl : Nat → Nat → Nat} (H : FaithfulDepth fl) {n : Nat} (hn : n ≤ 2 ^ 31) : ROT.GoodSize fl n where
  le := hn
  cover := fun h0 => C68_deep H h0 (by omega) (le_refl 2)
  shift := fun h0 => by have := C68_shallow H h0 (le_refl 2) hn (by omega); omega

/-- C68: `GGMTree::Create` succeeds for every arity from 2 on and up to 2^33 leaves. -/
theorem C68_tree {fl : Nat → Nat → Nat} (H : FaithfulDepth fl) (aes : Cipher) {n : Int} (hn : 0 < n) (hn' : n ≤ 2 ^ 33) (seed : Block) {keys : List Block}
    (hk : 2 ≤ keys.length) : ∃ t, create aes fl n seed keys = .ok t :=
  (C01_create_ok_iff aes fl n seed keys).2 ⟨hk, hn, C68_deep H (by omega) (by omega) hk⟩

example : 5 ≤ 2 ^ exactDepth 5 2 ∧ exactDepth 5 2 ≤ 4 := ⟨C68_deep exactDepth_faithful (by omega) (by omega) (by omega), C68_shallow exactDepth_faithful (by omega) (by omega) (k := 3) (by omega) (by omega)⟩

end DVO.GGM

namespace DVO.Cuckoo
open Real

/-- `bits` decides `bits_needed > 128`, computed with a relative error of at most 2^-40, for every
    statistical security that is a non-negative number; for no inputs `bits_needed` is `-inf`. All
    comparisons with NaN are false. -/
structure FaithfulBits (bits : Sec → Nat → Nat → Nat → Bool) : Prop where
  number : ∀ f : ℚ, 1 ≤ f → ∀ k m b, 0 < k → 0 < m → 0 < b →
    ∃ y : ℝ, |y - bitsNeeded (logb 2 f) k m b| ≤ bitsNeeded (logb 2 f) k m b / 2 ^ 40 ∧ (bits (some f) k m b = true ↔ 128 < y)
  zero : ∀ sec k b, bits sec k 0 b = false
  nan : ∀ k m b, bits none k m b = false

open Classical in
/-- Exact computation is faithful. -/
noncomputable def exactBits : Sec → Nat → Nat → Nat → Bool
  | none, _, _, _ => false
  | some f, k, m, b => decide (m ≠ 0 ∧ 128 < bitsNeeded (logb 2 f) k m b)

theorem bitsNeeded_eq {f : ℚ} (hf : 1 ≤ f) {k m b : Nat} (hk : 0 < k) (hm : 0 < m) (hb : 0 < b) : bitsNeeded (logb 2 f) k m b = logb 2 (f * m * k * b) := by
  have h0 : (0 : ℝ) < f := by exact_mod_cast (lt_of_lt_of_le zero_lt_one hf)
  have h1 : (0 : ℝ) < m := by exact_mod_cast hm
  have h2 : (0 : ℝ) < k := by exact_mod_cast hk
  have h3 : (0 : ℝ) < b := by exact_mod_cast hb
  unfold bitsNeeded
  rw [Real.logb_mul (by positivity) (by positivity), Real.logb_mul (by positivity) (by positivity), Real.logb_mul (by positivity) (by positivity)]

theorem bitsNeeded_nonneg {f : ℚ} (hf : 1 ≤ f) (k m b : Nat) : 0 ≤ bitsNeeded (logb 2 f) k m b := by
  have key : ∀ n : Nat, 0 ≤ logb 2 (n : ℝ) := fun n => div_nonneg (Real.log_natCast_nonneg n) (Real.log_nonneg (by norm_num))
  have := sec_nonneg hf
  have := key k
  have := key m
  have := key b
  unfold bitsNeeded
  linarith

theorem exactBits_faithful : FaithfulBits exactBits where
  number f hf k m b _ hm _ := ⟨bitsNeeded (logb 2 f) k m b, by
    rw [sub_self, abs_zero]; exact div_nonneg (bitsNeeded_nonneg hf k m b) (by norm_num), by simp [exactBits]; intro _; omega⟩
  zero sec k b := by cases sec <;> simp [exactBits]
  nan _ _ _ := rfl

/-- C68: sizes are accepted if `2^s * inputs * hashes * buckets` is at most `3 * 2^126`, about `2^127.58`. -/
theorem C68_accepted {bits : Sec → Nat → Nat → Nat → Bool} (H : FaithfulBits bits) {f : ℚ} (hf : 1 ≤ f) {k m b : Nat} (hk : 0 < k) (hb : 0 < b)
    (h : f * m * k * b ≤ 3 * 2 ^ 126) : bits (some f) k m b = false := by
  rcases Nat.eq_zero_or_pos m with rfl | hm
  · exact H.zero _ _ _
  obtain ⟨y, h1, h2⟩ := H.number f hf k m b hk hm hb
  rw [Bool.eq_false_iff]
  intro hc
  have h3 := h2.1 hc
  have h4 := (abs_le.1 h1).2
  have h5 : bitsNeeded (logb 2 f) k m b ≤ 127.6 := by
    rw [bitsNeeded_eq hf hk hm hb]
    have h0 : (0 : ℝ) < f := by exact_mod_cast (lt_of_lt_of_le zero_lt_one hf)
    have h6 : (0 : ℝ) < f * m * k * b := by
      have h1 : (0 : ℝ) < m := by exact_mod_cast hm
      have h2 : (0 : ℝ) < k := by exact_mod_cast hk
      have h3 : (0 : ℝ) < b := by exact_mod_cast hb
      positivity
    have h7 : ((f : ℝ) * m * k * b) ≤ 3 * 2 ^ 126 := by exact_mod_cast h
    have h8 := Real.logb_le_logb_of_le (b := 2) (by norm_num) h6 h7
    rw [Real.logb_mul (x := 3) (by norm_num) (by norm_num), Real.logb_pow, Real.logb_self_eq_one (by norm_num), mul_one] at h8
    have h9 := log_le_of_pow (x := 3) (by norm_num) (p := 8) (q := 5) (by norm_num)
    push_cast at h8 h9
    linarith
  linarith

/-- C68: and rejected if it is at least `2^129` (and there are inputs). -/
theorem C68_rejected {bits : Sec → Nat → Nat → Nat → Bool} (H : FaithfulBits bits) {f : ℚ} (hf : 1 ≤ f) {k m b : Nat} (hk : 0 < k) (hm : 0 < m) (hb : 0 < b)
    (h : 2 ^ 129 ≤ f * m * k * b) : bits (some f) k m b = true := by
  obtain ⟨y, h1, h2⟩ := H.number f hf k m b hk hm hb
  refine h2.2 ?_
  have h4 := (abs_le.1 h1).1
  have h5 : 129 ≤ bitsNeeded (logb 2 f) k m b := by
    rw [bitsNeeded_eq hf hk hm hb]
    have h7 : (2 : ℝ) ^ 129 ≤ ((f : ℝ) * m * k * b) := by exact_mod_cast h
    have h8 := Real.logb_le_logb_of_le (b := 2) (by norm_num) (by norm_num) h7
    rwa [Real.logb_pow, Real.logb_self_eq_one (by norm_num), mul_one] at h8
  linarith

example : exactBits (some (2 ^ 40)) 3 1000 2000 = false ∧ exactBits (some (2 ^ 120)) 3 1000 2000 = true :=
  ⟨C68_accepted exactBits_faithful (by norm_num) (by norm_num) (by norm_num) (by norm_num),
   C68_rejected exactBits_faithful (by norm_num) (by norm_num) (by norm_num) (by norm_num) (by norm_num)⟩

end DVO.Cuckoo

namespace DVO.Net
variable {M S S' S₂ S₂' α β : Type} {P : Out Unit → Prop}

theorem Pair.mapState {p : Proc M (Out α × S)} {q : Proc M (Out β × S')} {Post : α → S → β → S' → Prop} {Post' : α → S₂ → β → S₂' → Prop}
    (f : S → S₂) (g : S' → S₂') (h : Pair P p q Post) (hpost : ∀ a s b t, Post a s b t → Post' a (f s) b (g t)) :
    Pair P (p.bind (fun r => .ret (r.1, f r.2))) (q.bind (fun r => .ret (r.1, g r.2))) Post' := by
  rcases h with ⟨a, s, b, t, va, vb, h1, h2⟩ | ⟨n, st, h1, h2⟩
  · exact .inl ⟨a, f s, b, g t, _, _, h1.bind (Joint.ret _ _), hpost _ _ _ _ h2⟩
  · refine .inr ⟨n, _, h1.lift (fun r : Out α × S => .ret (r.1, f r.2)) (fun r : Out β × S' => .ret (r.1, g r.2)), ?_⟩
    rcases h2 with ⟨o, t, e, hb⟩ | ⟨o, t, e, hb⟩
    · exact .inl ⟨o, f t, by simp only [Net.lift, e, Proc.bind], hb⟩
    · exact .inr ⟨o, g t, by simp only [Net.lift, e, Proc.bind], hb⟩

theorem Pair.after {γ δ : Type} {p : Proc M γ} {q : Proc M δ} {a : γ} {b : δ} {va vb : List (Event M)} (h : Joint p q a b va vb)
    {f : γ → Proc M (Out α × S)} {g : δ → Proc M (Out β × S')} {Post : α → S → β → S' → Prop} (h2 : Pair P (f a) (g b) Post) :
    Pair P (p.bind f) (q.bind g) Post := by
  obtain ⟨n, hn⟩ := h
  refine Pair.head (n := n) (v := va) (w := vb) ?_ h2
  have := hn.lift f g
  simpa [Net.pre, init, final, Net.lift, Proc.bind] using this

end DVO.Net

namespace DVO.Create
open Net Cuckoo MPFSS VOLE
variable {T : Type} [Scalar T]

/-- A program that creates an object and then makes the calls `ops`, as first (`me = true`) or second
    party; with the state of the object at the end. It stops at the first error. -/
def program (bits : Sec → Nat → Nat → Nat → Bool) (optimal : Sec → Nat → Nat → Int) (P : Party) (seed : Block) (sec : Sec) (E : Env T) (me : Bool)
    (junk : T) (ops : List (Op T)) : Proc (Msg T) (Out (List (Answer T)) × Option (VState T)) :=
  Proc.bind (voleCreate E.aes bits optimal P seed (some E.c) sec) fun
    | .ok o => (play { E with sec := o.sec } me ops (created o.mpfss.hasher junk)).bind (fun r => .ret (r.1, some r.2))
    | .err c m => .ret (.err c m, none)
    | .throws m => .ret (.throws m, none)
    | .ub w => .ret (.ub w, none)
    | .diverge => .ret (.diverge, none)

/-- Two parties on the two ends of a connection: same cipher, library, floating-point arithmetic and channels,
    different ids; working threads, hash sets and adapters. -/
structure World (P Q : Party) (A B : Env T) : Prop where
  peers : Peers P Q
  lowerA : P.lower = A.lower
  lowerB : Q.lower = B.lower
  aes : B.aes = A.aes
  fl : B.fl = A.fl
  chans : B.c = A.c
  lib : B.lib = A.lib
  threadsA : MPFSS.Threads A.thr
  threadsB : MPFSS.Threads B.thr
  orderA : ∀ i l, List.Perm ((A.rand i).order l) l
  orderB : ∀ i l, List.Perm ((B.rand i).order l) l
  conforms : A.lib.Conforms A.aes
  depth : GGM.FaithfulDepth A.fl

/-- The number of buckets and the length of hashes are computed faithfully. -/
structure Faithfully (bits : Sec → Nat → Nat → Nat → Bool) (optimal : Sec → Nat → Nat → Int) : Prop where
  buckets : Faithful optimal
  bits : FaithfulBits bits

/-- The hasher that both parties hold after `Create`. -/
def commonHasher (bits : Sec → Nat → Nat → Nat → Bool) (optimal : Sec → Nat → Nat → Int) (P : Party) (seed seed' : Block) (sec : Sec) (aes : Cipher) : Hasher :=
  (agreed aes bits optimal (if P.lower then seed else seed') (sec.map (· * 3))).hasher

theorem common_buckets {bits : Sec → Nat → Nat → Nat → Bool} {optimal : Sec → Nat → Nat → Int} (H : Faithful optimal) (P : Party)
    (seed seed' : Block) (aes : Cipher) {f : ℚ} (h1 : 1 ≤ f) (h2 : f ≤ 2 ^ 128) :
    ∀ n ∈ VOLE.noiseSizes, 0 < (commonHasher bits optimal P seed seed' (some f) aes).optimal n.toNat ∧
      (commonHasher bits optimal P seed seed' (some f) aes).optimal n.toNat ≤ 5900 := by
  intro n hn
  obtain ⟨a1, a2, a3, a4, a5⟩ := C67_noise H (f := f * 3 * 2) (by linarith) (by linarith)
  simp only [VOLE.noiseSizes, List.mem_cons, List.not_mem_nil, or_false] at hn
  have hp : 0 < n.toNat ∧ n.toNat ≤ 2 ^ 40 := by omega
  refine ⟨(C67_range H (f := f * 3 * 2) (by linarith) (by
      refine le_trans (mul_le_mul_of_nonneg_right (mul_le_mul_of_nonneg_right h2 (by norm_num)) (by norm_num)) ?_
      calc (2 ^ 128 * 3 * 2 : ℚ) ≤ 2 ^ 131 := by norm_num
        _ ≤ 2 ^ 1000 := pow_le_pow_right₀ (by norm_num) (by norm_num)) hp.1 hp.2).2, ?_⟩
  show optimal (some (f * 3 * 2)) 3 n.toNat ≤ 5900
  rcases hn with rfl | rfl | rfl | rfl | rfl
  · exact a1.trans (by norm_num)
  · exact a2.trans (by norm_num)
  · exact a3.trans (by norm_num)
  · exact a4.trans (by norm_num)
  · exact a5

/-- C68: what the theorems about histories assume of two parties holds after `Create` with up to 128 bits of
    statistical security. -/
theorem C68_together {P Q : Party} {A B : Env T} (W : World P Q A B) {bits : Sec → Nat → Nat → Nat → Bool} {optimal : Sec → Nat → Nat → Int}
    (H : Faithful optimal) (seed seed' : Block) {f : ℚ} (h1 : 1 ≤ f) (h2 : f ≤ 2 ^ 128) (sec : Sec) :
    Together (commonHasher bits optimal P seed seed' (some f) A.aes) { A with sec := sec } { B with sec := sec } where
  aes := W.aes
  fl := W.fl
  chans := W.chans
  sec := rfl
  lib := W.lib
  ids := by
    show B.lower = !A.lower
    rw [← W.lowerA, ← W.lowerB, W.peers.ids]
  threadsA := W.threadsA
  threadsB := W.threadsB
  orderA := W.orderA
  orderB := W.orderB
  conforms := W.conforms
  numHash := rfl
  buckets_pos := fun n hn => (common_buckets H P seed seed' A.aes h1 h2 n hn).1
  buckets_lt := fun n hn => lt_of_le_of_lt (common_buckets H P seed seed' A.aes h1 h2 n hn).2 (by omega)
  trees := fun n hn => GGM.C68_good W.depth (by omega)

/-- The element type is suitable for the statistical security of the object (which is `sec` with `log2(3)`
    added). -/
structure Suitable (T : Type) [Scalar T] (sec : Sec) : Prop where
  trees : ∀ m : Nat, m ≤ 10616092 → Scalar.canHash T (ROT.secPerLeaf ((sec.map (· * 3)).map (· * 2)) ((3 * m : Nat) : Int)) 128 = true
  elements : ∀ cols : Nat, cols ≤ 10616092 → Scalar.canHash T (ROT.secPerLeaf (sec.map (· * 3)) (nonzeros * cols)) 128 = true

/-- Luck: the random number generators are not exhausted, sampling distinct indices comes to an end, and
    hashing them (in any order) succeeds. -/
structure Lucky [Scalar T] (h : Hasher) (E : Env T) : Prop where
  sampling : ∀ (junk : RNG.Gen) (seed : List (BitVec 8)) (rows cols : Nat) (g : RNG.Gen), 1 ≤ rows → cols ≤ 10616092 →
    RNG.create junk seed (nonzeros * cols) = .ok g → ∃ c : Sparse T, sampleCode E.lib E.aes rows cols g = .ok c
  indices : ∀ (junk : RNG.Gen) (seed : List (BitVec 8)) (t o : Nat) (g : RNG.Gen), (t : Int) ∈ noiseSizes → t ≤ o → o ≤ 10616092 →
    RNG.create junk seed t = .ok g → ∃ l, sampleIndices E.lib E.aes o t E.fuel g [] = .ok l ∧
      ∀ l' : List Int, l'.Perm l → ∃ hashed, Cuckoo.hashCuckoo h (l'.map MPFSS.indexBlock) (h.optimal t) = .ok hashed

/-- C68: for up to 87 bits of statistical security nothing else is needed for success. -/
theorem C68_smooth {bits : Sec → Nat → Nat → Nat → Bool} {optimal : Sec → Nat → Nat → Int} (F : Faithfully bits optimal) (P : Party) (seed seed' : Block)
    (aes : Cipher) (E : Env T) {f : ℚ} (h1 : 1 ≤ f) (h2 : f ≤ 2 ^ 87) (S : Suitable T (some f))
    (L : Lucky (commonHasher bits optimal P seed seed' (some f) aes) E) :
    Smooth (commonHasher bits optimal P seed seed' (some f) aes) { E with sec := (some f : Sec).map (· * 3) } where
  bits := fun t ht m hm => by
    obtain ⟨b1, b2⟩ := common_buckets F.buckets P seed seed' aes (bits := bits) h1 (h2.trans (by norm_num)) (t : Int) ht
    rw [Int.toNat_natCast] at b1 b2
    refine C68_accepted F.bits (f := f * 3 * 2) (by linarith) (by omega) (by omega) ?_
    generalize (commonHasher bits optimal P seed seed' (some f) aes).optimal t = b at b1 b2 ⊢
    obtain ⟨b, rfl⟩ := Int.eq_ofNat_of_zero_le b1.le
    have hb : (b : ℚ) ≤ 5900 := by exact_mod_cast b2
    have hm' : (m : ℚ) ≤ 10616092 := by exact_mod_cast hm
    have hm0 : (0 : ℚ) ≤ m := Nat.cast_nonneg m
    have hb0 : (0 : ℚ) ≤ b := Nat.cast_nonneg b
    show f * 3 * 2 * m * 3 * ((Int.toNat (b : Int) : Nat) : ℚ) ≤ 3 * 2 ^ 126
    rw [Int.toNat_natCast]
    calc f * 3 * 2 * m * 3 * b = f * (18 * (m * b)) := by ring
      _ ≤ 2 ^ 87 * (18 * (10616092 * 5900)) := by gcongr
      _ ≤ 3 * 2 ^ 126 := by norm_num
  trees := S.trees
  elements := S.elements
  sampling := L.sampling
  indices := L.indices

variable [LawfulScalar T]

theorem program_pair {X : Out Unit → Prop} {P Q : Party} {A B : Env T} (W : World P Q A B) (bits : Sec → Nat → Nat → Nat → Bool)
    (optimal : Sec → Nat → Nat → Int) (seed seed' : Block) {f : ℚ} (h1 : 1 ≤ f) (junk junk' : T) (ops : List (Op T))
    (h : Pair X (play { A with sec := (some f : Sec).map (· * 3) } true ops (created (commonHasher bits optimal P seed seed' (some f) A.aes) junk))
      (play { B with sec := (some f : Sec).map (· * 3) } false ops (created (commonHasher bits optimal P seed seed' (some f) A.aes) junk'))
      (fun as s bs r => Answers ops none none as bs ∧ InStep s r)) :
    Pair X (program bits optimal P seed (some f) A true junk ops) (program bits optimal Q seed' (some f) B false junk' ops)
      (fun as s bs r => Answers ops none none as bs ∧ ∃ s' r', s = some s' ∧ r = some r' ∧ InStep s' r') := by
  obtain ⟨va, vb, j⟩ := vole_joint (T := T) A.aes bits optimal W.peers seed seed' A.c (sec := some f) (by rintro _ ⟨⟩; exact h1)
  have e : (voleCreate B.aes bits optimal Q seed' (some B.c) (some f) : PM (Msg T) _) = voleCreate A.aes bits optimal Q seed' (some A.c) (some f) := by
    rw [W.aes, W.chans]
  unfold program
  rw [e]
  refine Pair.after j ?_
  exact h.mapState some some (fun a s b t hp => ⟨hp.1, s, t, rfl, rfl, hp.2⟩)

/-- C68: two programs create their objects with up to 128 bits of statistical security and make any sequence of
    matching calls, in any mixture of roles and any interleaving, and all calls of both return OK.
    Then the results are vector OLE correlations. -/
theorem C68_correlation {P Q : Party} {A B : Env T} (W : World P Q A B) (bits : Sec → Nat → Nat → Nat → Bool) {optimal : Sec → Nat → Nat → Int}
    (H : Faithful optimal) (seed seed' : Block) {f : ℚ} (h1 : 1 ≤ f) (h2 : f ≤ 2 ^ 128) (junk junk' : T) (ops : List (Op T))
    (hops : ∀ op ∈ ops, op.Small) {n : Nat} {st}
    (hst : Steps n (init (program bits optimal P seed (some f) A true junk ops) (program bits optimal Q seed' (some f) B false junk' ops)) st) :
    (∀ as s bs r, st.p = .ret (.ok as, s) → st.q = .ret (.ok bs, r) → Answers ops none none as bs) ∧
    ((∀ t, ¬ Step st t) → (∃ as s bs r, st.p = .ret (.ok as, s) ∧ st.q = .ret (.ok bs, r)) ∨
      (∃ o s, st.p = .ret (o, s) ∧ Bad (fun _ => True) o) ∨ (∃ o r, st.q = .ret (o, r) ∧ Bad (fun _ => True) o)) := by
  have H := program_pair W bits optimal seed seed' h1 junk junk' ops (history_pair (P := fun _ => True) (fun _ _ _ => trivial)
    (C68_together W H seed seed' h1 h2 _) junk junk' ops hops (by
    intro op _
    cases op with
    | precompute => exact .inr trivial
    | precomputeRandom => exact .inr trivial
    | run => exact ⟨.inr trivial, .inl trivial⟩) (.inl trivial))
  constructor
  · intro as s bs r hp hq
    rcases H.reached hst hp hq with ⟨a, b, e1, e2, h1, -⟩ | hb | hb
    · cases e1; cases e2; exact h1
    · exact absurd hb id
    · exact absurd hb id
  · intro hno
    rcases H.stopped hst hno with ⟨a, s, b, t, e1, e2, -⟩ | h
    · exact .inl ⟨a, s, b, t, e1, e2⟩
    · exact .inr h

/-- C68: two programs create their objects with up to 87 bits of statistical security and make any sequence of
    matching calls with valid arguments in which one of them is always the sender. With a suitable element type
    and luck, `Create` and all calls return OK on both sides in every interleaving, and the results are
    vector OLE correlations. -/
theorem C68_success {P Q : Party} {A B : Env T} (W : World P Q A B) {bits : Sec → Nat → Nat → Nat → Bool} {optimal : Sec → Nat → Nat → Int}
    (F : Faithfully bits optimal) (seed seed' : Block) {f : ℚ} (h1 : 1 ≤ f) (h2 : f ≤ 2 ^ 87) (S : Suitable T (some f))
    (LA : Lucky (commonHasher bits optimal P seed seed' (some f) A.aes) A) (LB : Lucky (commonHasher bits optimal P seed seed' (some f) A.aes) B)
    (junk junk' : T) (ops : List (Op T)) (hops : ∀ op ∈ ops, op.Valid A.fuel ∧ op.Valid B.fuel)
    (hdir : (∀ op ∈ ops, op.fwd = true) ∨ (∀ op ∈ ops, op.fwd = false)) :
    ∃ as s bs r va vb, Computes (program bits optimal P seed (some f) A true junk ops) (program bits optimal Q seed' (some f) B false junk' ops)
      (.ok as, some s) (.ok bs, some r) va vb ∧ Answers ops none none as bs ∧ InStep s r := by
  obtain ⟨as, s, bs, r, va, vb, hc, ha, hi⟩ := C60_progress (C68_together W F.buckets seed seed' h1 (h2.trans (by norm_num)) ((some f : Sec).map (· * 3)))
    (C68_smooth F P seed seed' A.aes A h1 h2 S LA) (C68_smooth F P seed seed' A.aes B h1 h2 S LB) junk junk' ops hops hdir
  obtain ⟨as, s, bs, r, va, vb, hc, ha, s', r', rfl, rfl, hi⟩ := (program_pair (X := fun _ => False) W bits optimal seed seed' h1 junk junk' ops
    (.inl ⟨as, s, bs, r, va, vb, hc.joint, ha, hi⟩)).false
  exact ⟨as, s', bs, r', va, vb, hc, ha, hi⟩

/-! ### Element types -/

/-- C68: all unsigned integers of up to 128 bits are suitable for every statistical security, -/
theorem C68_uint (w : Nat) (hw : w ≤ 128) (sec : Sec) : @Suitable (BitVec w) (scalarUInt w) sec :=
  @Suitable.mk (BitVec w) (scalarUInt w) sec (fun _ _ => decide_eq_true (by omega)) (fun _ _ => decide_eq_true (by omega))

theorem canHashMod_of {m : Nat} {f : ℚ} (hf : 0 ≤ f) (h : (m : ℚ) * f ≤ 2 ^ 128) : canHashMod m (some f) 128 = true := by
  unfold canHashMod
  by_cases h0 : m = 0
  · rw [if_pos h0]
  · rw [if_neg h0]
    dsimp only
    generalize (if 128 < 128 then (2 ^ 128 - 1) / 2 ^ 128 else 2 ^ 128 - 1) = v
    have h1 : (v % m + 1) % m < m := Nat.mod_lt _ (by omega)
    rw [decide_eq_true_eq]
    generalize (v % m + 1) % m = r at h1
    have h2 : (r : ℚ) + 1 ≤ m := by exact_mod_cast h1
    rcases hf.eq_or_lt with rfl | hf
    · norm_num
    · nlinarith

theorem suitable_mod {m : Nat} {f : ℚ} (hf : 1 ≤ f) (h : (m : ℚ) * f * 318482760 ≤ 2 ^ 128) :
    (∀ n : Nat, n ≤ 10616092 → canHashMod m (ROT.secPerLeaf (((some f : Sec).map (· * 3)).map (· * 2)) ((3 * n : Nat) : Int)) 128 = true) ∧
    ∀ cols : Nat, cols ≤ 10616092 → canHashMod m (ROT.secPerLeaf ((some f : Sec).map (· * 3)) (nonzeros * cols)) 128 = true := by
  have hm0 : (0 : ℚ) ≤ m * f := mul_nonneg (Nat.cast_nonneg m) (by linarith)
  constructor
  · intro n hn
    have hn' : (n : ℚ) ≤ 10616092 := by exact_mod_cast hn
    have hn0 : (0 : ℚ) ≤ n := Nat.cast_nonneg n
    unfold ROT.secPerLeaf
    rw [if_neg (by omega)]
    refine canHashMod_of (f := f * 3 * 2 * ((3 * n : Nat) : Int)) ?_ ?_
    · positivity
    · push_cast
      nlinarith [mul_le_mul_of_nonneg_left hn' hm0]
  · intro n hn
    have hz : nonzeros = 10 := rfl
    have hn' : (n : ℚ) ≤ 10616092 := by exact_mod_cast hn
    have hn0 : (0 : ℚ) ≤ n := Nat.cast_nonneg n
    unfold ROT.secPerLeaf
    rw [hz, if_neg (by omega)]
    refine canHashMod_of (f := f * 3 * (((10 : Nat) : Int) * n : Int)) ?_ ?_
    · push_cast
      positivity
    · push_cast
      nlinarith [mul_le_mul_of_nonneg_left hn' hm0]

/-- C68: and `zz_p` and `ZZ_p` with a modulus `p` are suitable for up to `99.7 - log2 p` bits. -/
theorem C68_zz_p {p : Nat} {f : ℚ} (hf : 1 ≤ f) (h : (p : ℚ) * f * 318482760 ≤ 2 ^ 128) : Suitable (Zzp p) (some f) :=
  ⟨(suitable_mod hf h).1, (suitable_mod hf h).2⟩

theorem C68_ZZ_p {p : Nat} {f : ℚ} (hf : 1 ≤ f) (h : (p : ℚ) * f * 318482760 ≤ 2 ^ 128) : Suitable (ZZp p) (some f) := by
  have h' : ((p % 2 ^ 128 : Nat) : ℚ) * f * 318482760 ≤ 2 ^ 128 := by
    refine le_trans ?_ h
    have : ((p % 2 ^ 128 : Nat) : ℚ) ≤ p := by exact_mod_cast Nat.mod_le _ _
    gcongr
  exact ⟨(suitable_mod hf h').1, (suitable_mod hf h').2⟩

example : Suitable (Zzp (2 ^ 32 - 5)) (some (2 ^ 40)) := C68_zz_p (by norm_num) (by norm_num)

/-! ### Too much security -/

/-- C68: with more than 129 bits (and up to 900) the objects are created, but both roles of MPFSS return
    INVALID_ARGUMENT for valid arguments, before they communicate. -/
theorem C68_too_much (aes : Cipher) {bits : Sec → Nat → Nat → Nat → Bool} {optimal : Sec → Nat → Nat → Int} (F : Faithfully bits optimal) {P Q : Party}
    (hPQ : Peers P Q) (seed seed' : Block) (ch : Chans) {f : ℚ} (h1 : 2 ^ 129 ≤ f) (h2 : f ≤ 2 ^ 900) :
    ∃ o va vb, Computes (mpfssCreate aes bits optimal P seed (some ch) (some f) : PM (Msg T) _) (mpfssCreate aes bits optimal Q seed' (some ch) (some f) : PM (Msg T) _)
        (.ok o) (.ok o) va vb ∧
      ∀ (fl : Nat → Nat → Nat) (c : Chans) (key seed : Nat → Block) (t m : Nat), 0 < t → t ≤ m → t < 2 ^ 31 →
      ∀ (thrV thrI : Nat → List Nat), Threads thrV → Threads thrI → ∀ stV stI : State, Coherent o.hasher stV → Coherent o.hasher stI →
      ∀ (x : T) (w outV y : List T) (indices : List Int) (u v outI : List T), y.length = t → indices.length = t → outV.length = m → outI.length = m →
      (∀ i ∈ indices, i ≤ m) →
      ∃ msg sV sI, runValueProviderVectorOLE aes fl c o.spfss key seed thrV stV x t w outV = .ret ⟨.err .invalidArgument msg, outV, sV⟩ ∧
        runIndexProviderVectorOLE aes fl c thrI stI y indices u v outI = .ret ⟨.err .invalidArgument msg, outI, sI⟩ := by
  have hf : (1 : ℚ) ≤ f := le_trans (by norm_num) h1
  obtain ⟨va, vb, j⟩ := mpfss_joint (T := T) aes bits optimal hPQ seed seed' ch (sec := some f) (by rintro _ ⟨⟩; exact hf)
  refine ⟨_, va, vb, j.computes, ?_⟩
  intro fl c key sd t m h0 hle ht thrV thrI htV htI stV stI cV cI x w outV y indices u v outI hy hi hoV hoI hr
  obtain ⟨hi64, hpos⟩ := C67_range F.buckets (f := f * 2) (by linarith) (by
    refine le_trans (mul_le_mul_of_nonneg_right h2 (by norm_num)) ?_
    rw [← pow_succ]
    exact pow_le_pow_right₀ (by norm_num) (by norm_num)) h0 (by omega)
  refine C50_mpfss_buckets_partial aes fl c _ key sd (agreed aes bits optimal (if P.lower then seed else seed') (some f)).hasher t m h0 hle ht (.inr rfl) hi64 (.inr ?_) thrV thrI htV htI stV stI cV cI x w outV y indices u v outI hy hi hoV hoI hr
  show bits (some (f * 2)) 3 m (optimal (some (f * 2)) 3 t).toNat = true
  refine C68_rejected F.bits (by linarith) (by omega) (by omega) (by omega) ?_
  have e1 : (1 : ℚ) ≤ m := by exact_mod_cast (show 1 ≤ m by omega)
  have e2 : (1 : ℚ) ≤ ((optimal (some (f * 2)) 3 t).toNat : Nat) := by exact_mod_cast (show 1 ≤ (optimal (some (f * 2)) 3 t).toNat by omega)
  have e3 : (1 : ℚ) ≤ m * ((optimal (some (f * 2)) 3 t).toNat : Nat) := one_le_mul_of_one_le_of_one_le e1 e2
  push_cast
  nlinarith

/-! ### An example -/

/-- The environment of `toyEnv` with a constant cipher and exact arithmetic. -/
noncomputable def exEnv (lower : Bool) (salt : Nat) : Env (BitVec 64) := { toyEnv lower salt 30000000 with aes := fun _ _ => 0, fl := GGM.exactDepth }

theorem ex_world : World ⟨true, false, .ok (), .ok ()⟩ ⟨false, false, .ok (), .ok ()⟩ (exEnv true 1) (exEnv false 2) where
  peers := ⟨rfl, rfl, rfl, rfl, rfl, rfl⟩
  lowerA := rfl
  lowerB := rfl
  aes := rfl
  fl := rfl
  chans := rfl
  lib := rfl
  threadsA := (toy_together 1 2 0 0).threadsA
  threadsB := (toy_together 1 2 0 0).threadsB
  orderA := (toy_together 1 2 0 0).orderA
  orderB := (toy_together 1 2 0 0).orderB
  conforms := toyLib_conforms _
  depth := GGM.exactDepth_faithful

theorem ex_bucket {i N : Nat} (hi : i < N) (hN : N ≤ 5900) : bucketOf (fun _ => 0) N (MPFSS.indexBlock (i : Int)) 0 = i := by
  unfold bucketOf digest MPFSS.indexBlock
  rw [if_pos rfl, show (0 : Block) ^^^ BitVec.ofInt 128 (i : Int) = BitVec.ofNat 128 i by rw [BitVec.ofInt_natCast]; exact BitVec.zero_xor, BitVec.toNat_ofNat]
  rw [Nat.mod_eq_of_lt (a := i) (b := 2 ^ 128) (by omega), Nat.mod_eq_of_lt hi]

theorem ex_lucky (P : Party) (seed seed' : Block) (b : Bool) (salt : Nat) :
    Lucky (commonHasher exactBits exact3 P seed seed' (some (2 ^ 40)) (fun _ _ => 0)) (exEnv b salt) where
  sampling := fun junk sd rows cols g h1 h2 h3 => toy_sampleCode _ junk sd rows cols g h1 h2 h3
  indices := fun junk sd t o g ht hle ho hg => by
    have h1 := noise_le ht
    have h2 : 98 ≤ t := by simp [noiseSizes] at ht; omega
    refine ⟨_, toy_sampleIndices (t := t) _ hle 30000000 0 g (by omega) (by omega) (Budget.create hg (by omega)).2, fun l' hl => ?_⟩
    obtain ⟨b1, b2⟩ := common_buckets (bits := exactBits) exact3_faithful P seed seed' (fun _ _ => 0) (f := 2 ^ 40) (by norm_num) (by norm_num) _ ht
    have b3 : (t : Int) ≤ exact3 (some (2 ^ 40 * 3 * 2)) 3 t := C67_enough exact3_faithful (by norm_num) (by omega)
    change (t : Int) ≤ (commonHasher exactBits exact3 P seed seed' (some (2 ^ 40)) (fun _ _ => 0)).optimal t at b3
    rw [Int.toNat_natCast] at b1 b2
    have hlen : (l'.map MPFSS.indexBlock).length = t := by rw [List.length_map, hl.length_eq]; simp
    refine hashCuckoo_distinct _ (by show 2 ≤ 3; omega) b1 (by omega) _ (by omega) ?_ ?_
    · rw [hlen]
      generalize (commonHasher exactBits exact3 P seed seed' (some (2 ^ 40)) (fun _ _ => 0)).optimal t = N at b1 b2 b3 ⊢
      refine C68_accepted exactBits_faithful (f := 2 ^ 40 * 3 * 2) (by norm_num) (by omega) (by omega) ?_
      have e1 : (t : ℚ) ≤ 1324 := by exact_mod_cast h1
      have e2 : ((N.toNat : Nat) : ℚ) ≤ 5900 := by exact_mod_cast (show N.toNat ≤ 5900 by omega)
      calc (2 : ℚ) ^ 40 * 3 * 2 * t * 3 * (N.toNat : Nat) ≤ 2 ^ 40 * 3 * 2 * 1324 * 3 * 5900 := by gcongr
        _ ≤ 3 * 2 ^ 126 := by norm_num
    · have h2 := (hl.map MPFSS.indexBlock).map (fun x => bucketOf (fun _ => (0 : Block)) ((commonHasher exactBits exact3 P seed seed' (some (2 ^ 40)) (fun _ _ => 0)).optimal t).toNat x 0)
      show (List.map (fun x => bucketOf (fun _ => (0 : Block)) _ x 0) _).Nodup
      rw [h2.nodup_iff, List.map_map, List.map_map]
      refine (List.nodup_map_iff_inj_on List.nodup_range).2 ?_
      intro i hi j hj hij
      rw [List.mem_range] at hi hj
      simp only [Function.comp] at hij
      rw [ex_bucket (by omega) (by omega), ex_bucket (by omega) (by omega)] at hij
      exact hij

/-- All hypotheses of `C68_success` (and so of the other theorems) are satisfiable, with 40 bits of security
    and calls that need many expansions. -/
example (f : Bool) : ∃ as s bs r va vb,
    Computes (program exactBits exact3 ⟨true, false, .ok (), .ok ()⟩ 3 (some (2 ^ 40)) (exEnv true 1) true 0 (exOps f))
      (program exactBits exact3 ⟨false, false, .ok (), .ok ()⟩ 4 (some (2 ^ 40)) (exEnv false 2) false 7 (exOps f))
      (.ok as, some s) (.ok bs, some r) va vb ∧ Answers (exOps f) none none as bs ∧ InStep s r := by
  refine C68_success ex_world ⟨exact3_faithful, exactBits_faithful⟩ 3 4 (by norm_num) (by norm_num) (C68_uint 64 (by omega) _)
    (ex_lucky _ _ _ _ _) (ex_lucky _ _ _ _ _) 0 7 (exOps f) ?_ ?_
  · intro op hop
    simp only [exOps, List.mem_cons, List.not_mem_nil, or_false] at hop
    rcases hop with rfl | rfl | rfl | rfl | rfl | rfl | rfl | rfl <;> simp [Op.Valid, toyEnv, exEnv]
  · cases f
    · right; intro op hop
      simp only [exOps, List.mem_cons, List.not_mem_nil, or_false] at hop
      rcases hop with rfl | rfl | rfl | rfl | rfl | rfl | rfl | rfl <;> rfl
    · left; intro op hop
      simp only [exOps, List.mem_cons, List.not_mem_nil, or_false] at hop
      rcases hop with rfl | rfl | rfl | rfl | rfl | rfl | rfl | rfl <;> rfl

/-- Two hundred bits of security are too much. -/
example (seed seed' : Block) :=
  @C68_too_much _ (scalarUInt 64) inferInstance GGM.exCipher _ _ ⟨exact3_faithful, exactBits_faithful⟩ ⟨true, false, .ok (), .ok ()⟩ ⟨false, false, .ok (), .ok ()⟩
    ⟨rfl, rfl, rfl, rfl, rfl, rfl⟩ seed seed' ⟨0, 1, 2⟩ (2 ^ 200) (pow_le_pow_right₀ (by norm_num) (by norm_num)) (pow_le_pow_right₀ (by norm_num) (by norm_num))

end DVO.Create
