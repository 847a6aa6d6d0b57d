/-
Properties C27, C28, C48: element types.
-/
import Verif.Proofs.Scalar
import Verif.Model.NTLCache
import Mathlib.Data.Int.CardIntervalMod
import Mathlib.Tactic.Linarith
import Mathlib.Tactic.FieldSimp
import Mathlib.Tactic.Positivity

namespace DVO

/-! ### C27 -/

/-- What C27 asks of a type: bits reconstruct the value, `ToUint128` fits in `SizeOf` bytes and
    `FromUint128` inverts it; at most 16 bytes. -/
def BitsOk (T : Type) [Scalar T] : Prop :=
  1 ≤ Scalar.sizeOf T ∧ Scalar.sizeOf T ≤ 16 ∧
  ∀ x : T, (∑ k ∈ Finset.range (8 * Scalar.sizeOf T),
      if Scalar.getBit x k then (Scalar.setBit k : T) else 0) = x ∧
    (Scalar.toU128 x).toNat < 2 ^ (8 * Scalar.sizeOf T) ∧ Scalar.ofU128 (Scalar.toU128 x) = x

theorem BitsOk.of_lawful (T : Type) [Scalar T] (h : LawfulScalar T) : BitsOk T :=
  ⟨h.size_pos, h.size_le, fun x => ⟨h.bits x, h.toU128_lt x, h.of_to x⟩⟩

/-- C27 for unsigned integers of every width that is a multiple of 8 up to 128. -/
theorem C27_uint (w : Nat) (h8 : 8 ∣ w) (h1 : 8 ≤ w) (h2 : w ≤ 128) :
    @BitsOk (BitVec w) (scalarUInt w) :=
  @BitsOk.of_lawful _ (scalarUInt w) (lawful_uint h8 h1 h2)

example : BitsOk (BitVec 64) ∧ BitsOk (BitVec 128) :=
  ⟨C27_uint 64 (by norm_num) (by norm_num) (by norm_num), C27_uint 128 (by norm_num) (by norm_num) (by norm_num)⟩

/-- `FromUint128` truncates for unsigned integers. -/
theorem C27_uint_truncates (w : Nat) (b : Block) :
    (@Scalar.ofU128 (BitVec w) (scalarUInt w) b).toNat = b.toNat % 2 ^ w := by
  show (BitVec.setWidth w b).toNat = _
  rw [BitVec.toNat_setWidth]

example : (Scalar.ofU128 (0x1ff : Block) : BitVec 8) = 0xff := by decide

/-- C27 for `NTL::ZZ_p` with every modulus of at most 128 bits. -/
theorem C27_ZZ_p (p : Nat) (h1 : 2 ≤ p) (h2 : p ≤ 2 ^ 128) : BitsOk (ZZp p) :=
  BitsOk.of_lawful _ (lawful_zzp h1 h2)

example : BitsOk (ZZp (2 ^ 127 - 1)) := C27_ZZ_p _ (by norm_num) (by norm_num)

/-- C27 for `NTL::zz_p` with every modulus NTL accepts. -/
theorem C27_zz_p (p : Nat) (h1 : 2 ≤ p) (h2 : p < 2 ^ 60) : BitsOk (Zzp p) :=
  BitsOk.of_lawful _ (lawful_zzp_small h1 h2)

example : BitsOk (Zzp (2 ^ 59 + 55)) := C27_zz_p _ (by norm_num) (by norm_num)

/-- `SetBit` of `zz_p` is only called with shift amounts below 64. -/
theorem C27_zzp_shift (p k : Nat) (h1 : 2 ≤ p) (h2 : p < 2 ^ 60)
    (hk : k < 8 * Scalar.sizeOf (Zzp p)) : k < 64 := by
  have : ntlSizeOf p ≤ 8 := ntlSize_le (b := 8) (by omega) (by omega)
  have h : Scalar.sizeOf (Zzp p) = ntlSizeOf p := rfl
  omega

example : 63 < 8 * Scalar.sizeOf (Zzp (2 ^ 59 + 55)) := by
  show 63 < 8 * ntlSizeOf (2 ^ 59 + 55)
  have : ¬ ntlSizeOf (2 ^ 59 + 55) ≤ 7 := by
    intro h
    have := le_pow_size (p := 2 ^ 59 + 55)
    have h2 : 2 ^ (8 * ntlSizeOf (2 ^ 59 + 55)) ≤ 2 ^ 56 := Nat.pow_le_pow_right (by omega) (by omega)
    omega
  omega

/-- `FromUint128` reduces modulo `p` for both NTL types. -/
theorem C27_ntl_reduces (p : Nat) (b : Block) :
    (Scalar.ofU128 b : ZZp p) = ((b.toNat : ℕ) : ZMod p) ∧
    (0 < p → p < 2 ^ 60 → (Scalar.ofU128 b : Zzp p) = ((b.toNat : ℕ) : ZMod p)) :=
  ⟨zzp_ofU128 p b, fun h1 h2 => zzp_small_ofU128 h1 h2 b⟩

example : (Scalar.ofU128 (1000 : Block) : ZZp 7) = (6 : ZMod 7) := by
  rw [(C27_ntl_reduces 7 1000).1]; rfl

/-- The property does not extend to signed integers (which the template accepts): `ToUint128`
    sign-extends, so it does not fit in `SizeOf` bytes. -/
theorem C27_negation_signed : ¬ BitsOk (SInt 32) := by
  intro h
  have := (h.2.2 (-1 : SInt 32)).2.1
  revert this
  decide

/-! ### C28 -/

/-- The number of `h`-bit hash values that `reduce` maps into `A`, divided by `2^h`. -/
def hashProb {T : Type} [DecidableEq T] (reduce : Nat → T) (h : Nat) (A : Finset T) : ℚ :=
  ((Finset.range (2 ^ h)).filter (fun x => reduce x ∈ A)).card / 2 ^ h

/-- Every set is at most `1/f` more likely than under the uniform distribution on `m` values. -/
def NearUniform {T : Type} [DecidableEq T] (reduce : Nat → T) (h m : Nat) (f : ℚ) : Prop :=
  ∀ A : Finset T, hashProb reduce h A ≤ (A.card : ℚ) / m + 1 / f

theorem count_residue (N p : Nat) [NeZero p] (a : ZMod p) :
    ((Finset.range N).filter (fun x => ((x : Nat) : ZMod p) = a)).card =
      N / p + if a.val < N % p then 1 else 0 := by
  have h := Nat.count_modEq_card N (Nat.pos_of_ne_zero (NeZero.ne p)) a.val
  rw [Nat.count_eq_card_filter_range] at h
  rw [Nat.mod_eq_of_lt (ZMod.val_lt a)] at h
  rw [← h]
  congr 1
  apply Finset.filter_congr
  intro x _
  rw [← ZMod.natCast_eq_natCast_iff, ZMod.natCast_zmod_val]

theorem count_set (N p : Nat) [NeZero p] (A : Finset (ZMod p)) :
    ((Finset.range N).filter (fun x => ((x : Nat) : ZMod p) ∈ A)).card =
      A.card * (N / p) + (A.filter (fun a => a.val < N % p)).card := by
  classical
  have h1 : ((Finset.range N).filter (fun x => ((x : Nat) : ZMod p) ∈ A)) =
      A.biUnion (fun a => (Finset.range N).filter (fun x => ((x : Nat) : ZMod p) = a)) := by
    ext x; simp [and_comm]
  rw [h1, Finset.card_biUnion]
  · rw [Finset.sum_congr rfl (fun a _ => count_residue N p a), Finset.sum_add_distrib]
    rw [Finset.sum_const, smul_eq_mul, Finset.card_filter]
  · intro a _ b _ hab
    rw [Function.onFun, Finset.disjoint_left]
    intro x h1 h2
    rw [Finset.mem_filter] at h1 h2
    exact hab (h1.2.symm.trans h2.2)

theorem card_val_lt {p r : Nat} [NeZero p] (hr : r ≤ p) :
    ((Finset.univ : Finset (ZMod p)).filter (fun a => a.val < r)).card = r := by
  have : ((Finset.univ : Finset (ZMod p)).filter (fun a => a.val < r)) =
      (Finset.range r).image (fun x : Nat => (x : ZMod p)) := by
    ext a
    simp only [Finset.mem_filter, Finset.mem_univ, true_and, Finset.mem_image, Finset.mem_range]
    constructor
    · intro h; exact ⟨a.val, h, ZMod.natCast_zmod_val a⟩
    · rintro ⟨x, hx, rfl⟩; rw [ZMod.val_natCast, Nat.mod_eq_of_lt (by omega)]; exact hx
  rw [this, Finset.card_image_of_injOn, Finset.card_range]
  intro x hx y hy hxy
  simp only [Finset.coe_range, Set.mem_Iio] at hx hy
  have := congrArg ZMod.val hxy
  simp only [ZMod.val_natCast] at this
  rwa [Nat.mod_eq_of_lt (by omega), Nat.mod_eq_of_lt (by omega)] at this

theorem nearUniform_mod (p h : Nat) [NeZero p] (f : ℚ) (hf : 0 < f)
    (hr : ((2 ^ h % p : Nat) : ℚ) * f ≤ 2 ^ h) :
    NearUniform (fun x : Nat => ((x : Nat) : ZMod p)) h p f := by
  intro A
  unfold hashProb
  rw [count_set]
  have hp : (0 : ℚ) < p := by exact_mod_cast Nat.pos_of_ne_zero (NeZero.ne p)
  have hN : (0 : ℚ) < 2 ^ h := by positivity
  have hle : (A.filter (fun a => a.val < 2 ^ h % p)).card ≤ 2 ^ h % p := by
    calc _ ≤ ((Finset.univ : Finset (ZMod p)).filter (fun a => a.val < 2 ^ h % p)).card :=
          Finset.card_le_card (Finset.filter_subset_filter _ (Finset.subset_univ A))
      _ = 2 ^ h % p := card_val_lt (Nat.mod_lt _ (Nat.pos_of_ne_zero (NeZero.ne p))).le
  have hq : ((2 ^ h / p : Nat) : ℚ) * p ≤ 2 ^ h := by
    have := Nat.div_mul_le_self (2 ^ h) p
    exact_mod_cast this
  push_cast
  rw [add_div]
  apply add_le_add
  · rw [div_le_div_iff₀ hN hp]
    have hA : (0 : ℚ) ≤ A.card := by positivity
    push_cast at hq
    nlinarith
  · rw [div_le_div_iff₀ hN hf, one_mul]
    have : ((A.filter (fun a => a.val < 2 ^ h % p)).card : ℚ) ≤ ((2 ^ h % p : Nat) : ℚ) := by exact_mod_cast hle
    nlinarith

theorem hashProb_congr {T : Type} [DecidableEq T] {f g : Nat → T} {h : Nat} (A : Finset T)
    (hfg : ∀ x, x < 2 ^ h → f x = g x) : hashProb f h A = hashProb g h A := by
  unfold hashProb
  congr 2
  apply congrArg
  apply Finset.filter_congr
  intro x hx
  rw [hfg x (Finset.mem_range.1 hx)]

theorem hashProb_ZZp (p h : Nat) (hh : h ≤ 128) (A : Finset (ZMod p)) :
    @hashProb (ZZp p) _ (fun x => (Scalar.ofU128 (BitVec.ofNat 128 x) : ZZp p)) h A =
      hashProb (fun x : Nat => ((x : Nat) : ZMod p)) h A := by
  apply hashProb_congr (T := ZMod p)
  intro x hx
  have hx2 : x < 2 ^ 128 := lt_of_lt_of_le hx (Nat.pow_le_pow_right (by omega) hh)
  have := zzp_ofU128 p (BitVec.ofNat 128 x)
  rw [BitVec.toNat_ofNat, Nat.mod_eq_of_lt hx2] at this
  exact this

theorem hashProb_Zzp (p h : Nat) (h1 : 0 < p) (h2 : p < 2 ^ 60) (hh : h ≤ 128) (A : Finset (ZMod p)) :
    @hashProb (Zzp p) _ (fun x => (Scalar.ofU128 (BitVec.ofNat 128 x) : Zzp p)) h A =
      hashProb (fun x : Nat => ((x : Nat) : ZMod p)) h A := by
  apply hashProb_congr (T := ZMod p)
  intro x hx
  have hx2 : x < 2 ^ 128 := lt_of_lt_of_le hx (Nat.pow_le_pow_right (by omega) hh)
  have := zzp_small_ofU128 h1 h2 (BitVec.ofNat 128 x)
  rw [BitVec.toNat_ofNat, Nat.mod_eq_of_lt hx2] at this
  exact this

/-- Probability of the residues below `2^h mod p`. -/
theorem hashProb_low (p h : Nat) [NeZero p] :
    hashProb (fun x : Nat => ((x : Nat) : ZMod p)) h
      ((Finset.univ : Finset (ZMod p)).filter (fun a => a.val < 2 ^ h % p)) =
      ((2 ^ h % p * (2 ^ h / p) + 2 ^ h % p : Nat) : ℚ) / 2 ^ h := by
  unfold hashProb
  rw [count_set, Finset.filter_filter]
  simp only [and_self]
  rw [card_val_lt (Nat.mod_lt _ (Nat.pos_of_ne_zero (NeZero.ne p))).le]

theorem not_nearUniform_ZZp (p h : Nat) [NeZero p] (hh : h ≤ 128) (f : ℚ)
    (hbad : ((2 ^ h % p : Nat) : ℚ) / p + 1 / f < ((2 ^ h % p * (2 ^ h / p) + 2 ^ h % p : Nat) : ℚ) / 2 ^ h) :
    ¬ NearUniform (fun x => (Scalar.ofU128 (BitVec.ofNat 128 x) : ZZp p)) h p f := by
  intro hn
  have h1 := hn ((Finset.univ : Finset (ZMod p)).filter (fun a => a.val < 2 ^ h % p) : Finset (ZMod p))
  have h2 := (hashProb_ZZp p h hh ((Finset.univ : Finset (ZMod p)).filter (fun a => a.val < 2 ^ h % p))).trans
    (hashProb_low p h)
  have h3 := card_val_lt (p := p) (Nat.mod_lt (2 ^ h) (Nat.pos_of_ne_zero (NeZero.ne p))).le
  have h4 : (((2 ^ h % p * (2 ^ h / p) + 2 ^ h % p : Nat) : ℚ) / 2 ^ h) ≤ ((2 ^ h % p : Nat) : ℚ) / p + 1 / f := by
    rw [← h2]
    refine le_trans h1 (le_of_eq ?_)
    congr 2
    exact congrArg Nat.cast h3
  linarith

theorem canHashMod_128 {p : Nat} (h1 : 0 < p) {f : ℚ} (h : canHashMod p (some f) 128 = true) :
    ((2 ^ 128 % p : Nat) : ℚ) * f < 2 ^ 128 := by
  unfold canHashMod at h
  rw [if_neg (by omega)] at h
  simp only [Nat.lt_irrefl, if_false, decide_eq_true_eq] at h
  have : ((2 ^ 128 - 1) % p + 1) % p = 2 ^ 128 % p := by
    rw [Nat.mod_add_mod]; norm_num
  rw [this] at h
  exact h

/-- C28 for 128-bit hashes (the default of `hash_bits`) and moduli below `2^128`, for `ZZ_p`:
    security `s` is passed as `f = 2^s`. Missing for the full property: `hash_bits < 128` (false,
    see `C28_negation_short_hash`) and larger moduli (false, see `C28_negation_large_modulus`). -/
theorem C28_ZZ_p_partial (p : Nat) (h1 : 0 < p) (h2 : p < 2 ^ 128) (f : ℚ) (hf : 0 < f)
    (h : Scalar.canHash (ZZp p) (some f) 128 = true) :
    NearUniform (fun x => (Scalar.ofU128 (BitVec.ofNat 128 x) : ZZp p)) 128 p f := by
  have : NeZero p := ⟨by omega⟩
  have hm : canHashMod (p % 2 ^ 128) (some f) 128 = true := h
  rw [Nat.mod_eq_of_lt h2] at hm
  have key := nearUniform_mod p 128 f hf (canHashMod_128 h1 hm).le
  intro A
  exact le_trans (le_of_eq (hashProb_ZZp p 128 le_rfl A)) (key A)

/-- C28 for `zz_p` (moduli below `2^60`) and 128-bit hashes. -/
theorem C28_zz_p_partial (p : Nat) (h1 : 0 < p) (h2 : p < 2 ^ 60) (f : ℚ) (hf : 0 < f)
    (h : Scalar.canHash (Zzp p) (some f) 128 = true) :
    NearUniform (fun x => (Scalar.ofU128 (BitVec.ofNat 128 x) : Zzp p)) 128 p f := by
  have : NeZero p := ⟨by omega⟩
  have hm : canHashMod p (some f) 128 = true := h
  have key := nearUniform_mod p 128 f hf (canHashMod_128 h1 hm).le
  intro A
  exact le_trans (le_of_eq (hashProb_Zzp p 128 h1 h2 le_rfl A)) (key A)

example : Scalar.canHash (ZZp (2 ^ 61 - 1)) (some (2 ^ 40)) 128 = true := by
  show canHashMod ((2 ^ 61 - 1) % 2 ^ 128) (some (2 ^ 40)) 128 = true
  unfold canHashMod; norm_num

example : Scalar.canHash (Zzp (2 ^ 59 + 55)) (some (2 ^ 40)) 128 = true := by
  show canHashMod (2 ^ 59 + 55) (some (2 ^ 40)) 128 = true
  unfold canHashMod; norm_num

/-- C28 for unsigned integers: `CanBeHashedInto` returns true only if the hash is at least as long
    as the type, and then truncation is exactly uniform, for every hash length. -/
theorem C28_uint (w h : Nat) (h8 : 8 ∣ w) (hh : h ≤ 128) (sec : Sec)
    (hc : @Scalar.canHash (BitVec w) (scalarUInt w) sec h = true) (A : Finset (BitVec w)) :
    hashProb (fun x => @Scalar.ofU128 (BitVec w) (scalarUInt w) (BitVec.ofNat 128 x)) h A =
      (A.card : ℚ) / 2 ^ w := by
  have hw : w ≤ h := by
    have : decide (w / 8 * 8 ≤ h) = true := hc
    rw [decide_eq_true_iff] at this
    omega
  have hpos : 0 < 2 ^ w := by positivity
  have hNe : NeZero (2 ^ w) := ⟨by positivity⟩
  -- translate to residues
  let B : Finset (ZMod (2 ^ w)) := A.image (fun a => (a.toNat : ZMod (2 ^ w)))
  have hinj : ∀ a b : BitVec w, ((a.toNat : Nat) : ZMod (2 ^ w)) = (b.toNat : Nat) → a = b := by
    intro a b hab
    have := congrArg ZMod.val hab
    rw [ZMod.val_natCast, ZMod.val_natCast, Nat.mod_eq_of_lt a.isLt, Nat.mod_eq_of_lt b.isLt] at this
    exact BitVec.eq_of_toNat_eq this
  have hB : B.card = A.card := Finset.card_image_of_injOn (fun a _ b _ hab => hinj a b hab)
  have hf : (Finset.range (2 ^ h)).filter
        (fun x => @Scalar.ofU128 (BitVec w) (scalarUInt w) (BitVec.ofNat 128 x) ∈ A) =
      (Finset.range (2 ^ h)).filter (fun x => ((x : Nat) : ZMod (2 ^ w)) ∈ B) := by
    apply Finset.filter_congr
    intro x hx
    rw [Finset.mem_range] at hx
    have hx2 : x < 2 ^ 128 := lt_of_lt_of_le hx (Nat.pow_le_pow_right (by omega) hh)
    have hv : ((@Scalar.ofU128 (BitVec w) (scalarUInt w) (BitVec.ofNat 128 x)).toNat : ZMod (2 ^ w)) = x := by
      rw [C27_uint_truncates, BitVec.toNat_ofNat, Nat.mod_eq_of_lt hx2]
      simp
    constructor
    · intro hA
      exact Finset.mem_image.2 ⟨_, hA, hv⟩
    · intro hB
      obtain ⟨a, ha, hab⟩ := Finset.mem_image.1 hB
      rw [← hv] at hab
      rw [← hinj _ _ hab]; exact ha
  unfold hashProb
  rw [hf, count_set, hB]
  have hmod : 2 ^ h % 2 ^ w = 0 := Nat.mod_eq_zero_of_dvd (pow_dvd_pow 2 hw)
  have hdiv : 2 ^ h / 2 ^ w = 2 ^ (h - w) := Nat.pow_div hw (by omega)
  rw [hmod, hdiv]
  simp only [Nat.not_lt_zero, Finset.filter_false, Finset.card_empty, add_zero]
  have : (2 : ℚ) ^ h = 2 ^ (h - w) * 2 ^ w := by rw [← pow_add]; congr 1; omega
  push_cast
  rw [this]
  field_simp

example : @Scalar.canHash (BitVec 64) (scalarUInt 64) (some (2 ^ 40)) 64 = true := by decide

/-- C28: with NaN as the statistical security no modulus (other than multiples of 2^128) passes. -/
theorem C28_nan (p h : Nat) : (Scalar.canHash (Zzp p) none h = true ↔ p = 0) ∧ (Scalar.canHash (ZZp p) none h = true ↔ 2 ^ 128 ∣ p) := by
  have key : ∀ m, canHashMod m none h = true ↔ m = 0 := fun m => by
    unfold canHashMod
    by_cases hm : m = 0
    · simp [hm]
    · simp [hm]
  exact ⟨key p, (key _).trans (Nat.dvd_iff_mod_eq_zero ..).symm⟩

example : Scalar.canHash (ZZp 251) none 128 = false := by rw [Bool.eq_false_iff, ne_eq, (C28_nan 251 128).2]; decide

/-- The property is false for hashes shorter than 128 bits: with the modulus `3 * 2^79` and 88-bit
    hashes, `CanBeHashedInto` promises 40 bits of security, but one set is `1/768` more likely than
    it should be. (scalar_helpers.h:132-134 divides `2^128 - 1` by `2^hash_bits` where
    `2^hash_bits - 1` was meant.) -/
theorem C28_negation_short_hash : Scalar.canHash (ZZp (3 * 2 ^ 79)) (some (2 ^ 40)) 88 = true ∧
    ¬ NearUniform (fun x => (Scalar.ofU128 (BitVec.ofNat 128 x) : ZZp (3 * 2 ^ 79))) 88 (3 * 2 ^ 79) (2 ^ 40) := by
  constructor
  · show canHashMod (3 * 2 ^ 79 % 2 ^ 128) (some (2 ^ 40)) 88 = true
    unfold canHashMod; norm_num
  · have : NeZero (3 * 2 ^ 79) := ⟨by norm_num⟩
    apply not_nearUniform_ZZp _ _ (by norm_num)
    norm_num

/-- It is also false for moduli above `2^128`, which the code truncates: for `2^129` every security
    level is promised, but half of the elements are never produced. -/
theorem C28_negation_large_modulus : Scalar.canHash (ZZp (2 ^ 129)) (some (2 ^ 40)) 128 = true ∧
    ¬ NearUniform (fun x => (Scalar.ofU128 (BitVec.ofNat 128 x) : ZZp (2 ^ 129))) 128 (2 ^ 129) (2 ^ 40) := by
  constructor
  · show canHashMod (2 ^ 129 % 2 ^ 128) (some (2 ^ 40)) 128 = true
    unfold canHashMod; norm_num
  · have : NeZero (2 ^ 129) := ⟨by norm_num⟩
    apply not_nearUniform_ZZp _ _ (by norm_num)
    norm_num

/-! ### C48 -/

namespace NTL

/-- What a call returns when the modulus installed in its thread is `p`. -/
def expected (p : Nat) : Op → Res
  | .setModulus _ => .none
  | .callSizeOf => .size (ntlSizeOf p)
  | .callFrom b => .elem (b.toNat % p)

/-- The results of a history computed without any cache: only the modulus of each thread matters. -/
def expectedAll : (Nat → Nat) → List (Nat × Op) → List Res
  | _, [] => []
  | ps, (i, op) :: rest =>
    expected (ps i) op :: expectedAll (fun j => if j = i then (match op with | .setModulus p => p | _ => ps j) else ps j) rest

/-- The cache invariant: a cached bit count belongs to the cached modulus. -/
def Thread.Inv (t : Thread) : Prop :=
  ∀ b m, t.cachedNumBits = some b → t.cachedModulus = some m → b = numBits (m - 1)

theorem step_ok (t : Thread) (h : t.Inv) (op : Op) :
    ∃ t', step t op = .ok (expected t.modulus op, t') ∧ t'.Inv ∧
      t'.modulus = (match op with | .setModulus p => p | _ => t.modulus) := by
  cases op with
  | setModulus p => exact ⟨{ t with modulus := p }, rfl, h, rfl⟩
  | callSizeOf =>
    simp only [step, sizeOfCached, numBitsCached, expected]
    by_cases hc : t.cachedNumBits.isNone ∨ t.cachedModulus.isNone ∨ some t.modulus ≠ t.cachedModulus
    · rw [if_pos hc]
      refine ⟨_, rfl, ?_, rfl⟩
      intro b m hb hm
      simp only [Option.some.injEq] at hb hm
      rw [← hb, ← hm]
    · rw [if_neg hc]
      simp only [not_or, ne_eq, not_not] at hc
      obtain ⟨h1, h2, h3⟩ := hc
      cases hb : t.cachedNumBits with
      | none => simp [hb] at h1
      | some b =>
        refine ⟨t, ?_, h, rfl⟩
        have := h b t.modulus hb h3.symm
        simp only [Out.ok_bind]
        rw [ntlSizeOf, this]
  | callFrom b =>
    have hb : (b.extractLsb' 64 64).toNat <<< 64 ||| (b.extractLsb' 0 64).toNat = b.toNat := by
      rw [BitVec.extractLsb'_toNat, BitVec.extractLsb'_toNat, Nat.shiftRight_eq_div_pow, Nat.shiftRight_zero,
        ← Nat.shiftLeft_add_eq_or_of_lt (Nat.mod_lt _ (by positivity)), Nat.shiftLeft_eq]
      have := b.isLt
      omega
    refine ⟨{ t with temp := some b.toNat }, ?_, h, rfl⟩
    simp only [step, fromUint128, expected, hb]

theorem run_inv (ts : Nat → Thread) (h : ∀ i, (ts i).Inv) (ops : List (Nat × Op)) :
    run ts ops = .ok (expectedAll (fun i => (ts i).modulus) ops) := by
  induction ops generalizing ts with
  | nil => rfl
  | cons o rest ih =>
    obtain ⟨i, op⟩ := o
    obtain ⟨t', h1, h2, h3⟩ := step_ok (ts i) (h i) op
    simp only [run, h1, Out.ok_bind]
    rw [ih (fun j => if j = i then t' else ts j) (by intro j; by_cases hj : j = i <;> simp [hj, h2, h])]
    simp only [Out.ok_bind, expectedAll]
    congr 3
    funext j
    by_cases hj : j = i
    · subst hj; simp only [if_true]; rw [h3]
    · simp only [if_neg hj]

/-- C48: starting from threads with empty caches, every call of `SizeOf` in every history returns
    the size for the modulus installed in the calling thread at that time (and every
    `FromUint128` reduces by it), whatever was called before, in whichever threads. -/
theorem C48_cache_follows_modulus (ps : Nat → Nat) (ops : List (Nat × Op)) :
    run (fun i => { modulus := ps i }) ops = .ok (expectedAll ps ops) :=
  run_inv _ (by intro i b m hb _; cases hb) ops

example : run (fun _ => { modulus := 257 })
    [(0, .callSizeOf), (0, .setModulus 256), (0, .callSizeOf), (1, .callSizeOf), (0, .setModulus 65537),
     (0, .callFrom 65540), (0, .callSizeOf)] =
    .ok [.size 2, .none, .size 1, .size 2, .none, .elem 3, .size 3] := by
  rw [C48_cache_follows_modulus (fun _ => 257)]
  decide

end NTL
end DVO
