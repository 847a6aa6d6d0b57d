/-
C64: the statistical security of the correlated OT in the Gilboa product.
-/
import Verif.Proofs.Hiding
import Verif.Props.Scalar

namespace DVO
open Finset

theorem count_fin (N : Nat) (P : Nat → Prop) [DecidablePred P] : count (fun d : Fin N => P d.val) = ((range N).filter P).card := by
  unfold count
  rw [← sum_boole, ← Fin.sum_univ_eq_sum_range (fun x => if P x then (1 : ℚ) else 0)]
  exact sum_congr rfl fun a _ => by by_cases h : P a.val <;> simp [h]

/-- Independent conditions. -/
theorem count_all {D : Type} [Fintype D] {n : Nat} (P : Fin n → D → Prop) :
    count (fun m : Fin n → D => ∀ i, P i (m i)) = ∏ i, count (P i) := by
  classical
  rw [count_card, prod_congr rfl fun i _ => count_card (P i), ← Nat.cast_prod, ← Fintype.card_piFinset]
  congr 2
  ext m
  simp

/-- Only the low bits matter. -/
theorem count_low {w : Nat} (hw : w ≤ 128) (P : Nat → Prop) :
    count (fun b : Fin (2 ^ 128) => P (b.val % 2 ^ w)) = 2 ^ (128 - w) * count (fun d : Fin (2 ^ w) => P d.val) := by
  have he : 2 ^ (128 - w) * 2 ^ w = 2 ^ 128 := by rw [← Nat.pow_add, Nat.sub_add_cancel hw]
  rw [← count_equiv (finProdFinEquiv.trans (finCongr he))]
  have : ∀ x : Fin (2 ^ (128 - w)) × Fin (2 ^ w), ((finProdFinEquiv.trans (finCongr he)) x).val % 2 ^ w = x.2.val := by
    intro x
    show (finProdFinEquiv x).val % 2 ^ w = _
    rw [finProdFinEquiv_apply_val, Nat.add_mul_mod_self_left, Nat.mod_eq_of_lt x.2.isLt]
  simp only [this]
  have h : count (fun x : Fin (2 ^ (128 - w)) × Fin (2 ^ w) => P x.2.val) = ∑ _x : Fin (2 ^ (128 - w)), count (fun d : Fin (2 ^ w) => P d.val) := by
    unfold count
    rw [Fintype.sum_prod_type]
  rw [h, sum_const, card_univ, Fintype.card_fin, nsmul_eq_mul]
  push_cast
  rfl

/-- The number of masks that move `a` into `S`. -/
theorem count_shift (p w : Nat) [NeZero p] (a : ZMod p) (S : Set (ZMod p)) [DecidablePred (· ∈ S)] :
    count (fun d : Fin (2 ^ w) => a + ((d.val : ℕ) : ZMod p) ∈ S) =
      ((univ.filter (· ∈ S)).card * (2 ^ w / p) + (univ.filter (fun v => a + v ∈ S ∧ v.val < 2 ^ w % p)).card : ℕ) := by
  rw [count_fin (2 ^ w) (fun d => a + ((d : ℕ) : ZMod p) ∈ S)]
  have h := count_set (2 ^ w) p (univ.filter (fun v => a + v ∈ S))
  simp only [mem_filter, mem_univ, true_and] at h
  rw [h, filter_filter]
  congr 3
  exact card_bij (fun v _ => a + v) (fun v hv => by simpa using hv) (fun v _ v' _ e => add_left_cancel e)
    (fun v hv => ⟨v - a, by simpa using hv, by ring⟩)

/-- Exchanging a mask modulo `p` costs `(2^w mod p) / 2^w`. -/
theorem count_shift_le (p w : Nat) [NeZero p] (a a' : ZMod p) (S : Set (ZMod p)) :
    count (fun d : Fin (2 ^ w) => a + ((d.val : ℕ) : ZMod p) ∈ S) ≤ count (fun d : Fin (2 ^ w) => a' + ((d.val : ℕ) : ZMod p) ∈ S) + (2 ^ w % p : ℕ) := by
  classical
  rw [count_shift, count_shift, ← Nat.cast_add, Nat.cast_le]
  have h1 : (univ.filter (fun v : ZMod p => a + v ∈ S ∧ v.val < 2 ^ w % p)).card ≤ 2 ^ w % p := by
    calc _ ≤ ((univ : Finset (ZMod p)).filter (fun v => v.val < 2 ^ w % p)).card := card_le_card fun v hv => by
          simp only [mem_filter, mem_univ, true_and] at hv ⊢
          exact hv.2
      _ = 2 ^ w % p := card_val_lt (Nat.mod_lt _ (Nat.pos_of_ne_zero (NeZero.ne p))).le
  omega

/-- With 64 or 128 bits `CanBeHashedInto` looks at the right remainder. -/
theorem canHashMod_right {p w : Nat} (hw : w = 64 ∨ w = 128) (h1 : 0 < p) {g : ℚ} (h : canHashMod p (some g) w = true) :
    ((2 ^ w % p : ℕ) : ℚ) * g < 2 ^ w := by
  rcases hw with rfl | rfl
  · unfold canHashMod at h
    rw [if_neg (by omega)] at h
    simp only [show (64 : Nat) < 128 by omega, if_true, decide_eq_true_eq] at h
    have : ((2 ^ 128 - 1) / 2 ^ 64 % p + 1) % p = 2 ^ 64 % p := by
      rw [Nat.mod_add_mod]; norm_num
    rw [this] at h
    exact h
  · exact canHashMod_128 h1 h

namespace Gilboa
open Net

theorem ntlSize_eq {p b : Nat} (h1 : 2 ^ (8 * b) < p) (h2 : p ≤ 2 ^ (8 * (b + 1))) : ntlSizeOf p = b + 1 := by
  have hle := ntlSize_le h2 (Nat.succ_le_of_lt (lt_of_le_of_lt (Nat.zero_le _) h1))
  have hge := le_pow_size (p := p)
  by_contra hne
  have : 2 ^ (8 * ntlSizeOf p) ≤ 2 ^ (8 * b) := Nat.pow_le_pow_right (by omega) (by omega)
  omega

/-- The sizes for which the hash has 64 or 128 bits. -/
theorem right_size {p : Nat} (hp : 2 ^ 56 < p ∧ p ≤ 2 ^ 64 ∨ 2 ^ 120 < p ∧ p ≤ 2 ^ 128) : ntlSizeOf p = 8 ∨ ntlSizeOf p = 16 := by
  rcases hp with hp | hp
  · exact .inl (ntlSize_eq (b := 7) hp.1 hp.2)
  · exact .inr (ntlSize_eq (b := 15) hp.1 hp.2)

theorem bound_arith {n w r : ℚ} {f b : ℚ} (hf : 0 < f) (hw : 0 < w) (hb : 0 ≤ b) (h : r * (f * n) ≤ w) : b * n * (r / w) ≤ b / f := by
  rw [mul_div_assoc', div_le_div_iff₀ hw hf]
  have := mul_le_mul_of_nonneg_left h hb
  linarith

/-- C64 for `ZZ_p` with a modulus of 8 or 16 bytes, security `s` (`f = 2^s`) and correlated OT: no set
    of views is more likely for `y` than for `y'` by more than `8 * SizeOf() * 2^-s`. Missing: the
    factor `8 * SizeOf()` (needed, see `C64_false`); moduli of other sizes (false, see
    `C64_short_false`). -/
theorem C64_ZZ_p_partial {p : Nat} (hp : 2 ^ 56 < p ∧ p ≤ 2 ^ 64 ∨ 2 ^ 120 < p ∧ p ≤ 2 ^ 128) {f : ℚ} (hf : 0 < f) (c : Chans) (rnd : Nat → List (ZZp p))
    (x : ZZp p) {y y' : List (ZZp p)} (hy : y'.length = y.length) (hg : GoodLength (ZZp p) y.length)
    (hk : useCorrelated (ZZp p) (some f) y.length = true) (A : Set (List (Event (Msg (ZZp p))))) :
    viewProb c (some f) rnd x y A ≤ viewProb c (some f) rnd x y' A + (8 * Scalar.sizeOf (ZZp p) : ℕ) / f := by
  have : NeZero p := ⟨by omega⟩
  have : LawfulScalar (ZZp p) := lawful_zzp (by omega) (by omega)
  have hs := right_size hp
  have hbw : bitWidth (ZZp p) = ntlSizeOf p * 8 := rfl
  have hst : stride (ZZp p) = 16 / ntlSizeOf p := rfl
  have hb : bitWidth (ZZp p) * stride (ZZp p) = 128 := by
    rw [hbw, hst]
    rcases hs with h | h <;> rw [h]
  have hw : bitWidth (ZZp p) = 64 ∨ bitWidth (ZZp p) = 128 := by omega
  have hL : LaneBound (ZZp p) ((2 ^ bitWidth (ZZp p) % p : ℕ) / (2 ^ bitWidth (ZZp p) : ℕ)) := by
    intro a a' S
    rw [div_mul_cancel₀ _ (by positivity)]
    have hz : ∀ (a : ZZp p) (d : Fin (2 ^ bitWidth (ZZp p))), a + Scalar.ofU128 (BitVec.ofNat 128 d.val) = @HAdd.hAdd (ZMod p) (ZMod p) (ZMod p) _ a ((d.val : ℕ) : ZMod p) := by
      intro a d
      rw [zzp_ofU128]
      have : 2 ^ bitWidth (ZZp p) ≤ 2 ^ 128 := Nat.pow_le_pow_right (by omega) (by omega)
      rw [BitVec.toNat_ofNat, Nat.mod_eq_of_lt (by omega)]
      rfl
    simp only [hz]
    exact count_shift_le p (bitWidth (ZZp p)) a a' S
  have h := view_bound c rnd x hy hg hk (by positivity) hL hb A
  refine le_trans h (add_le_add le_rfl ?_)
  rw [show 8 * Scalar.sizeOf (ZZp p) = bitWidth (ZZp p) from Nat.mul_comm _ _]
  refine bound_arith hf (by positivity) (by positivity) ?_
  have hk' : canHashMod (p % 2 ^ 128) (ROT.secPerLeaf (some f) y.length) (bitWidth (ZZp p)) = true := hk
  unfold ROT.secPerLeaf at hk'
  rw [if_neg (by omega)] at hk'
  rcases Nat.lt_or_ge p (2 ^ 128) with hlt | hge
  · rw [Nat.mod_eq_of_lt hlt] at hk'
    have := canHashMod_right hw (by omega) hk'
    push_cast at this ⊢
    exact this.le
  · have hp' : p = 2 ^ 128 := by omega
    have hw' : bitWidth (ZZp p) = 128 := by
      rw [hbw, ntlSize_eq (b := 15) (by omega) (by omega)]
    rw [hw', show 2 ^ 128 % p = 0 by rw [hp', Nat.mod_self]]
    simp

/-- C64 for `zz_p`: the modulus needs 8 bytes. -/
theorem C64_zz_p_partial {p : Nat} (h1 : 2 ^ 56 < p) (h2 : p < 2 ^ 60) {f : ℚ} (hf : 0 < f) (c : Chans) (rnd : Nat → List (Zzp p))
    (x : Zzp p) {y y' : List (Zzp p)} (hy : y'.length = y.length) (hg : GoodLength (Zzp p) y.length)
    (hk : useCorrelated (Zzp p) (some f) y.length = true) (A : Set (List (Event (Msg (Zzp p))))) :
    viewProb c (some f) rnd x y A ≤ viewProb c (some f) rnd x y' A + 64 / f := by
  have : NeZero p := ⟨by omega⟩
  have : LawfulScalar (Zzp p) := lawful_zzp_small (by omega) h2
  have hs : ntlSizeOf p = 8 := ntlSize_eq (b := 7) h1 (by omega)
  have hbw : bitWidth (Zzp p) = 64 := by
    show ntlSizeOf p * 8 = 64
    omega
  have hst : stride (Zzp p) = 2 := by
    show 16 / ntlSizeOf p = 2
    rw [hs]
  have hL : LaneBound (Zzp p) ((2 ^ 64 % p : ℕ) / (2 ^ 64 : ℕ)) := by
    intro a a' S
    rw [hbw, div_mul_cancel₀ _ (by positivity)]
    have hz : ∀ (a : Zzp p) (d : Fin (2 ^ 64)), a + Scalar.ofU128 (BitVec.ofNat 128 d.val) = @HAdd.hAdd (ZMod p) (ZMod p) (ZMod p) _ a ((d.val : ℕ) : ZMod p) := by
      intro a d
      rw [zzp_small_ofU128 (by omega) h2]
      rw [BitVec.toNat_ofNat, Nat.mod_eq_of_lt (by omega)]
      rfl
    simp only [hz]
    exact count_shift_le p 64 a a' S
  have h := view_bound c rnd x hy hg hk (by positivity) hL (by rw [hbw, hst]) A
  refine le_trans h (add_le_add le_rfl ?_)
  rw [hbw]
  refine bound_arith hf (by positivity) (by positivity) ?_
  have hk' : canHashMod p (ROT.secPerLeaf (some f) y.length) (bitWidth (Zzp p)) = true := hk
  unfold ROT.secPerLeaf at hk'
  rw [if_neg (by omega), hbw] at hk'
  have := canHashMod_right (.inl rfl) (by omega) hk'
  push_cast at this ⊢
  exact this.le

/-- The hypotheses hold for a 61-bit prime, five elements and 40 bits of security. -/
example : useCorrelated (ZZp (2 ^ 61 - 1)) (some (2 ^ 40)) 5 = true ∧ GoodLength (ZZp (2 ^ 61 - 1)) 5 :=
  ⟨by decide +kernel, by decide +kernel, by decide +kernel⟩

/-- The masks below `2^w mod p` are too likely. -/
theorem count_zero (p w : Nat) [NeZero p] : count (fun d : Fin (2 ^ w) => ((0 : ZMod p) + ((d.val : ℕ) : ZMod p)).val < 2 ^ w % p) =
    (2 ^ w % p * (2 ^ w / p) + 2 ^ w % p : ℕ) := by
  have hr := (Nat.mod_lt (2 ^ w) (Nat.pos_of_ne_zero (NeZero.ne p))).le
  have h := count_shift p w 0 {v : ZMod p | v.val < 2 ^ w % p}
  simp only [Set.mem_ofPred_eq, zero_add, and_self] at h
  rw [card_val_lt hr] at h
  simp only [zero_add]
  exact h

/-- If they are shifted by enough, they are not. -/
theorem count_moved (p w : Nat) [NeZero p] (a : ZMod p) (h1 : 2 ^ w % p ≤ a.val) (h2 : a.val + 2 ^ w % p ≤ p) :
    count (fun d : Fin (2 ^ w) => (a + ((d.val : ℕ) : ZMod p)).val < 2 ^ w % p) = (2 ^ w % p * (2 ^ w / p) : ℕ) := by
  have hr := (Nat.mod_lt (2 ^ w) (Nat.pos_of_ne_zero (NeZero.ne p))).le
  have h := count_shift p w a {v : ZMod p | v.val < 2 ^ w % p}
  simp only [Set.mem_ofPred_eq] at h
  rw [card_val_lt hr, show (univ.filter (fun v : ZMod p => (a + v).val < 2 ^ w % p ∧ v.val < 2 ^ w % p)) = ∅ by
    ext v
    simp only [mem_filter, mem_univ, true_and, notMem_empty, iff_false, not_and, not_lt]
    intro h3
    by_contra h4
    rw [ZMod.val_add_of_lt (by omega)] at h3
    omega] at h
  simpa using h

/-- The views in which each of the first `k` OTs returned at least `t`. -/
def AllAtLeast (T : Type) [Scalar T] (k t : Nat) : Set (List (Event (Msg T))) :=
  {v | ∃ ch cs r, v = [.otRcvd ch cs r] ∧ ∀ i b, i < k → r[i]? = some b → t ≤ b.toNat}

/-- How likely they are, for one element and a modulus of more than 8 bytes. -/
theorem allAtLeast_prob {p s : Nat} (hp1 : 2 ^ (8 * s) < p) (hp2 : p ≤ 2 ^ (8 * (s + 1))) (hs : 8 ≤ s) (hs' : s < 16) {sec : Sec}
    (hk : useCorrelated (ZZp p) sec 1 = true) (c : Chans) (rnd : Nat → List (ZZp p)) (x : ZZp p) {k t : Nat} (hkw : k ≤ 8 * (s + 1))
    (hx : ∀ j < k, Scalar.getBit x j = true) (a : ZZp p) :
    viewProb c sec rnd x [a] (AllAtLeast (ZZp p) k t) =
      ∏ j ∈ range k, (1 - count (fun d : Fin (2 ^ (8 * (s + 1))) => @ZMod.val p (@HAdd.hAdd (ZMod p) (ZMod p) (ZMod p) _ (a * Scalar.setBit j : ZZp p) ((d.val : ℕ) : ZMod p)) < t)
        / 2 ^ (8 * (s + 1))) := by
  have hpos : 0 < 2 ^ (8 * s) := by positivity
  have hle : 2 ^ (8 * (s + 1)) ≤ 2 ^ 128 := Nat.pow_le_pow_right (by omega) (by omega)
  have hge : 2 ^ 64 ≤ 2 ^ (8 * s) := Nat.pow_le_pow_right (by omega) (by omega)
  have hne : NeZero p := ⟨by omega⟩
  have : LawfulScalar (ZZp p) := lawful_zzp (by omega) (by omega)
  have hsz : ntlSizeOf p = s + 1 := ntlSize_eq hp1 hp2
  have hbw : bitWidth (ZZp p) = 8 * (s + 1) := by
    show ntlSizeOf p * 8 = _
    omega
  have hst : stride (ZZp p) = 1 := by
    show 16 / ntlSizeOf p = 1
    rw [hsz]
    exact Nat.div_eq_of_lt_le (by omega) (by omega)
  have hot : otCount (ZZp p) 1 = 8 * (s + 1) := by
    rw [otCount_eq, hbw, hst]
    norm_num
  have hg : GoodLength (ZZp p) [a].length := ⟨by rw [hst]; simp, by rw [hst, hbw, List.length_singleton]; omega⟩
  rw [viewProb_eq c rnd x hg hk]
  rw [count_congr (q := fun m : Fin (otCount (ZZp p) [a].length) → Fin (2 ^ 128) => ∀ i : Fin (otCount (ZZp p) [a].length), (i.val < k → t ≤ (gets x [a] i (BitVec.ofFin (m i))).toNat))]
  swap
  · intro m
    rw [Set.mem_ofPred_eq]
    constructor
    · rintro ⟨ch, cs, r, h, hall⟩ i hi
      unfold viewOf at h
      simp only [List.cons.injEq, Event.otRcvd.injEq, and_true] at h
      refine hall i _ hi ?_
      rw [← h.2.2, tab_get _ i.isLt, dif_pos i.isLt]
    · intro h
      refine ⟨_, _, _, rfl, ?_⟩
      intro i b hi hb
      have hi' : i < otCount (ZZp p) [a].length := by rw [List.length_singleton, hot]; omega
      rw [tab_get _ hi', dif_pos hi', Option.some.injEq] at hb
      rw [← hb]
      exact h ⟨i, hi'⟩ hi
  rw [count_all (fun (i : Fin (otCount (ZZp p) [a].length)) b => i.val < k → t ≤ (gets x [a] i (BitVec.ofFin b)).toNat)]
  rw [Fin.prod_univ_eq_prod_range (fun i => count (fun b : Fin (2 ^ 128) => i < k → t ≤ (gets x [a] i (BitVec.ofFin b)).toNat))]
  rw [List.length_singleton, hot, show ((2 : ℚ) ^ 128) ^ (8 * (s + 1)) = ∏ _i ∈ range (8 * (s + 1)), (2 : ℚ) ^ 128 by rw [prod_const, card_range],
    ← prod_div_distrib, ← prod_subset (range_subset_range.2 hkw)]
  · refine prod_congr rfl fun j hj => ?_
    have hj' := mem_range.1 hj
    have hjw : j < bitWidth (ZZp p) := by omega
    have hlow : ∀ b : Fin (2 ^ 128), (j < k → t ≤ (gets x [a] j (BitVec.ofFin b)).toNat) ↔
        (fun d : Nat => ¬ @ZMod.val p (@HAdd.hAdd (ZMod p) (ZMod p) (ZMod p) _ (a * Scalar.setBit j : ZZp p) ((d : ℕ) : ZMod p)) < t) (b.val % 2 ^ (8 * (s + 1))) := by
      intro b
      unfold gets
      rw [Nat.mod_eq_of_lt hjw, if_pos (hx j hj')]
      have hd := lane_delta [a] 0 j hjw (k := 0) (by omega) (by simp)
      simp only [Nat.zero_mul, Nat.zero_add, List.getElem_cons_zero] at hd
      have hc : (corrBlock (ZZp p) (delta [a] j) (BitVec.ofFin b)).toNat =
          @ZMod.val p (@HAdd.hAdd (ZMod p) (ZMod p) (ZMod p) _ (a * Scalar.setBit j : ZZp p) ((b.val % 2 ^ (8 * (s + 1)) : ℕ) : ZMod p)) := by
        unfold corrBlock pack
        rw [hst, show tab 1 (fun k => lane (ZZp p) (delta [a] j) k + lane (ZZp p) (BitVec.ofFin b) k) = [lane (ZZp p) (delta [a] j) 0 + lane (ZZp p) (BitVec.ofFin b) 0] from rfl, hd]
        simp only [List.map_cons, List.map_nil, digits, mul_one, Nat.mul_zero, Nat.add_zero]
        rw [BitVec.toNat_ofNat, Nat.mod_eq_of_lt (BitVec.isLt _), zzp_toU128 (by omega) (by omega)]
        congr 1
        unfold lane
        rw [zzp_ofU128, hbw, BitVec.toNat_ofNat, Nat.zero_mul, Nat.pow_zero, Nat.div_one,
          Nat.mod_eq_of_lt (lt_of_lt_of_le (Nat.mod_lt _ (by positivity)) hle)]
        rfl
      rw [hc]
      simp [hj', not_lt]
    rw [count_congr hlow, count_low (w := 8 * (s + 1)) (by omega)
      (fun d : Nat => ¬ @ZMod.val p (@HAdd.hAdd (ZMod p) (ZMod p) (ZMod p) _ (a * Scalar.setBit j : ZZp p) ((d : ℕ) : ZMod p)) < t), count_not, Fintype.card_fin]
    have e : (2 : ℚ) ^ 128 = 2 ^ (128 - 8 * (s + 1)) * 2 ^ (8 * (s + 1)) := by rw [← pow_add]; congr 1; omega
    rw [e]
    push_cast
    field_simp
  · intro j _ hj'
    rw [mem_range] at hj'
    rw [count_congr (q := fun _ => True) (fun b => by simp [hj']), count_true, Fintype.card_fin]
    norm_num

/-- The residue of `n`. -/
def res (p n : Nat) : ZZp p := (n : ZMod p)

theorem res_getBit {p n j : Nat} (hn : n < p) : Scalar.getBit (res p n) j = n.testBit j := by
  show (ZMod.val ((n : ℕ) : ZMod p)).testBit j = _
  rw [ZMod.val_natCast, Nat.mod_eq_of_lt hn]

/-- The two probabilities, for `y = [0]` and `y = [a]`. -/
theorem two_probs {p s : Nat} (hp1 : 2 ^ (8 * s) < p) (hp2 : p ≤ 2 ^ (8 * (s + 1))) (hs : 8 ≤ s) (hs' : s < 16) {sec : Sec}
    (hk : useCorrelated (ZZp p) sec 1 = true) (c : Chans) (rnd : Nat → List (ZZp p)) (x : ZZp p) {k : Nat} (hkw : k ≤ 8 * (s + 1))
    (hx : ∀ j < k, Scalar.getBit x j = true) (a : Nat)
    (ha : ∀ j < k, 2 ^ (8 * (s + 1)) % p ≤ a * 2 ^ j % p ∧ a * 2 ^ j % p + 2 ^ (8 * (s + 1)) % p ≤ p) :
    viewProb c sec rnd x [0] (AllAtLeast (ZZp p) k (2 ^ (8 * (s + 1)) % p)) =
      (1 - (2 ^ (8 * (s + 1)) % p * (2 ^ (8 * (s + 1)) / p) + 2 ^ (8 * (s + 1)) % p : ℕ) / 2 ^ (8 * (s + 1))) ^ k ∧
    viewProb c sec rnd x [res p a] (AllAtLeast (ZZp p) k (2 ^ (8 * (s + 1)) % p)) =
      (1 - (2 ^ (8 * (s + 1)) % p * (2 ^ (8 * (s + 1)) / p) : ℕ) / 2 ^ (8 * (s + 1))) ^ k := by
  have hpos : 0 < 2 ^ (8 * s) := by positivity
  have hne : NeZero p := ⟨by omega⟩
  rw [allAtLeast_prob hp1 hp2 hs hs' hk c rnd x hkw hx 0, allAtLeast_prob hp1 hp2 hs hs' hk c rnd x hkw hx (res p a)]
  constructor
  · rw [prod_congr rfl (g := fun _ => 1 - ((2 ^ (8 * (s + 1)) % p * (2 ^ (8 * (s + 1)) / p) + 2 ^ (8 * (s + 1)) % p : ℕ) : ℚ) / 2 ^ (8 * (s + 1)))]
    · rw [prod_const, card_range]
    · intro j _
      congr 2
      rw [zero_mul]
      exact count_zero p _
  · rw [prod_congr rfl (g := fun _ => 1 - ((2 ^ (8 * (s + 1)) % p * (2 ^ (8 * (s + 1)) / p) : ℕ) : ℚ) / 2 ^ (8 * (s + 1)))]
    · rw [prod_const, card_range]
    · intro j hj
      congr 2
      have hv : ZMod.val (res p a * Scalar.setBit j : ZZp p) = a * 2 ^ j % p := by
        have : (res p a * Scalar.setBit j : ZZp p) = ((a * 2 ^ j : ℕ) : ZMod p) := by
          show @HMul.hMul (ZMod p) (ZMod p) (ZMod p) _ (a : ZMod p) ((1 <<< j : ℕ) : ZMod p) = _
          rw [Nat.one_shiftLeft]
          push_cast
          rfl
        rw [this, ZMod.val_natCast]
      obtain ⟨h1, h2⟩ := ha j (mem_range.1 hj)
      exact count_moved p _ _ (by rw [hv]; exact h1) (by rw [hv]; exact h2)

/-- C64 is false for moduli that do not need 8 or 16 bytes: for the modulus `3 * 2^118` (15 bytes) correlated
    OT is used although 40 bits of security are asked for, and already with one element a value
    provider that inputs 1 can tell the vector `[0]` from `[2^118]` with advantage 1/4. -/
theorem C64_short_false : ∃ (p : Nat) (x a : ZZp p) (A : Set (List (Event (Msg (ZZp p))))), p = 3 * 2 ^ 118 ∧
    useCorrelated (ZZp p) (some (2 ^ 40)) 1 = true ∧
    ∀ c rnd, viewProb c (some (2 ^ 40)) rnd x [a] A = viewProb c (some (2 ^ 40)) rnd x [0] A + 1 / 4 := by
  have hk : useCorrelated (ZZp (3 * 2 ^ 118)) (some (2 ^ 40)) 1 = true := by decide +kernel
  refine ⟨3 * 2 ^ 118, res _ 1, res _ (2 ^ 118), AllAtLeast _ 1 (2 ^ (8 * (14 + 1)) % (3 * 2 ^ 118)), rfl, hk, ?_⟩
  intro c rnd
  have h := two_probs (p := 3 * 2 ^ 118) (s := 14) (by norm_num) (by norm_num) (by norm_num) (by norm_num) hk c rnd (res _ 1) (k := 1) (by norm_num)
    (by intro j hj; rw [res_getBit (by norm_num), show j = 0 by omega]; decide) (2 ^ 118) (by decide +kernel)
  rw [h.1, h.2]
  norm_num

/-- For moduli of 15 bytes the check never fails: correlated OT is used for every modulus and every
    vector of fewer than `2^72` elements, at 40 bits of security. -/
theorem C64_unchecked {p : Nat} (h1 : 2 ^ 112 < p) (h2 : p ≤ 2 ^ 120) {n : Nat} (hn : n < 2 ^ 72) : useCorrelated (ZZp p) (some (2 ^ 40)) n = true := by
  show canHashMod (p % 2 ^ 128) (ROT.secPerLeaf (some (2 ^ 40)) n) (ntlSizeOf p * 8) = true
  rw [ntlSize_eq (b := 14) (by omega) (by omega), Nat.mod_eq_of_lt (by omega)]
  have hr : ((if (14 + 1) * 8 < 128 then (2 ^ 128 - 1) / 2 ^ ((14 + 1) * 8) else 2 ^ 128 - 1) % p + 1) % p = 256 := by
    rw [if_pos (by norm_num), Nat.mod_add_mod, Nat.mod_eq_of_lt]
    · norm_num
    · have : (2 ^ 128 - 1) / 2 ^ ((14 + 1) * 8) + 1 = 256 := by norm_num
      omega
  have hs : ROT.secPerLeaf (some (2 ^ 40)) n = some (2 ^ 40 * ((n : ℤ) : ℚ)) := by
    unfold ROT.secPerLeaf
    rw [if_neg (by omega)]
    rfl
  rw [hs]
  unfold canHashMod
  rw [if_neg (by omega)]
  dsimp only
  rw [hr, decide_eq_true_eq]
  have : (n : ℚ) < 2 ^ 72 := by exact_mod_cast hn
  have e : (2 : ℚ) ^ ((14 + 1) * 8) = 256 * (2 ^ 40 * 2 ^ 72) := by norm_num
  rw [e]
  push_cast
  gcongr

example : useCorrelated (ZZp (3 * 2 ^ 118)) (some (2 ^ 40)) (10 : Nat) = true := C64_unchecked (by norm_num) (by norm_num) (by norm_num)

/-- C64 is false even where `CanBeHashedInto` is right, because every element is masked once per bit of `x`
    but `UseCorrelatedOT` counts it once: with the modulus `2^128 - 2^88 + 1`, one element and 40 bits of
    security a value provider can tell `[0]` from another vector with advantage more than
    `126 * 2^-40`. (By `C64_ZZ_p_partial` the advantage is at most `128 * 2^-40`.) -/
theorem C64_false : ∃ (p : Nat) (x a : ZZp p) (A : Set (List (Event (Msg (ZZp p))))), p = 2 ^ 128 - 2 ^ 88 + 1 ∧
    useCorrelated (ZZp p) (some (2 ^ 40)) 1 = true ∧
    ∀ c rnd, viewProb c (some (2 ^ 40)) rnd x [a] A > viewProb c (some (2 ^ 40)) rnd x [0] A + 126 / 2 ^ 40 := by
  have hk : useCorrelated (ZZp (2 ^ 128 - 2 ^ 88 + 1)) (some (2 ^ 40)) 1 = true := by decide +kernel
  refine ⟨2 ^ 128 - 2 ^ 88 + 1, res _ (2 ^ 127 - 1), res _ ((2 ^ 128 - 2 ^ 88) / 3), AllAtLeast _ 127 (2 ^ (8 * (15 + 1)) % (2 ^ 128 - 2 ^ 88 + 1)), rfl, hk, ?_⟩
  intro c rnd
  have h := two_probs (p := 2 ^ 128 - 2 ^ 88 + 1) (s := 15) (by norm_num) (by norm_num) (by norm_num) (by norm_num) hk c rnd
    (res _ (2 ^ 127 - 1)) (k := 127) (by norm_num) (by intro j hj; rw [res_getBit (by norm_num), Nat.testBit_two_pow_sub_one]; simpa using hj) ((2 ^ 128 - 2 ^ 88) / 3) (by decide +kernel)
  rw [h.1, h.2]
  norm_num

end Gilboa
end DVO
