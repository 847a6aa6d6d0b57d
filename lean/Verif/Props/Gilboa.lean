/-
Properties C23-C26 and C56-C58: the Gilboa product.
-/
import Verif.Proofs.Gilboa
import Verif.Proofs.Scalar
import Verif.Spec.MPFSS
import Mathlib.Data.Set.Function
import Mathlib.Tactic.NormNum

namespace DVO.Gilboa
open Net
open MPFSS (toInt32_eq)
variable {T : Type} [Scalar T]

/-! ### C23 -/

/-- C23 for every lawful element type: every interleaving ends with OK on both sides and additive
    shares of `x * y`. -/
theorem C23_product (hT : LawfulScalar T) (c : Chans) (sec : Sec) (m0 : Nat → Block) (rnd : Nat → List T) (x : T)
    (y o0 o1 : List T) (h0 : o0.length = y.length) (h1 : o1.length = y.length) (hg : GoodLength T y.length) :
    ∃ r0 r1 va vb, Computes (runVectorProvider c sec m0 rnd y o0 : PM (Msg T) _) (runValueProvider c sec x o1 : PM (Msg T) _)
        (.ok r0) (.ok r1) va vb ∧
      r0.length = y.length ∧ r1.length = y.length ∧
      ∀ (k : Nat) (yk : T), y[k]? = some yk → ∃ a b, r0[k]? = some a ∧ r1[k]? = some b ∧ a + b = x * yk := by
  refine ⟨_, _, _, _, (joint c sec m0 rnd x y o0 o1 h0 h1 hg).computes, by simp [vectorOut], by simp [valueOut], ?_⟩
  intro k yk hy
  obtain ⟨hk, rfl⟩ := List.getElem?_eq_some_iff.1 hy
  exact out_add sec m0 rnd x y hk

/-- C23 for unsigned integers of every width that is a multiple of 8 up to 128. -/
theorem C23_uint (w : Nat) (h8 : 8 ∣ w) (hw : 8 ≤ w) (hw2 : w ≤ 128) : letI := scalarUInt w
    ∀ (c : Chans) (sec : Sec) (m0 : Nat → Block) (rnd : Nat → List (BitVec w)) (x : BitVec w)
      (y o0 o1 : List (BitVec w)), o0.length = y.length → o1.length = y.length → GoodLength (BitVec w) y.length →
    ∃ r0 r1 va vb, Computes (runVectorProvider c sec m0 rnd y o0 : PM (Msg (BitVec w)) _)
        (runValueProvider c sec x o1 : PM (Msg (BitVec w)) _) (.ok r0) (.ok r1) va vb ∧
      ∀ (k : Nat) (yk : BitVec w), y[k]? = some yk → ∃ a b, r0[k]? = some a ∧ r1[k]? = some b ∧ a + b = x * yk := by
  let := scalarUInt w
  intro c sec m0 rnd x y o0 o1 h0 h1 hg
  obtain ⟨r0, r1, va, vb, h2, -, -, h3⟩ := C23_product (lawful_uint h8 hw hw2) c sec m0 rnd x y o0 o1 h0 h1 hg
  exact ⟨r0, r1, va, vb, h2, h3⟩

/-- C23 for `NTL::ZZ_p` with every modulus of at most 128 bits. -/
theorem C23_ZZ_p (p : Nat) (hp : 2 ≤ p) (hp2 : p ≤ 2 ^ 128) (c : Chans) (sec : Sec) (m0 : Nat → Block)
    (rnd : Nat → List (ZZp p)) (x : ZZp p) (y o0 o1 : List (ZZp p)) (h0 : o0.length = y.length) (h1 : o1.length = y.length)
    (hg : GoodLength (ZZp p) y.length) :
    ∃ r0 r1 va vb, Computes (runVectorProvider c sec m0 rnd y o0 : PM (Msg (ZZp p)) _)
        (runValueProvider c sec x o1 : PM (Msg (ZZp p)) _) (.ok r0) (.ok r1) va vb ∧
      ∀ (k : Nat) (yk : ZZp p), y[k]? = some yk → ∃ a b, r0[k]? = some a ∧ r1[k]? = some b ∧ a + b = x * yk := by
  obtain ⟨r0, r1, va, vb, h2, -, -, h3⟩ := C23_product (lawful_zzp hp hp2) c sec m0 rnd x y o0 o1 h0 h1 hg
  exact ⟨r0, r1, va, vb, h2, h3⟩

/-- C23 for `NTL::zz_p` with every modulus NTL accepts. -/
theorem C23_zz_p (p : Nat) (hp : 2 ≤ p) (hp2 : p < 2 ^ 60) (c : Chans) (sec : Sec) (m0 : Nat → Block)
    (rnd : Nat → List (Zzp p)) (x : Zzp p) (y o0 o1 : List (Zzp p)) (h0 : o0.length = y.length) (h1 : o1.length = y.length)
    (hg : GoodLength (Zzp p) y.length) :
    ∃ r0 r1 va vb, Computes (runVectorProvider c sec m0 rnd y o0 : PM (Msg (Zzp p)) _)
        (runValueProvider c sec x o1 : PM (Msg (Zzp p)) _) (.ok r0) (.ok r1) va vb ∧
      ∀ (k : Nat) (yk : Zzp p), y[k]? = some yk → ∃ a b, r0[k]? = some a ∧ r1[k]? = some b ∧ a + b = x * yk := by
  obtain ⟨r0, r1, va, vb, h2, -, -, h3⟩ := C23_product (lawful_zzp_small hp hp2) c sec m0 rnd x y o0 o1 h0 h1 hg
  exact ⟨r0, r1, va, vb, h2, h3⟩

/-- A case that meets the hypotheses: five 32-bit elements, i.e. two groups of at most four. -/
example : GoodLength (BitVec 32) 5 ∧ GoodLength (BitVec 128) 16000000 ∧ stride (BitVec 32) = 4 :=
  ⟨⟨by decide, by decide⟩, ⟨by decide, by decide⟩, rfl⟩

/-- With different lengths the products of the example are what they should be. -/
example : ∃ r0 r1 va vb, Computes
      (runVectorProvider ⟨0, 1, 2⟩ (some (2 ^ 40)) (fun i => BitVec.ofNat 128 (i * 977)) (fun _ => []) [1, 2, 3, 4, 5] [0, 0, 0, 0, 0] : PM (Msg (BitVec 32)) _)
      (runValueProvider ⟨0, 1, 2⟩ (some (2 ^ 40)) (0xfffffff0 : BitVec 32) [9, 9, 9, 9, 9] : PM (Msg (BitVec 32)) _)
      (.ok r0) (.ok r1) va vb ∧ ∃ a b, r0[4]? = some a ∧ r1[4]? = some b ∧ a + b = 0xffffffb0 := by
  obtain ⟨r0, r1, va, vb, h, h2⟩ := C23_uint 32 (by norm_num) (by norm_num) (by norm_num) ⟨0, 1, 2⟩ (some (2 ^ 40))
    (fun i => BitVec.ofNat 128 (i * 977)) (fun _ => []) 0xfffffff0 [1, 2, 3, 4, 5] [0, 0, 0, 0, 0] [9, 9, 9, 9, 9] rfl rfl
    ⟨by decide, by decide⟩
  exact ⟨r0, r1, va, vb, h, h2 4 5 rfl⟩

/-! ### C24 -/

/-- C24: unpacking a packed span gives `v[i] * m` for its elements and 0 for the remaining
    positions. -/
theorem C24_pack_roundtrip (hT : LawfulScalar T) (v : List T) (m : T) (hv : v.length ≤ 16 / Scalar.sizeOf T) :
    ∃ b r, spanToBlock v m = .ok b ∧ blockToVector T b = .ok r ∧ r.length = 16 / Scalar.sizeOf T ∧
      (∀ (i : Nat) (x : T), v[i]? = some x → r[i]? = some (x * m)) ∧
      ∀ i, v.length ≤ i → i < 16 / Scalar.sizeOf T → r[i]? = some 0 := by
  have hp := LawfulScalar.size_pos (T := T)
  refine ⟨_, _, spanToBlock_eq v m hv, by unfold blockToVector; rw [if_neg (by omega), blockToSpan_eq _ _ (by simp)], by simp [stride], ?_, ?_⟩
  · intro i x hx
    obtain ⟨hi, rfl⟩ := List.getElem?_eq_some_iff.1 hx
    rw [tab_get _ (show i < stride T from lt_of_lt_of_le hi hv), lane_pack v m hv, dif_pos hi]
  · intro i h1 h2
    rw [tab_get _ (show i < stride T from h2), lane_pack v m hv, dif_neg (by omega)]

/-- A case: three bytes and multiplier 100, of which two products wrap around. -/
example : ([1, 7, 255] : List (BitVec 8)).length ≤ 16 / Scalar.sizeOf (BitVec 8) ∧
    spanToBlock ([1, 7, 255] : List (BitVec 8)) 100 = .ok 0x9cbc64 := by decide +kernel

/-- C24: unpacking into a span of any other length hits the assertion. -/
theorem C24_wrong_length (hT : LawfulScalar T) (b : Block) (out : List T) (h : out.length ≠ 16 / Scalar.sizeOf T) :
    blockToSpan b out = .ub "assert" := by
  have hp := LawfulScalar.size_pos (T := T)
  unfold blockToSpan
  rw [if_neg (by omega), if_pos (by unfold stride; omega)]

example : blockToSpan (5 : Block) ([1, 2, 3] : List (BitVec 32)) = .ub "assert" := C24_wrong_length inferInstance _ _ (by decide)

/-! ### C25 -/

/-- A run of the protocol for any element type, from the results of its local parts. -/
theorem joint_of_parts (c : Chans) (sec : Sec) (m0 : Nat → Block) (rnd : Nat → List T) (x : T) (y o0 o1 : List T)
    (h0 : o0.length = y.length) (h1 : o1.length = y.length) (hs : 1 ≤ Scalar.sizeOf T) (hs2 : Scalar.sizeOf T ≤ 16)
    (hy : y.length < 2 ^ 31) {n : Nat}
    {D : List Block} {ms : List (Block × Block)} {cs : List Bool} {r0 r1 : List T} (hn : numOTs T y.length = .ok (n : Int))
    (hD : makeDeltas y ((y.length + stride T - 1) / stride T) = .ok D)
    (hm : otMessages sec m0 rnd D y.length = .ok ms) (hc : makeChoices x ((y.length + stride T - 1) / stride T) n = .ok cs)
    (hl : ms.length = cs.length)
    (hr0 : accumulate (· - ·) (ms.map Prod.fst) y.length ((y.length + stride T - 1) / stride T) (List.replicate y.length 0) = .ok r0)
    (hr1 : accumulate (· + ·) (otResult ms cs) y.length ((y.length + stride T - 1) / stride T) (List.replicate y.length 0) = .ok r1) :
    Joint (runVectorProvider c sec m0 rnd y o0 : PM (Msg T) _) (runValueProvider c sec x o1 : PM (Msg T) _)
      (.ok r0) (.ok r1) [.otSent c.gilboa ms] [.otRcvd c.gilboa cs (otResult ms cs)] := by
  unfold runVectorProvider runValueProvider
  rw [if_neg (by omega), if_neg (by omega), if_neg (by omega), if_neg (by omega), if_neg (by omega)]
  dsimp only
  rw [h1, h0, toInt32_eq (by omega), hn, hD, PM.lift_ok_bind, hm, PM.lift_ok_bind, PM.otSend_bind, PM.lift_ok_bind,
    if_neg (by omega), Int.toNat_natCast, Int.toNat_natCast, hc, PM.lift_ok_bind, PM.otRecv_bind]
  refine Joint.otSR hl ?_
  rw [hr0, hr1]
  exact Joint.ret _ _

/-- The value of a successful computation in the example. -/
def getOk {α : Type} (d : α) : Out α → α
  | .ok a => a
  | _ => d

/-- Vector, OT messages and choice bits of the example. -/
def exY : List (SInt 32) := [-1, 5]
def exMs : List (Block × Block) := getOk [] (makeDeltas exY 1 >>= fun D =>
  otMessages (T := SInt 32) (some (2 ^ 40)) (fun _ => 0) (fun _ => []) D 2)
def exCs : List Bool := getOk [] (makeChoices (1 : SInt 32) 1 32)

/-- C25, negation: with `T = int32_t`, `y = [-1, 5]`, `x = 1`, both parties return OK, and the second
    product comes out as -1. (The first messages of the correlated OT may be anything; here they are
    0.) -/
theorem C25_negation_signed :
    ∃ (y : List (SInt 32)) (x : SInt 32) (r0 r1 : List (SInt 32)) (va vb : List (Event (Msg (SInt 32)))),
      Computes (runVectorProvider ⟨0, 1, 2⟩ (some (2 ^ 40)) (fun _ => 0) (fun _ => []) y [0, 0] : PM (Msg (SInt 32)) _)
        (runValueProvider ⟨0, 1, 2⟩ (some (2 ^ 40)) x [0, 0] : PM (Msg (SInt 32)) _) (.ok r0) (.ok r1) va vb ∧
      x = 1 ∧ y[1]? = some 5 ∧ ∃ a b, r0[1]? = some a ∧ r1[1]? = some b ∧ a + b = -1 ∧ a + b ≠ x * 5 := by
  refine ⟨exY, 1, [0, 0], [-1, -1], _, _, Joint.computes (joint_of_parts (D := getOk [] (makeDeltas exY 1)) (ms := exMs) (cs := exCs) (n := 32) _ _ _ _ _ _ _ _ rfl rfl
    ?_ ?_ ?_ ?_ ?_ ?_ ?_ ?_ ?_ ?_), rfl, rfl, 0, -1, rfl, rfl, ?_, ?_⟩
  all_goals decide +kernel

/-- C25, what is true: the product is correct for the unsigned integer types. Missing: signed
    types, for which it is false. -/
theorem C25_unsigned_partial (w : Nat) (h8 : 8 ∣ w) (hw : 8 ≤ w) (hw2 : w ≤ 128) : letI := scalarUInt w
    ∀ (c : Chans) (sec : Sec) (m0 : Nat → Block) (rnd : Nat → List (BitVec w)) (x : BitVec w)
      (y o0 o1 : List (BitVec w)), o0.length = y.length → o1.length = y.length → GoodLength (BitVec w) y.length →
    ∃ r0 r1 va vb, Computes (runVectorProvider c sec m0 rnd y o0 : PM (Msg (BitVec w)) _)
        (runValueProvider c sec x o1 : PM (Msg (BitVec w)) _) (.ok r0) (.ok r1) va vb ∧
      ∀ (k : Nat) (yk : BitVec w), y[k]? = some yk → ∃ a b, r0[k]? = some a ∧ r1[k]? = some b ∧ a + b = x * yk :=
  C23_uint w h8 hw hw2

/-! ### C26 -/

/-- The vector provider's program on valid arguments: one batch of OTs, then OK. -/
theorem vectorProvider_eq (hT : LawfulScalar T) (c : Chans) (sec : Sec) (m0 : Nat → Block) (rnd : Nat → List T) (y o0 : List T)
    (h0 : o0.length = y.length) (hg : GoodLength T y.length) :
    (runVectorProvider c sec m0 rnd y o0 : PM (Msg T) _) =
      Proc.otSend c.gilboa (otKind T sec y.length) (pairs sec m0 rnd y) (.ret (.ok (vectorOut sec m0 rnd y.length))) := by
  have hp := LawfulScalar.size_pos (T := T)
  have hl := LawfulScalar.size_le (T := T)
  unfold runVectorProvider
  rw [if_neg (by omega), if_neg (by omega), if_neg (by omega)]
  dsimp only
  rw [h0, makeDeltas_eq, PM.lift_ok_bind, otMessages_eq _ _ _ hg.ots, PM.lift_ok_bind, PM.otSend_bind, tab_map,
    accumulate_eq (· - ·) (-1) (by intro a b; ring) _ _ _ rfl]
  rfl

/-- C23: the vector provider runs correlated OT exactly if its hashes are good enough for all elements. The first messages are
    then those of the OT; otherwise they do not depend on it. -/
theorem C23_which_ot (hT : LawfulScalar T) (c : Chans) (sec : Sec) (m0 : Nat → Block) (rnd : Nat → List T) (y o0 : List T)
    (h0 : o0.length = y.length) (hg : GoodLength T y.length) :
    ∃ kind ms r, (runVectorProvider c sec m0 rnd y o0 : PM (Msg T) _) = Proc.otSend c.gilboa kind ms (.ret (.ok r)) ∧
      (kind = .cot ↔ Scalar.canHash T (sec.map (· * y.length)) (8 * Scalar.sizeOf T) = true) ∧
      (kind = .cot → ∀ (i : Nat) (m : Block × Block), ms[i]? = some m → m.1 = m0 i) ∧
      (kind = .ot → ∀ m0', (runVectorProvider c sec m0' rnd y o0 : PM (Msg T) _) = runVectorProvider c sec m0 rnd y o0) := by
  refine ⟨_, _, _, vectorProvider_eq hT c sec m0 rnd y o0 h0 hg, ?_, ?_, ?_⟩
  · have hs : ROT.secPerLeaf sec (y.length : Int) = sec.map (· * (y.length : ℚ)) := by
      unfold ROT.secPerLeaf
      rw [if_neg (by omega)]
      push_cast
      rfl
    unfold otKind useCorrelated bitWidth
    rw [hs, Nat.mul_comm 8]
    split <;> simp_all
  · intro hk i m hm
    unfold otKind at hk
    have hu : useCorrelated T sec y.length = true := by by_contra hc; rw [if_neg hc] at hk; cases hk
    unfold pairs at hm
    have hi : i < bitWidth T * ((y.length + stride T - 1) / stride T) := by
      have := (List.getElem?_eq_some_iff.1 hm).1
      rwa [tab_length] at this
    rw [tab_get _ hi, Option.some_inj] at hm
    rw [← hm]
    unfold first
    rw [if_pos hu]
  · intro hk m0'
    unfold otKind at hk
    have hu : ¬ useCorrelated T sec y.length = true := by intro hc; rw [if_pos hc] at hk; cases hk
    have hf : first sec m0' rnd y.length = first sec m0 rnd y.length := by funext i; unfold first; rw [if_neg hu, if_neg hu]
    rw [vectorProvider_eq hT c sec m0' rnd y o0 h0 hg, vectorProvider_eq hT c sec m0 rnd y o0 h0 hg]
    unfold pairs vectorOut
    rw [hf]

/-- Cases: bytes use correlated OT, a 15-bit prime field at 40 bits does not. -/
example : Scalar.canHash (BitVec 8) ((some (2 ^ 40) : Sec).map (· * ((5 : Nat) : ℚ))) (8 * Scalar.sizeOf (BitVec 8)) = true ∧
    Scalar.canHash (Zzp 32749) ((some (2 ^ 40) : Sec).map (· * ((5 : Nat) : ℚ))) (8 * Scalar.sizeOf (Zzp 32749)) = false := by
  decide +kernel

/-- The value provider's program on valid arguments: one batch of OTs, then OK. -/
theorem valueProvider_eq (hT : LawfulScalar T) (c : Chans) (sec : Sec) (x : T) (o : List T) (hg : GoodLength T o.length) :
    (runValueProvider c sec x o : PM (Msg T) _) =
      Proc.otRecv c.gilboa (otKind T sec o.length) (choices x o.length)
        (fun ot => .ret (accumulate (· + ·) ot o.length ((o.length + stride T - 1) / stride T) (List.replicate o.length 0))) := by
  have hp := LawfulScalar.size_pos (T := T)
  have hl := LawfulScalar.size_le (T := T)
  have hlen := hg.len
  unfold runValueProvider
  rw [if_neg (by omega), if_neg (by omega)]
  dsimp only
  rw [toInt32_eq (by omega), numOTs_eq hg, PM.lift_ok_bind, if_neg (by omega), Int.toNat_natCast, Int.toNat_natCast, makeChoices_eq, PM.lift_ok_bind,
    PM.otRecv_bind]
  rfl

/-- C26 for the vector provider: it returns INVALID_ARGUMENT, at once and without communicating,
    exactly if the lengths differ or the elements are longer than 16 bytes. -/
theorem C26_vector_provider (hT : LawfulScalar T ∨ 16 < Scalar.sizeOf T) (c : Chans) (sec : Sec) (m0 : Nat → Block)
    (rnd : Nat → List T) (y output : List T) (hg : Scalar.sizeOf T ≤ 16 → GoodLength T y.length) :
    (∃ msg, (runVectorProvider c sec m0 rnd y output : PM (Msg T) _) = .ret (.err .invalidArgument msg)) ↔
      y.length ≠ output.length ∨ 16 < Scalar.sizeOf T := by
  constructor
  · rintro ⟨msg, h⟩
    by_contra hc
    push Not at hc
    rw [vectorProvider_eq (hT.resolve_right (by omega)) _ _ _ _ _ _ hc.1.symm (hg hc.2)] at h
    cases h
  · intro h
    unfold runVectorProvider
    by_cases h1 : y.length ≠ output.length
    · exact ⟨_, by rw [if_pos h1]; rfl⟩
    · exact ⟨_, by rw [if_neg h1, if_pos (by omega)]; rfl⟩

/-- C26: with valid arguments the vector provider never returns an error, whatever the other party
    does and however the two are scheduled. -/
theorem C26_vector_provider_never_later (hT : LawfulScalar T) (c : Chans) (sec : Sec) (m0 : Nat → Block) (rnd : Nat → List T)
    (y o0 : List T) (h0 : o0.length = y.length) (hg : GoodLength T y.length) {β : Type} (q : Proc (Msg T) β) {n : Nat}
    {t : Net (Msg T) (Out (List T)) β} (hr : Steps n (init (runVectorProvider c sec m0 rnd y o0) q) t) {r : Out (List T)}
    (ht : t.p = .ret r) : ∃ v, r = .ok v := by
  have h : Straight (runVectorProvider c sec m0 rnd y o0 : PM (Msg T) _) [.otSent c.gilboa (pairs sec m0 rnd y)]
      (.ok (vectorOut sec m0 rnd y.length)) := by
    rw [vectorProvider_eq hT c sec m0 rnd y o0 h0 hg]
    exact .otSend _ _ _ _ _ _ (.ret _)
  obtain ⟨w, rest, h1, h2, h3⟩ := h.view hr rfl
  rw [ht] at h3
  cases h3
  exact ⟨_, rfl⟩

/-- C26 for the value provider. -/
theorem C26_value_provider (hT : LawfulScalar T ∨ 16 < Scalar.sizeOf T) (c : Chans) (sec : Sec) (x : T) (output : List T)
    (hg : Scalar.sizeOf T ≤ 16 → GoodLength T output.length) :
    (∃ msg, (runValueProvider c sec x output : PM (Msg T) _) = .ret (.err .invalidArgument msg)) ↔
      16 < Scalar.sizeOf T := by
  constructor
  · rintro ⟨msg, h⟩
    by_contra hc
    push Not at hc
    rw [valueProvider_eq (hT.resolve_right (by omega)) _ _ _ _ (hg hc)] at h
    cases h
  · intro h
    unfold runValueProvider
    exact ⟨_, by rw [if_pos h]; rfl⟩

/-- C26 for the value provider called with a length. -/
theorem C26_value_provider_length (hT : LawfulScalar T ∨ 16 < Scalar.sizeOf T) (c : Chans) (sec : Sec) (x : T) (yLen : Int)
    (hg : Scalar.sizeOf T ≤ 16 → GoodLength T yLen.toNat) :
    (∃ msg, (runValueProvider' c sec x yLen : PM (Msg T) _) = .ret (.err .invalidArgument msg)) ↔
      yLen < 0 ∨ 16 < Scalar.sizeOf T := by
  unfold runValueProvider'
  by_cases h : yLen < 0
  · rw [if_pos h]
    exact ⟨fun _ => .inl h, fun _ => ⟨_, rfl⟩⟩
  · rw [if_neg h, C26_value_provider hT c sec x _ (by simpa using hg)]
    simp [h]

/-- Cases for both sides of the equivalences: a modulus of 136 bits, and one of 128 bits. -/
example : 16 < Scalar.sizeOf (ZZp (2 ^ 136)) := by decide +kernel
example : LawfulScalar (ZZp (2 ^ 128)) ∧ GoodLength (ZZp (2 ^ 128)) 3 :=
  ⟨lawful_zzp (by norm_num) (by norm_num), by decide +kernel, by decide +kernel⟩

/-! ### C56 -/

/-- C56, negation: with `absl::uint128` and 2^24 elements (256 MB) the value provider's `int`
    arithmetic overflows, whatever its value and output are. -/
theorem C56_negation_overflow (c : Chans) (sec : Sec) (x : BitVec 128) (o : List (BitVec 128)) (ho : o.length = 2 ^ 24) :
    (runValueProvider c sec x o : PM (Msg (BitVec 128)) _) = .ret (.ub "signed overflow") := by
  unfold runValueProvider
  rw [if_neg (by decide +kernel), if_neg (by decide +kernel)]
  dsimp only
  rw [ho, toInt32_eq (by norm_num)]
  have : numOTs (BitVec 128) ((2 ^ 24 : Nat) : Int) = .ub "signed overflow" := by decide +kernel
  rw [this]
  rfl

/-- C56, exactly: for an output of fewer than 2^31 elements the value provider has undefined
    behaviour if and only if the number of OTs (or the rounded-up length) does not fit an `int`. -/
theorem C56_value_provider_ub_iff (hT : LawfulScalar T) (c : Chans) (sec : Sec) (x : T) (o : List T) (ho : o.length < 2 ^ 31) :
    (∃ why, (runValueProvider c sec x o : PM (Msg T) _) = .ret (.ub why)) ↔ ¬ GoodLength T o.length := by
  have hp := LawfulScalar.size_pos (T := T)
  have hl := LawfulScalar.size_le (T := T)
  have hs := stride_pos T
  constructor
  · rintro ⟨why, h⟩ hg
    rw [valueProvider_eq hT c sec x o hg] at h
    cases h
  · intro hg
    have : ∃ why, numOTs T o.length = .ub why := by
      unfold numOTs
      by_cases h1 : (o.length : Int) + stride T > 2 ^ 31 - 1
      · exact ⟨_, by rw [if_pos h1]⟩
      · rw [if_neg h1]
        have e : ((o.length : Int) + (stride T : Int) - 1).tdiv (stride T) = (((o.length + stride T - 1) / stride T : Nat) : Int) := by
          rw [show (o.length : Int) + (stride T : Int) - 1 = ((o.length + stride T - 1 : Nat) : Int) by omega]
          exact Int.ofNat_tdiv _ _ |>.symm
        dsimp only
        rw [e, ← Int.natCast_mul]
        refine ⟨_, if_pos (.inl ?_)⟩
        by_contra h2
        exact hg ⟨by omega, by omega⟩
    obtain ⟨why, h⟩ := this
    refine ⟨why, ?_⟩
    unfold runValueProvider
    rw [if_neg (by omega), if_neg (by omega)]
    dsimp only
    rw [toInt32_eq ho, h]
    rfl

/-- C56, what is true: every vector for which the number of OTs fits an `int`. Missing: longer
    vectors, for which it is false. The bounds for the integer types are in the examples below. -/
theorem C56_good_lengths_partial (hT : LawfulScalar T) (c : Chans) (sec : Sec) (m0 : Nat → Block) (rnd : Nat → List T) (x : T)
    (y o0 o1 : List T) (h0 : o0.length = y.length) (h1 : o1.length = y.length) (hg : GoodLength T y.length) :
    ∃ r0 r1 va vb, Computes (runVectorProvider c sec m0 rnd y o0 : PM (Msg T) _) (runValueProvider c sec x o1 : PM (Msg T) _)
        (.ok r0) (.ok r1) va vb ∧
      ∀ (k : Nat) (yk : T), y[k]? = some yk → ∃ a b, r0[k]? = some a ∧ r1[k]? = some b ∧ a + b = x * yk := by
  obtain ⟨r0, r1, va, vb, h2, -, -, h3⟩ := C23_product hT c sec m0 rnd x y o0 o1 h0 h1 hg
  exact ⟨r0, r1, va, vb, h2, h3⟩

example (n : Nat) : GoodLength (BitVec 128) n ↔ n < 2 ^ 24 :=
  ⟨fun h => by have := h.ots; simp only [bitWidth, stride, Scalar.sizeOf] at this; omega,
   fun h => ⟨by simp only [stride, Scalar.sizeOf]; omega, by simp only [bitWidth, stride, Scalar.sizeOf]; omega⟩⟩
example (n : Nat) : GoodLength (BitVec 64) n ↔ n ≤ 2 ^ 26 - 2 :=
  ⟨fun h => by have := h.ots; simp only [bitWidth, stride, Scalar.sizeOf] at this; omega,
   fun h => ⟨by simp only [stride, Scalar.sizeOf]; omega, by simp only [bitWidth, stride, Scalar.sizeOf]; omega⟩⟩

/-! ### C58 -/

theorem straight_runVectorProvider (c : Chans) (sec : Sec) (m0 : Nat → Block) (rnd : Nat → List T) (y o0 : List T) :
    IsStraight (runVectorProvider c sec m0 rnd y o0 : PM (Msg T) _) := by
  unfold runVectorProvider
  split
  · exact .lift _
  split
  · exact .lift _
  split
  · exact .lift _
  exact .bind (.lift _) fun _ => .bind (.lift _) fun _ => .bind (.otSend _ _ _) fun _ => .lift _

/-- C58: for all arguments of the vector provider there is one fixed list of events and one result
    such that, whatever program the other party runs and however the two are scheduled, the vector
    provider's view is a prefix of that list, and what it returns is that result. In particular it
    receives nothing. -/
theorem C58_any_value_provider (c : Chans) (sec : Sec) (m0 : Nat → Block) (rnd : Nat → List T) (y o0 : List T) :
    ∃ (v : List (Event (Msg T))) (r : Out (List T)), ∀ (β : Type) (q : Proc (Msg T) β) (n : Nat)
      (t : Net (Msg T) (Out (List T)) β), Steps n (init (runVectorProvider c sec m0 rnd y o0) q) t →
      t.pv <+: v ∧ ∀ r', t.p = .ret r' → r' = r ∧ t.pv = v := by
  obtain ⟨v, r, h⟩ := straight_runVectorProvider c sec m0 rnd y o0
  refine ⟨v, r, ?_⟩
  intro β q n t ht
  obtain ⟨w, rest, h1, h2, h3⟩ := h.view ht rfl
  simp only [init, List.nil_append] at h1
  refine ⟨⟨rest, by rw [h1, h2]⟩, ?_⟩
  intro r' hr
  rw [hr] at h3
  cases h3
  exact ⟨rfl, by rw [h1, h2]; simp⟩

/-- C58 in honest runs: the view consists of the OTs sent, the same for every `x`, and a run in which
    it finishes exists for each. -/
theorem C58_honest (hT : LawfulScalar T) (c : Chans) (sec : Sec) (m0 : Nat → Block) (rnd : Nat → List T)
    (y o0 o1 : List T) (h0 : o0.length = y.length) (h1 : o1.length = y.length) (hg : GoodLength T y.length) :
    ∃ ms r0, ∀ x, ∃ r1 vb, Computes (runVectorProvider c sec m0 rnd y o0 : PM (Msg T) _)
      (runValueProvider c sec x o1 : PM (Msg T) _) (.ok r0) (.ok r1) [.otSent c.gilboa ms] vb :=
  ⟨_, _, fun x => ⟨_, _, (joint c sec m0 rnd x y o0 o1 h0 h1 hg).computes⟩⟩

/-! ### C57 -/

/-- The masks of the 1-out-of-2 OT: `stride` elements per OT. -/
def Masks (T : Type) [Scalar T] : Set (Nat → List T) := {rnd | ∀ i, (rnd i).length = 16 / Scalar.sizeOf T}

/-- The change of masks that turns a run with `y` into one with `y'`. -/
def shift (x : T) (y y' : List T) (rnd : Nat → List T) (i : Nat) : List T :=
  tab (stride T) (fun k => (rnd i).getD k 0 +
    if Scalar.getBit x (i % bitWidth T) then lane T (delta y i) k - lane T (delta y' i) k else 0)

theorem shift_mem (x : T) (y y' : List T) (rnd : Nat → List T) : shift x y y' rnd ∈ Masks T := by
  intro i; simp [shift, stride]

theorem getD_tab {n k : Nat} (f : Nat → T) (hk : k < n) : (tab n f).getD k 0 = f k := by
  rw [List.getD_eq_getElem?_getD, tab_get _ hk]; rfl

theorem shift_shift (x : T) (y y' : List T) (rnd : Nat → List T) (h : rnd ∈ Masks T) :
    shift x y' y (shift x y y' rnd) = rnd := by
  funext i
  have e : rnd i = tab (stride T) (fun k => (rnd i).getD k 0) := by
    conv_lhs => rw [tab_self (rnd i) 0, h i]
    rfl
  rw [e]
  unfold shift
  apply tab_congr
  intro k hk
  rw [getD_tab _ hk]
  split <;> ring

/-- Two runs give the value provider the same view and output if all OT results are equal. -/
theorem view_congr (hT : LawfulScalar T) (c : Chans) (sec : Sec) (m0 m0' : Nat → Block) (rnd rnd' : Nat → List T) (x : T)
    (y y' o0 o1 : List T) (hy : y'.length = y.length) (h0 : o0.length = y.length) (h1 : o1.length = y.length)
    (hg : GoodLength T y.length)
    (h : ∀ i, received sec m0 rnd x y i = received sec m0' rnd' x y' i) :
    ∃ r1 vb,
      (∃ r0 va, Computes (runVectorProvider c sec m0 rnd y o0 : PM (Msg T) _)
        (runValueProvider c sec x o1 : PM (Msg T) _) (.ok r0) (.ok r1) va vb) ∧
      (∃ r0 va, Computes (runVectorProvider c sec m0' rnd' y' o0 : PM (Msg T) _)
        (runValueProvider c sec x o1 : PM (Msg T) _) (.ok r0) (.ok r1) va vb) := by
  have j1 := joint c sec m0 rnd x y o0 o1 h0 h1 hg
  have j2 := joint c sec m0' rnd' x y' o0 o1 (by omega) (by omega) (by rw [hy]; exact hg)
  have e1 : valueOut sec m0' rnd' x y' = valueOut sec m0 rnd x y := by
    unfold valueOut
    rw [hy, funext h]
  have e2 : otResult (pairs sec m0' rnd' y') (choices x y'.length) = otResult (pairs sec m0 rnd y) (choices x y.length) := by
    unfold pairs choices
    rw [otResult_tab, otResult_tab, hy]
    apply tab_congr
    intro i _
    have := h i
    unfold received at this
    rw [hy] at this
    exact this.symm
  rw [e1, e2, hy] at j2
  exact ⟨_, _, ⟨_, _, j1.computes⟩, ⟨_, _, j2.computes⟩⟩

/-- C57 when 1-out-of-2 OT is used (any lawful element type): a bijection of the masks drawn by the
    vector provider makes the value provider's view and output for `y` and `y'` coincide. -/
theorem C57_chosen_ot (hT : LawfulScalar T) (c : Chans) (sec : Sec) (m0 : Nat → Block) (x : T) (y y' o0 o1 : List T)
    (hy : y'.length = y.length) (h0 : o0.length = y.length) (h1 : o1.length = y.length) (hg : GoodLength T y.length)
    (hk : useCorrelated T sec y.length = false) :
    ∃ φ : (Nat → List T) → (Nat → List T), Set.BijOn φ (Masks T) (Masks T) ∧ ∀ rnd ∈ Masks T, ∃ r1 vb,
      (∃ r0 va, Computes (runVectorProvider c sec m0 rnd y o0 : PM (Msg T) _)
        (runValueProvider c sec x o1 : PM (Msg T) _) (.ok r0) (.ok r1) va vb) ∧
      (∃ r0 va, Computes (runVectorProvider c sec m0 (φ rnd) y' o0 : PM (Msg T) _)
        (runValueProvider c sec x o1 : PM (Msg T) _) (.ok r0) (.ok r1) va vb) := by
  refine ⟨shift x y y', ?_, ?_⟩
  · exact Set.InvOn.bijOn (f' := shift x y' y) ⟨fun r hr => shift_shift x y y' r hr, fun r hr => shift_shift x y' y r hr⟩
      (fun r _ => shift_mem x y y' r) (fun r _ => shift_mem x y' y r)
  · intro rnd hr
    refine view_congr hT c sec m0 m0 rnd _ x y y' o0 o1 hy h0 h1 hg ?_
    intro i
    have hl : (rnd i).length = stride T := hr i
    have hl2 : (shift x y y' rnd i).length = stride T := by simp [shift]
    unfold received first
    rw [hy]
    simp only [hk, Bool.false_eq_true, if_false]
    rw [List.take_of_length_le (by omega), List.take_of_length_le (by omega)]
    by_cases hb : Scalar.getBit x (i % bitWidth T) = true
    · simp only [hb, if_true]
      unfold corrBlock
      congr 1
      apply tab_congr
      intro k hk
      rw [lane_pack _ _ (by omega), lane_pack _ _ (by omega), dif_pos (by omega), dif_pos (by omega)]
      have : (shift x y y' rnd i)[k] = (rnd i)[k] + (lane T (delta y i) k - lane T (delta y' i) k) := by
        have h3 := getD_tab (n := stride T) (fun k => (rnd i).getD k 0 +
          if Scalar.getBit x (i % bitWidth T) then lane T (delta y i) k - lane T (delta y' i) k else 0) hk
        rw [if_pos hb] at h3
        rw [show tab (stride T) _ = shift x y y' rnd i from rfl] at h3
        rw [List.getD_eq_getElem?_getD, List.getD_eq_getElem?_getD, List.getElem?_eq_getElem (by omega), List.getElem?_eq_getElem (by omega)] at h3
        exact h3
      rw [this]
      ring
    · simp only [hb]
      have : shift x y y' rnd i = rnd i := by
        unfold shift
        conv_rhs => rw [tab_self (rnd i) 0, hl]
        apply tab_congr
        intro k _
        rw [if_neg hb, add_zero]
      rw [this]
      rfl

/-- Element types whose packing uses all 128 bits of a block and every bit pattern of an element. -/
structure Full (T : Type) [Scalar T] : Prop where
  bits : 16 / Scalar.sizeOf T * (8 * Scalar.sizeOf T) = 128
  to_of : ∀ b : Block, b.toNat < 2 ^ (8 * Scalar.sizeOf T) → Scalar.toU128 (Scalar.ofU128 b : T) = b

theorem digits_tab {B : Nat} (n : Nat) : ∀ b : Nat, digits B (tab n (fun k => b / B ^ k % B)) = b % B ^ n := by
  induction n with
  | zero => intro b; simp [tab, digits, Nat.mod_one]
  | succ n ih =>
    intro b
    have : tab (n + 1) (fun k => b / B ^ k % B) = (b % B) :: tab n (fun k => (b / B) / B ^ k % B) := by
      unfold tab
      rw [List.range_succ_eq_map, List.map_cons, List.map_map]
      simp only [Nat.pow_zero, Nat.div_one, List.cons.injEq, true_and]
      apply List.map_congr_left
      intro k _
      simp only [Function.comp_apply, Nat.succ_eq_add_one]
      rw [Nat.div_div_eq_div_mul, Nat.pow_succ, Nat.mul_comm]
    rw [this, digits, ih, Nat.pow_succ, Nat.mul_comm (B ^ n), Nat.mod_mul]

/-- Packing the unpacked block gives the block back. -/
theorem pack_lane [LawfulScalar T] (hF : Full T) (b : Block) : pack (tab (stride T) (lane T b)) 1 = b := by
  unfold pack
  rw [tab_map]
  have : ∀ k, (Scalar.toU128 (lane T b k * 1)).toNat = b.toNat / (2 ^ bitWidth T) ^ k % 2 ^ bitWidth T := by
    intro k
    rw [mul_one]
    unfold lane
    have hlt : b.toNat / 2 ^ (k * bitWidth T) % 2 ^ bitWidth T < 2 ^ bitWidth T := Nat.mod_lt _ (by positivity)
    have hle : bitWidth T ≤ 128 := by
      have := LawfulScalar.size_le (T := T); unfold bitWidth; omega
    have h2 : 2 ^ bitWidth T ≤ 2 ^ 128 := Nat.pow_le_pow_right (by norm_num) hle
    have h3 : (BitVec.ofNat 128 (b.toNat / 2 ^ (k * bitWidth T) % 2 ^ bitWidth T)).toNat = b.toNat / 2 ^ (k * bitWidth T) % 2 ^ bitWidth T := by
      rw [BitVec.toNat_ofNat, Nat.mod_eq_of_lt (by omega)]
    rw [hF.to_of _ (by rw [h3, Nat.mul_comm 8]; exact hlt), h3, ← Nat.pow_mul, Nat.mul_comm k]
  simp only [this]
  rw [digits_tab, ← Nat.pow_mul]
  have h4 : bitWidth T * stride T = 128 := by
    have := hF.bits
    unfold bitWidth stride
    rw [Nat.mul_comm, Nat.mul_comm (Scalar.sizeOf T)]
    exact this
  rw [h4, Nat.mod_eq_of_lt b.isLt]
  simp

/-- The change of the blocks of the correlated OT that turns a run with `y` into one with `y'`. -/
def shiftB (x : T) (y y' : List T) (m0 : Nat → Block) (i : Nat) : Block :=
  if Scalar.getBit x (i % bitWidth T) then
    pack (tab (stride T) (fun k => lane T (delta y i) k - lane T (delta y' i) k + lane T (m0 i) k)) 1
  else m0 i

theorem lane_shiftB [LawfulScalar T] (d : Nat → T) {k : Nat} (hk : k < stride T) : lane T (pack (tab (stride T) d) 1) k = d k := by
  rw [lane_pack _ _ (by simp), dif_pos (by simpa using hk)]
  simp [tab]

theorem shiftB_shiftB [LawfulScalar T] (hF : Full T) (x : T) (y y' : List T) (m0 : Nat → Block) :
    shiftB x y' y (shiftB x y y' m0) = m0 := by
  funext i
  unfold shiftB
  split
  · rw [← pack_lane hF (m0 i)]
    congr 1
    apply tab_congr
    intro k hk
    rw [lane_shiftB _ hk, lane_shiftB _ hk]
    ring
  · rfl

/-- C57 when correlated OT is used, for element types that fill the block: a bijection of the
    blocks chosen by the OT extension makes the value provider's view and output for `y` and `y'`
    coincide. -/
theorem C57_correlated_ot (hT : LawfulScalar T) (hF : Full T) (c : Chans) (sec : Sec) (rnd : Nat → List T) (x : T) (y y' o0 o1 : List T)
    (hy : y'.length = y.length) (h0 : o0.length = y.length) (h1 : o1.length = y.length) (hg : GoodLength T y.length)
    (hk : useCorrelated T sec y.length = true) :
    ∃ φ : (Nat → Block) → (Nat → Block), Function.Bijective φ ∧ ∀ m0, ∃ r1 vb,
      (∃ r0 va, Computes (runVectorProvider c sec m0 rnd y o0 : PM (Msg T) _)
        (runValueProvider c sec x o1 : PM (Msg T) _) (.ok r0) (.ok r1) va vb) ∧
      (∃ r0 va, Computes (runVectorProvider c sec (φ m0) rnd y' o0 : PM (Msg T) _)
        (runValueProvider c sec x o1 : PM (Msg T) _) (.ok r0) (.ok r1) va vb) := by
  refine ⟨shiftB x y y', Function.bijective_iff_has_inverse.2 ⟨shiftB x y' y, shiftB_shiftB hF x y y', shiftB_shiftB hF x y' y⟩, ?_⟩
  intro m0
  refine view_congr hT c sec m0 _ rnd rnd x y y' o0 o1 hy h0 h1 hg ?_
  intro i
  unfold received first
  rw [hy]
  simp only [hk, if_true]
  by_cases hb : Scalar.getBit x (i % bitWidth T) = true
  · simp only [hb, if_true]
    unfold corrBlock
    congr 1
    apply tab_congr
    intro k hk
    unfold shiftB
    rw [if_pos hb, lane_shiftB _ hk]
    ring
  · simp only [hb]
    unfold shiftB
    rw [if_neg hb]
    rfl

/-- The unsigned integer types fill the block. -/
theorem full_uint {w : Nat} (h8 : 8 ∣ w) (hw : w ∣ 128) : letI := scalarUInt w; Full (BitVec w) := by
  let := scalarUInt w
  obtain ⟨s, rfl⟩ := h8
  obtain ⟨q, hq⟩ := hw
  have hs : 0 < s := by
    rcases Nat.eq_zero_or_pos s with rfl | h
    · simp at hq
    · exact h
  have hsz : (Scalar.sizeOf (BitVec (8 * s))) = s := by
    show 8 * s / 8 = s
    omega
  constructor
  · rw [hsz]
    have h16 : 16 = s * q := by
      have : 8 * (s * q) = 8 * 16 := by rw [← Nat.mul_assoc]; omega
      omega
    have : 16 / s = q := by rw [h16, Nat.mul_div_cancel_left _ hs]
    rw [this, Nat.mul_comm]; omega
  · intro b hb
    rw [hsz] at hb
    show (b.setWidth (8 * s)).setWidth 128 = b
    apply BitVec.eq_of_toNat_eq
    rw [BitVec.toNat_setWidth, BitVec.toNat_setWidth, Nat.mod_eq_of_lt hb, Nat.mod_eq_of_lt b.isLt]

/-- The hypotheses hold e.g. for `uint32_t` (correlated OT) and for a 61-bit prime with three
    elements and 40 bits of security (1-out-of-2 OT). -/
example : Full (BitVec 32) ∧ useCorrelated (BitVec 32) (some (2 ^ 40)) 3 = true :=
  ⟨full_uint (by norm_num) (by norm_num), by decide +kernel⟩
example : LawfulScalar (ZZp (2 ^ 61 - 1)) ∧ useCorrelated (ZZp (2 ^ 61 - 1)) (some (2 ^ 100)) 3 = false ∧ GoodLength (ZZp (2 ^ 61 - 1)) 3 :=
  ⟨lawful_zzp (by norm_num) (by norm_num), by decide +kernel, by decide +kernel, by decide +kernel⟩

end DVO.Gilboa
