/-
Properties C10-C12: single-point function secret sharing with known index.
-/
import Verif.Proofs.SPFSS
import Verif.Props.ROT

namespace DVO.SPFSS
open ROT GGM Net
variable {T : Type} [Scalar T]

theorem elem_valueOut (aes : Cipher) (fl : Nat → Nat → Nat) (key seed : Nat → Block) (ns : List Nat) (i k : Nat) :
    elem (valueOut T aes fl key seed ns) i k =
      (ns[i]?).bind (fun n => if k < n then some (- leafVal T aes fl key seed i n k) else none) := by
  unfold elem valueOut
  rw [List.getElem?_mapIdx]
  cases ns[i]? with
  | none => rfl
  | some n =>
    simp only [Option.map_some, Option.bind_some, List.getElem?_map]
    by_cases hk : k < n
    · simp [hk]
    · simp [hk]

theorem elem_indexOut (aes : Cipher) (fl : Nat → Nat → Nat) (key seed : Nat → Block) (a b : List T) (ns ms : List Nat) (i k : Nat) :
    elem (indexOut aes fl key seed a b ns ms) i k =
      (ns[i]?).bind (fun n => if k < n then
        some (if k = (ms[i]?).getD 0 then (a[i]?).getD 0 + (b[i]?).getD 0 + leafVal T aes fl key seed i n k
          else leafVal T aes fl key seed i n k) else none) := by
  unfold elem indexOut
  rw [List.getElem?_mapIdx]
  cases ns[i]? with
  | none => rfl
  | some n =>
    simp only [Option.map_some, Option.bind_some, List.getElem?_map]
    by_cases hk : k < n
    · simp [hk]
    · simp [hk]

/-! ### C10 -/

/-- C10: with matching arguments every interleaving ends with OK on both sides, the outputs keep
    their sizes, and they add up to `a[j] + b[j]` at the index and to 0 everywhere else. -/
theorem C10_point_function (aes : Cipher) (fl : Nat → Nat → Nat) (c : Chans) (sec : Sec) (key seed : Nat → Block)
    (a b : List T) (O0 O1 : List (List T)) (idx : List Int) (h : Matching O0 O1 idx)
    (ha : a.length = O0.length) (hb : b.length = O1.length)
    (hfl : ∀ o ∈ O1, GoodSize fl o.length)
    (hsec : Scalar.canHash T (secPerLeaf sec (accumulateInt (O0.map List.length))) 128 = true) :
    ∃ V W va vb,
      Computes (runValueProviderBatched aes fl c sec key seed a O0 : PM (Msg T) _)
        (runIndexProviderBatched aes fl c b idx O1 : PM (Msg T) _) (.ok V) (.ok W) va vb ∧
      V.map List.length = O0.map List.length ∧ W.map List.length = O1.map List.length ∧
      ∀ (j k : Nat) (o : List T) (i : Int) (x y : T), O0[j]? = some o → idx[j]? = some i → a[j]? = some x →
        b[j]? = some y → k < o.length →
        ∃ v w, elem V j k = some v ∧ elem W j k = some w ∧ v + w = if (k : Int) = i then x + y else 0 := by
  obtain ⟨ms, rfl, hidx⟩ := h.nat
  refine ⟨_, _, _, _, (joint aes c key seed h.sizes hidx (good_map hfl) hsec ha hb).computes, ?_, ?_, ?_⟩
  · rw [h.sizes]
    apply List.ext_getElem?
    intro i
    simp only [valueOut, List.getElem?_map, List.getElem?_mapIdx, Option.map_map]
    cases O1[i]? <;> simp
  · apply List.ext_getElem?
    intro i
    simp only [indexOut, List.getElem?_map, List.getElem?_mapIdx, Option.map_map]
    cases O1[i]? <;> simp
  · intro j k o i x y ho hi hx hy hk
    simp only [List.getElem?_map, Option.map_eq_some_iff] at hi
    obtain ⟨m, hm, rfl⟩ := hi
    rw [elem_valueOut, elem_indexOut, ← h.sizes, List.getElem?_map, ho, hm, hx, hy]
    simp only [Option.map_some, Option.bind_some, hk, if_true, Option.getD_some]
    refine ⟨_, _, rfl, rfl, ?_⟩
    by_cases e : k = m
    · subst e; simp
    · rw [if_neg e, if_neg (by omega)]; simp

/-- A case that meets the hypotheses: `ZZ_p` with a Mersenne prime, entries of sizes 6, 0 and 5. -/
example : ∃ V W va vb, Computes
      (runValueProviderBatched exCipher exFl ⟨0, 1, 2⟩ (some (2 ^ 40)) (fun j => j) (fun i => i + 7)
        [5, 6, 7] [List.replicate 6 0, [], List.replicate 5 (0 : ZZp (2 ^ 61 - 1))] : PM (Msg (ZZp (2 ^ 61 - 1))) _)
      (runIndexProviderBatched exCipher exFl ⟨0, 1, 2⟩ [11, 12, 13] [4, 3, 0]
        [List.replicate 6 0, [], List.replicate 5 (0 : ZZp (2 ^ 61 - 1))] : PM (Msg (ZZp (2 ^ 61 - 1))) _) (.ok V) (.ok W) va vb := by
  obtain ⟨S, R, va, vb, h, _⟩ := C10_point_function (T := ZZp (2 ^ 61 - 1)) exCipher exFl ⟨0, 1, 2⟩ (some (2 ^ 40))
    (fun j => j) (fun i => i + 7) [5, 6, 7] [11, 12, 13]
    [List.replicate 6 0, [], List.replicate 5 (0 : ZZp (2 ^ 61 - 1))] [List.replicate 6 0, [], List.replicate 5 (0 : ZZp (2 ^ 61 - 1))]
    [4, 3, 0] ⟨rfl, rfl, by
      intro i o j ho hj
      match i with
      | 0 => simp at ho hj; subst ho; subst hj; simp
      | 1 => simp at ho hj; subst ho; subst hj; simp
      | 2 => simp at ho hj; subst ho; subst hj; simp
      | i + 3 => simp at ho⟩ rfl rfl
    (by
      intro o ho
      simp at ho
      rcases ho with rfl | rfl | rfl <;> constructor <;> simp [exFl])
    (by
      show canHashMod ((2 ^ 61 - 1) % 2 ^ 128) (secPerLeaf (some (2 ^ 40)) 11) 128 = true
      unfold canHashMod secPerLeaf; norm_num)
  exact ⟨S, R, va, vb, h⟩

/-! ### C11 -/

/-- C11: besides what the random OT sends (`vrot`, which does not depend on the shares), the value
    provider sends one message: its share plus the sum of its vector, for each entry (`V` is the
    negated vector). For each non-empty entry and every candidate share `x'` there is exactly one
    value of the element at the index provider's index that explains this message. -/
theorem C11_message_masked (aes : Cipher) (fl : Nat → Nat → Nat) (c : Chans) (sec : Sec) (key seed : Nat → Block)
    (O0 O1 : List (List T)) (hfl : ∀ o ∈ O1, GoodSize fl o.length)
    (hsec : Scalar.canHash T (secPerLeaf sec (accumulateInt (O0.map List.length))) 128 = true) :
    ∃ V vrot, ∀ (a b : List T) (idx : List Int), Matching O0 O1 idx → a.length = O0.length → b.length = O1.length →
      ∃ W vb msg,
        Computes (runValueProviderBatched aes fl c sec key seed a O0 : PM (Msg T) _)
          (runIndexProviderBatched aes fl c b idx O1 : PM (Msg T) _) (.ok V) (.ok W)
          (vrot ++ [.sent c.main (.elems msg)]) vb ∧
        (∀ (j : Nat) (x : T) (v : List T), a[j]? = some x → V[j]? = some v →
          msg[j]? = some (x + (v.map (fun y => -y)).sum)) ∧
        (∀ (j m : Nat) (y x' : T) (v : List T), V[j]? = some v → m < v.length → msg[j]? = some y →
          ∃! leaf : T, y = x' + ((v.map (fun y => -y)).set m leaf).sum) := by
  refine ⟨valueOut T aes fl key seed (O1.map List.length), senderView T aes fl c key seed (O1.map List.length), ?_⟩
  intro a b idx h ha hb
  obtain ⟨ms, rfl, hidx⟩ := h.nat
  have hl : O0.length = O1.length := by simpa using congrArg List.length h.sizes
  refine ⟨_, _, _, (joint aes c key seed h.sizes hidx (good_map hfl) hsec ha hb).computes, ?_, ?_⟩
  · intro j x v hx hv
    have hj : j < O1.length := by
      obtain ⟨h1, _⟩ := List.getElem?_eq_some_iff.1 hx
      omega
    simp only [valueOut, sumsMsg, List.getElem?_mapIdx, List.getElem?_map, hj, List.getElem?_eq_getElem, Option.map_some,
      Option.some.injEq, hx, Option.getD_some] at hv ⊢
    rw [← hv]
    simp [sum_map_range, Function.comp_def]
  · intro j m y x' v hv hm hy
    have hset : ∀ (l : List T) (z : T), m < l.length → (l.set m z).sum = (l.set m 0).sum + z := by
      clear hm hv hy v
      intro l z
      induction l generalizing m with
      | nil => intro h; simp at h
      | cons q l ih =>
        intro h
        cases m with
        | zero => simp [add_comm]
        | succ m =>
          simp only [List.set_cons_succ, List.sum_cons]
          rw [ih m (by simpa using h)]
          ring
    refine ⟨y - x' - ((v.map (fun y => -y)).set m 0).sum, ?_, ?_⟩
    · dsimp only
      rw [hset _ _ (by simpa using hm)]
      ring
    · intro z hz
      rw [hset _ _ (by simpa using hm)] at hz
      rw [hz]; ring

/-- C11, in terms of the index provider's knowledge: its complete view and its output are the same
    for two values of the shares and seeds, as long as the seeds agree on the siblings of the path
    nodes and the changes of share and missing leaf cancel. -/
theorem C11_view_independent (aes : Cipher) (fl : Nat → Nat → Nat) (c : Chans) (sec : Sec) (key seed seed' : Nat → Block)
    (O0 O1 : List (List T)) (idx : List Int) (a a' b : List T) (h : Matching O0 O1 idx)
    (ha : a.length = O0.length) (ha' : a'.length = O0.length) (hb : b.length = O1.length)
    (hfl : ∀ o ∈ O1, GoodSize fl o.length)
    (hsec : Scalar.canHash T (secPerLeaf sec (accumulateInt (O0.map List.length))) 128 = true)
    (hag : ∀ (i m : Nat) (o : List T), O1[i]? = some o → idx[i]? = some (m : Int) → o ≠ [] →
      CopathAgree aes key (fl o.length 2) o.length m (seed i) (seed' i))
    (hmask : ∀ (i m : Nat) (o : List T) (x x' : T), O1[i]? = some o → idx[i]? = some (m : Int) → a[i]? = some x →
      a'[i]? = some x' → if o = [] then x = x' else
        x + Scalar.ofU128 (nodeVal aes 2 key (seed i) (fl o.length 2) m) =
        x' + Scalar.ofU128 (nodeVal aes 2 key (seed' i) (fl o.length 2) m)) :
    ∃ W vb,
      (∃ V va, Computes (runValueProviderBatched aes fl c sec key seed a O0 : PM (Msg T) _)
        (runIndexProviderBatched aes fl c b idx O1 : PM (Msg T) _) (.ok V) (.ok W) va vb) ∧
      (∃ V va, Computes (runValueProviderBatched aes fl c sec key seed' a' O0 : PM (Msg T) _)
        (runIndexProviderBatched aes fl c b idx O1 : PM (Msg T) _) (.ok V) (.ok W) va vb) := by
  obtain ⟨ms, rfl, hidx⟩ := h.nat
  have j1 := joint aes c key seed h.sizes hidx (good_map hfl) hsec ha hb
  have j2 := joint aes c key seed' h.sizes hidx (good_map hfl) hsec ha' hb
  have hlen : O1.length = ms.length := by simpa using hidx.1
  have hl : O0.length = O1.length := by simpa using congrArg List.length h.sizes
  have hag' : AgreeAll aes fl key seed seed' (O1.map List.length) ms := by
    intro i n m hn hm hpos
    simp only [List.getElem?_map, Option.map_eq_some_iff] at hn
    obtain ⟨o, ho, rfl⟩ := hn
    exact hag i m o ho (by simp [hm]) (by intro e; rw [e] at hpos; simp at hpos)
  have hmsg : sumsMsg aes fl key seed a (O1.map List.length) = sumsMsg aes fl key seed' a' (O1.map List.length) := by
    apply List.ext_getElem?
    intro i
    simp only [sumsMsg, List.getElem?_mapIdx, List.getElem?_map]
    by_cases hi : i < O1.length
    · have h1 : i < a.length := by omega
      have h2 : i < a'.length := by omega
      have h3 : i < ms.length := by omega
      simp only [hi, h1, h2, List.getElem?_eq_getElem, Option.map_some, Option.getD_some, Option.some.injEq]
      have hm := hmask i ms[i] O1[i] a[i] a'[i] (by simp [hi]) (by simp [h3]) (by simp [h1]) (by simp [h2])
      by_cases hz : O1[i] = []
      · rw [if_pos hz] at hm; simp [hz, hm]
      · rw [if_neg hz] at hm
        have hpos : 0 < O1[i].length := List.length_pos_iff.2 hz
        have hmn := hidx.2 i O1[i].length ms[i] (by simp [hi]) (by simp [h3]) hpos
        have hco := hag' i O1[i].length ms[i] (by simp [hi]) (by simp [h3]) hpos
        have hg := hfl O1[i] (List.getElem_mem hi)
        rw [← Finset.add_sum_erase _ _ (Finset.mem_range.2 hmn), ← Finset.add_sum_erase (Finset.range O1[i].length) (leafVal T aes fl key seed' i O1[i].length) (Finset.mem_range.2 hmn),
          ← add_assoc, ← add_assoc]
        congr 1
        apply Finset.sum_congr rfl
        intro k hk
        rw [Finset.mem_erase, Finset.mem_range] at hk
        exact leafVal_agree hg hmn hco hk.2 hk.1
    · simp [hi]
  have hout : indexOut aes fl key seed a b (O1.map List.length) ms = indexOut aes fl key seed' a' b (O1.map List.length) ms := by
    apply List.ext_getElem?
    intro i
    simp only [indexOut, List.getElem?_mapIdx, List.getElem?_map]
    by_cases hi : i < O1.length
    · have h1 : i < a.length := by omega
      have h2 : i < a'.length := by omega
      have h3 : i < ms.length := by omega
      have h4 : i < b.length := by omega
      simp only [hi, h1, h2, h3, h4, List.getElem?_eq_getElem, Option.map_some, Option.getD_some, Option.some.injEq]
      have hm := hmask i ms[i] O1[i] a[i] a'[i] (by simp [hi]) (by simp [h3]) (by simp [h1]) (by simp [h2])
      by_cases hz : O1[i] = []
      · simp [hz]
      · rw [if_neg hz] at hm
        have hpos : 0 < O1[i].length := List.length_pos_iff.2 hz
        have hmn := hidx.2 i O1[i].length ms[i] (by simp [hi]) (by simp [h3]) hpos
        have hco := hag' i O1[i].length ms[i] (by simp [hi]) (by simp [h3]) hpos
        have hg := hfl O1[i] (List.getElem_mem hi)
        apply List.map_congr_left
        intro k hk
        rw [List.mem_range] at hk
        by_cases e : k = ms[i]
        · rw [if_pos e, if_pos e, e]
          have : leafVal T aes fl key seed i O1[i].length ms[i] + a[i] = leafVal T aes fl key seed' i O1[i].length ms[i] + a'[i] := by
            unfold leafVal; rw [add_comm, hm, add_comm]
          calc a[i] + b[i] + leafVal T aes fl key seed i O1[i].length ms[i]
              = (leafVal T aes fl key seed i O1[i].length ms[i] + a[i]) + b[i] := by ring
            _ = a'[i] + b[i] + leafVal T aes fl key seed' i O1[i].length ms[i] := by rw [this]; ring
        · rw [if_neg e, if_neg e]
          exact leafVal_agree hg hmn hco hk e
    · simp [hi]
  rw [hout, hmsg, receiverView_agree c hidx (good_map hfl) hag'] at j1
  exact ⟨_, _, ⟨_, _, j1.computes⟩, ⟨_, _, j2.computes⟩⟩

/-- Different shares that cannot be told apart: one leaf, so there is no OT and the seed is the leaf. -/
example : (3 : BitVec 64) + Scalar.ofU128 (nodeVal exCipher 2 (fun j => j) 10 0 0) =
    (5 : BitVec 64) + Scalar.ofU128 (nodeVal exCipher 2 (fun j => j) 8 0 0) ∧
    CopathAgree exCipher (fun j => j) 0 1 0 10 8 := by
  refine ⟨by decide, ?_⟩
  intro l hl; omega

/-! ### C12 (SPFSS) -/

/-- C12, value provider: a wrong number of shares is rejected before any communication. -/
theorem C12_value_rejects (aes : Cipher) (fl : Nat → Nat → Nat) (c : Chans) (sec : Sec) (key seed : Nat → Block)
    (a : List T) (O0 : List (List T)) (h : a.length ≠ O0.length) :
    ∃ msg, (runValueProviderBatched aes fl c sec key seed a O0 : PM (Msg T) _) =
      Proc.ret (.err .invalidArgument msg) := by
  unfold runValueProviderBatched
  rw [if_pos h]; exact ⟨_, rfl⟩

/-- C12, index provider: wrong numbers of shares or indices, a negative index, or an index not below
    the size of its non-empty entry are rejected before any communication. -/
theorem C12_index_rejects (aes : Cipher) (fl : Nat → Nat → Nat) (c : Chans)
    (b : List T) (idx : List Int) (O1 : List (List T))
    (h : b.length ≠ O1.length ∨ b.length ≠ idx.length ∨ ∃ (i : Nat) (o : List T) (j : Int), O1[i]? = some o ∧
      idx[i]? = some j ∧ (j < 0 ∨ (o ≠ [] ∧ (o.length : Int) ≤ j))) :
    ∃ msg, (runIndexProviderBatched aes fl c b idx O1 : PM (Msg T) _) =
      Proc.ret (.err .invalidArgument msg) := by
  unfold runIndexProviderBatched
  by_cases hc : b.length ≠ O1.length ∨ b.length ≠ idx.length
  · rw [if_pos hc]; exact ⟨_, rfl⟩
  · rw [if_neg hc]
    rcases h with h | h | h
    · exact absurd (Or.inl h) hc
    · exact absurd (Or.inr h) hc
    · obtain ⟨msg, hr⟩ := C12_receiver_rejects aes fl c idx O1 (Or.inr h)
      rw [hr]
      exact ⟨msg, rfl⟩

/-- All other arguments are accepted: both go on to the random OT. -/
theorem C12_accepts (aes : Cipher) (fl : Nat → Nat → Nat) (c : Chans) (sec : Sec) (key seed : Nat → Block)
    (a b : List T) (idx : List Int) (O0 O1 : List (List T)) (ha : a.length = O0.length)
    (hb : b.length = O1.length) (hi : idx.length = O1.length) :
    (runValueProviderBatched aes fl c sec key seed a O0 : PM (Msg T) _) = (do
        let outputs ← runSenderBatched aes fl c sec key seed O0
        let r ← PM.lift (sumNegateAll a outputs)
        PM.send c.main (.elems r.1)
        pure r.2) ∧
    (runIndexProviderBatched aes fl c b idx O1 : PM (Msg T) _) = (do
        let outputs ← runReceiverBatched aes fl c idx O1
        let sums ← PM.lift (subOthersAll b idx outputs)
        let m ← PM.recv c.main
        let sumsServer ← PM.lift (PM.unElems m)
        PM.lift (fixIndices sums sumsServer idx outputs)) := by
  unfold runValueProviderBatched runIndexProviderBatched
  rw [if_neg (by omega), if_neg (by omega)]
  exact ⟨rfl, rfl⟩

example : ∃ msg, (runIndexProviderBatched exCipher exFl ⟨0, 0, 0⟩ [1, 2] [0, -1] [[], List.replicate 6 (0 : BitVec 64)] :
    PM (Msg (BitVec 64)) _) = Proc.ret (.err .invalidArgument msg) :=
  C12_index_rejects _ _ _ _ _ _ (Or.inr (Or.inr ⟨1, List.replicate 6 0, -1, rfl, rfl, Or.inl (by decide)⟩))

end DVO.SPFSS
