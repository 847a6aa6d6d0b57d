/-
What the receiver of the all-but-one random OT learns.
-/
import Verif.Proofs.ROT2

namespace DVO.ROT
open GGM Net
variable {T : Type} [Scalar T]

/-- Nodes stored at a level are those whose first leaf is below `n`. -/
theorem stored_iff {s : List Nat} (hs : Sizes 2 s) {L n : Nat} (hlen : s.length = L + 1) (hlast : s[L]? = some n) :
    ∀ d l k i, l + d = L → s[l]? = some k → (i < k ↔ i * 2 ^ d < n) := by
  intro d
  induction d with
  | zero => intro l k i h1 h2; rw [show l = L by omega, hlast] at h2; injection h2 with h2; subst h2; simp
  | succ d ih =>
    intro l k i h1 h2
    have hl : l + 1 < s.length := by omega
    have h3 : s[l + 1]? = some s[l + 1] := List.getElem?_eq_getElem hl
    rw [hs.lt_of_parent (by omega) h2 h3, ih (l + 1) _ (i * 2) (by omega) h3, Nat.pow_succ, Nat.mul_assoc,
      Nat.mul_comm 2]

theorem offpath_agree (aes : Cipher) (key : Nat → Block) {s : List Nat} (hs : Sizes 2 s) {L n m : Nat}
    (hlen : s.length = L + 1) (hlast : s[L]? = some n) {sd sd' : Block} (hmn : m < n)
    (h : CopathAgree aes key L n m sd sd') :
    ∀ l k i, s[l]? = some k → i < k → i ≠ pathNode 2 (L + 1) m l →
      nodeVal aes 2 key sd l i = nodeVal aes 2 key sd' l i := by
  intro l
  induction l with
  | zero =>
    intro k i hk hi hne
    rw [hs.head] at hk; injection hk with hk; subst hk
    exfalso
    apply hne
    have := hs.anc_lt (by omega) L 0 1 n m hs.head (by simpa using hlast) hmn
    have e : pathNode 2 (L + 1) m 0 = m / 2 ^ L := by unfold pathNode; simp
    rw [e]
    omega
  | succ l ih =>
    intro k i hk hi hne
    have hl : l + 1 < s.length := by rw [List.getElem?_eq_some_iff] at hk; exact hk.1
    have hk0 : s[l]? = some s[l] := List.getElem?_eq_getElem (by omega)
    have hpar := hs.parent_lt (by omega) hk0 hk hi
    by_cases hp : i / 2 = pathNode 2 (L + 1) m l
    · rw [pathNode_succ (by omega)] at hp
      have hsib : sibling (pathNode 2 (L + 1) m (l + 1)) = i := by
        unfold sibling
        generalize pathNode 2 (L + 1) m (l + 1) = b at hp hne ⊢
        split <;> omega
      have := h l (by omega) (by
        rw [hsib]
        exact (stored_iff hs hlen hlast (L - (l + 1)) (l + 1) k i (by omega) hk).1 hi)
      rw [hsib] at this
      exact this
    · simp only [nodeVal]
      rw [ih _ _ hk0 hpar hp]

theorem sx_agree (aes : Cipher) {fl : Nat → Nat → Nat} (key : Nat → Block) {n m : Nat} (hn : 0 < n)
    (hg : GoodSize fl n) (hm : m < n) {sd sd' : Block} (h : CopathAgree aes key (fl n 2) n m sd sd')
    {l : Nat} (hl : l < fl n 2) {j : Nat} (hj : j < 2) (hne : j = (if m.testBit (fl n 2 - 1 - l) then 0 else 1)) :
    sx aes fl (keys2 key) n sd l j = sx aes fl (keys2 key) n sd' l j := by
  obtain ⟨hs, hlen, hlast, _, _, _, _⟩ := tree_facts aes hn hg (keys2_length key) sd
  unfold sx sxor
  apply xorSum_congr
  intro i hi
  have hk : (szs fl n)[l + 1]? = some (szs fl n)[l + 1] := List.getElem?_eq_getElem (by omega)
  rw [hk] at hi
  simp only [Option.getD_some] at hi
  by_cases e : i % 2 = j
  · rw [if_pos e, if_pos e, nodeVal_keys2, nodeVal_keys2]
    apply offpath_agree aes key hs hlen hlast hm h (l + 1) _ i hk hi
    intro hp
    have hd := digit_eq (k := fl n 2) (m := m) hl
    have hpm : pathNode 2 (fl n 2 + 1) m (l + 1) % 2 = if m.testBit (fl n 2 - 1 - l) then 1 else 0 := by
      unfold pathNode
      rw [show fl n 2 + 1 - 1 - (l + 1) = fl n 2 - 1 - l by omega, Nat.testBit_eq_decide_div_mod_eq]
      generalize m / 2 ^ (fl n 2 - 1 - l) = q
      by_cases h : q % 2 = 1
      · simp [h]
      · simp [h]; omega
    rw [← hp, e, hne] at hpm
    by_cases hb : m.testBit (fl n 2 - 1 - l) = true
    · simp [hb] at hpm
    · simp [hb] at hpm
  · rw [if_neg e, if_neg e]

/-- Both seed families agree on the co-path of every non-empty entry. -/
def AgreeAll (aes : Cipher) (fl : Nat → Nat → Nat) (key seed seed' : Nat → Block) (ns ms : List Nat) : Prop :=
  ∀ i n m : Nat, ns[i]? = some n → ms[i]? = some m → 0 < n → CopathAgree aes key (fl n 2) n m (seed i) (seed' i)

/-- Leaves other than the missing one agree. -/
theorem leafVal_agree {aes : Cipher} {fl : Nat → Nat → Nat} {key seed seed' : Nat → Block} {i n m k : Nat}
    (hg : GoodSize fl n) (hm : m < n) (h : CopathAgree aes key (fl n 2) n m (seed i) (seed' i)) (hk : k < n)
    (e : k ≠ m) : leafVal T aes fl key seed i n k = leafVal T aes fl key seed' i n k := by
  obtain ⟨hs, hl, hlast, _, _, _, _⟩ := tree_facts aes (by omega) hg (keys2_length key) (seed i)
  have := offpath_agree aes key hs hl hlast hm h (fl n 2) n k hlast hk (by rw [pathNode_last]; exact e)
  unfold leafVal
  rw [this]

theorem receiverOut_agree {aes : Cipher} {fl : Nat → Nat → Nat} {key seed seed' : Nat → Block} {ns ms : List Nat}
    (hidx : IdxOk ns ms) (hg : ∀ n ∈ ns, GoodSize fl n) (hag : AgreeAll aes fl key seed seed' ns ms) :
    receiverOut T aes fl key seed ns ms = receiverOut T aes fl key seed' ns ms := by
  have hlen := hidx.1
  apply List.ext_getElem?
  intro i
  simp only [receiverOut, List.getElem?_mapIdx]
  cases hn : ns[i]? with
  | none => rfl
  | some n =>
    simp only [Option.map_some, Option.some.injEq]
    apply List.map_congr_left
    intro k hk
    rw [List.mem_range] at hk
    have hi : i < ns.length := by rw [List.getElem?_eq_some_iff] at hn; exact hn.1
    have hm : ms[i]? = some ms[i] := List.getElem?_eq_getElem (by omega)
    rw [hm]
    simp only [Option.getD_some]
    by_cases e : k = ms[i]
    · rw [if_pos e, if_pos e]
    · rw [if_neg e, if_neg e]
      exact leafVal_agree (hg n (List.mem_iff_getElem?.2 ⟨i, hn⟩)) (hidx.2 i n ms[i] hn hm (by omega))
        (hag i n ms[i] hn hm (by omega)) hk e

theorem otResult_flatten : ∀ (A : List (List (Block × Block))) (B : List (List Bool)),
    A.map List.length = B.map List.length →
    otResult A.flatten B.flatten = (List.zipWith otResult A B).flatten := by
  intro A
  induction A with
  | nil => intro B hB; cases B with
    | nil => rfl
    | cons b B => simp at hB
  | cons a A ih =>
    intro B hB
    cases B with
    | nil => simp at hB
    | cons b B =>
      simp only [List.map_cons, List.cons.injEq] at hB
      simp only [List.flatten_cons, List.zipWith_cons_cons]
      rw [← ih B hB.2]
      unfold otResult
      rw [List.zipWith_append hB.1]

theorem receiverView_agree {aes : Cipher} {fl : Nat → Nat → Nat} (c : Chans) {key seed seed' : Nat → Block} {ns ms : List Nat}
    (hidx : IdxOk ns ms) (hg : ∀ n ∈ ns, GoodSize fl n) (hag : AgreeAll aes fl key seed seed' ns ms) :
    receiverView T aes fl c key seed ns ms = receiverView T aes fl c key seed' ns ms := by
  have hlen := hidx.1
  unfold receiverView
  simp only
  suffices hot : otResult (msgRows aes fl (keys2 key) seed ns).flatten (csRows fl ns ms).flatten =
      otResult (msgRows aes fl (keys2 key) seed' ns).flatten (csRows fl ns ms).flatten by
    rw [hot]
  have hsh : ∀ sd : Nat → Block, (msgRows aes fl (keys2 key) sd ns).map List.length =
      (csRows fl ns ms).map List.length := by
    intro sd
    apply List.ext_getElem?
    intro i
    simp only [msgRows, csRows, List.getElem?_map, List.getElem?_mapIdx, List.getElem?_zipWith]
    by_cases hi : i < ns.length
    · have hi2 : i < ms.length := by omega
      simp only [hi, hi2, List.getElem?_eq_getElem, Option.map_some, Option.some.injEq]
      by_cases hz : ns[i] = 0
      · simp [hz, csOf, kOf]
      · simp [hz, csOf, kOf, msgsOf]
    · simp [hi]
  rw [otResult_flatten _ _ (hsh seed), otResult_flatten _ _ (hsh seed')]
  congr 1
  apply List.ext_getElem?
  intro i
  simp only [msgRows, csRows, List.getElem?_mapIdx, List.getElem?_zipWith]
  by_cases hi : i < ns.length
  · have hi2 : i < ms.length := by omega
    simp only [hi, hi2, List.getElem?_eq_getElem, Option.map_some, Option.some.injEq]
    by_cases hz : ns[i] = 0
    · simp [hz]
    · rw [if_neg hz, if_neg hz]
      have hpos : 0 < ns[i] := by omega
      have hmn := hidx.2 i ns[i] ms[i] (by simp [hi]) (by simp [hi2]) hpos
      have hg := hg ns[i] (List.getElem_mem hi)
      have hco := hag i ns[i] ms[i] (by simp [hi]) (by simp [hi2]) hpos
      apply List.ext_getElem?
      intro l
      simp only [otResult, List.getElem?_zipWith, msgsOf, csOf, kOf, hz, if_false, List.getElem?_map]
      by_cases hl : l < fl ns[i] 2
      · simp only [List.getElem?_range hl, Option.map_some, Option.some.injEq]
        by_cases hb : ms[i].testBit (fl ns[i] 2 - 1 - l) = true
        · simp only [hb, Bool.not_true, Bool.false_eq_true, if_false]
          exact sx_agree aes key hpos hg hmn hco hl (by omega) (by simp [hb])
        · simp only [hb, Bool.not_false, if_true]
          exact sx_agree aes key hpos hg hmn hco hl (by omega) (by simp [hb])
      · simp [hl]
  · simp [hi]

end DVO.ROT
