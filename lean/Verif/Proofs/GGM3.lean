/-
Lemmas about CreateFromSiblingWiseXOR.
-/
import Verif.Proofs.GGM2

namespace DVO.GGM

theorem tdiv_tdiv_eq_mul (m b c : Int) : (m.tdiv b).tdiv c = m.tdiv (b * c) := by
  have key : ∀ m b c : Nat, ((m : Int).tdiv b).tdiv c = (m : Int).tdiv ((b : Int) * c) := by
    intro m b c
    rw [← Int.ofNat_tdiv, ← Int.ofNat_tdiv, ← Int.natCast_mul, ← Int.ofNat_tdiv, Nat.div_div_eq_div_mul]
  obtain ⟨m, rfl | rfl⟩ := m.eq_nat_or_neg <;> obtain ⟨b, rfl | rfl⟩ := b.eq_nat_or_neg <;>
    obtain ⟨c, rfl | rfl⟩ := c.eq_nat_or_neg <;>
    simp only [Int.neg_tdiv, Int.tdiv_neg, neg_mul, mul_neg, neg_neg, key]

theorem missingPath_eq (a : Int) : ∀ (k : Nat) (m : Int) (acc : List Int),
    missingPath a k m acc = (List.range k).map (fun l => m.tdiv (a ^ (k - 1 - l))) ++ acc := by
  intro k
  induction k with
  | zero => intro m acc; simp [missingPath]
  | succ k ih =>
    intro m acc
    simp only [missingPath]
    rw [ih, List.range_succ, List.map_append, List.append_assoc]
    congr 1
    · apply List.map_congr_left
      intro l hl
      have hl : l < k := by simpa using hl
      rw [tdiv_tdiv_eq_mul, show k + 1 - 1 - l = (k - 1 - l) + 1 by omega, pow_succ, mul_comm]
    · simp

theorem rd_missingPath {a : Int} {k l : Nat} (m : Int) (h : l < k) :
    rd (missingPath a k m []) l = .ok (m.tdiv (a ^ (k - 1 - l))) := by
  rw [rd_eq_ok, missingPath_eq]
  simp [h]

theorem rd_missingPath_nat {a k l : Nat} (m : Nat) (h : l < k) :
    rd (missingPath (a : Int) k (m : Int) []) l = .ok ((pathNode a k m l : Nat) : Int) := by
  rw [rd_missingPath _ h, pathNode]
  norm_cast

theorem expandKeys_eq (keys : List Block) {a : Nat} (h : a ≤ keys.length) :
    expandKeys keys a = .ok (keys.take a) := by
  unfold expandKeys
  obtain ⟨s', h1, h2⟩ := loop_inv (fun i acc => do
      let k ← rd keys i
      Out.ok (acc ++ [k])) (fun i acc => acc = keys.take i) 0 a [] (by simp)
    (by
      intro i acc _ hi hI
      refine ⟨_, ?_, rfl⟩
      rw [rd_of_lt (by omega : i < keys.length), hI]
      simp only [Out.ok_bind]
      rw [List.take_succ_eq_append_getElem (by omega)])
  rw [h1, h2]; simp

theorem expandKeys_ub (keys : List Block) {a : Nat} (h : keys.length < a) :
    ∃ w, expandKeys keys a = .ub w := by
  have key : ∀ n lo acc, lo ≤ keys.length → keys.length < lo + n →
      ∃ w, loop (fun i acc => do
        let k ← rd keys i
        Out.ok (acc ++ [k])) lo n acc = .ub w := by
    intro n
    induction n with
    | zero => intro lo acc h1 h2; omega
    | succ n ih =>
      intro lo acc h1 h2
      simp only [loop]
      by_cases h3 : lo = keys.length
      · subst h3
        refine ⟨"read out of bounds", ?_⟩
        simp [rd]
      · rw [rd_of_lt (by omega)]
        simp only [Out.ok_bind]
        exact ih (lo + 1) _ (by omega) (by omega)
  exact key a 0 [] (by omega) (by omega)

/-- Shape preservation and safety of one level of the reconstruction. -/
theorem fillLevel_safe (aes : Cipher) {a : Nat} (ha : 2 ≤ a) {keys : List Block}
    (hk : keys.length = a) {s : List Nat} (hs : Sizes a s) {N m : Nat}
    (hN : s[s.length - 1]? = some N) (hm : m < N) (hb : ∀ (l n : Nat), s[l]? = some n → n ≤ 2 ^ 31)
    (x : Nat → Nat → Block) (V : Nat → Nat → Block)
    {lvl : Nat} (hl1 : 1 ≤ lvl) (hl2 : lvl < s.length) :
    ∃ W, fillLevel aes a a keys (missingPath a s.length m []) (mat (s.length - 1) a x) lvl (mk s V)
      = .ok (mk s W) ∧
      (∀ l i, l < lvl → W l i = V l i) ∧
      (∀ F : Nat → Nat → Block,
        (∀ l i, F (l + 1) i = prg aes (F l (i / a)) (keyFn keys (i % a))) →
        (∀ j n, j < a → s[lvl]? = some n → pathNode a s.length m (lvl - 1) * a + j < n →
          xorSum (fun i => if i % a = j then V lvl i else 0) n ^^^ x (lvl - 1) j =
            F lvl (pathNode a s.length m (lvl - 1) * a + j)) →
        ∀ d i, (∀ n, s[lvl + d]? = some n → i < n →
          W (lvl + d) i = if i / a ^ (d + 1) = pathNode a s.length m (lvl - 1) ∧
            i / a ^ d ≠ pathNode a s.length m lvl then F (lvl + d) i else V (lvl + d) i)) := by
  set P := pathNode a s.length m (lvl - 1) with hP
  set Q := pathNode a s.length m lvl with hQ
  have e : s[lvl]? = some s[lvl] := by simp [hl2]
  set c := s[lvl] with hc
  have ep : s[lvl - 1]? = some s[lvl - 1] := by simp [show lvl - 1 < s.length by omega]
  have hcb := hb _ _ e
  -- path facts
  have hPlt : P < s[lvl - 1] := by
    have := hs.anc_lt ha (s.length - 1 - (lvl - 1)) (lvl - 1) _ N m ep
      (by rw [show lvl - 1 + (s.length - 1 - (lvl - 1)) = s.length - 1 by omega]; exact hN) hm
    exact this
  have hPc : P * a < c := by
    have := (hs.lt_of_parent ha (l := lvl - 1) (n' := c) ep
      (by rw [show lvl - 1 + 1 = lvl by omega]; exact e) (i := P)).1 hPlt
    exact this
  have hns : (min (a : Int) (((List.map (V lvl) (List.range c)).length : Int) - (P : Int) * (a : Int))).toNat
      = min a (c - P * a) := by
    simp only [List.length_map, List.length_range]
    have : ((P : Int) * (a : Int)) = ((P * a : Nat) : Int) := by push_cast; ring
    rw [this]; omega
  have hrep : List.replicate a (0 : Block) = (List.range a).map (fun _ => 0) := by
    apply List.ext_getElem <;> simp
  unfold fillLevel
  rw [rd_mk e]
  simp only [Out.ok_bind]
  rw [show ((a : Int)).toNat = a by simp, hrep, xorBlocks_eq (by omega) hcb]
  simp only [Out.ok_bind]
  rw [rd_missingPath_nat _ (by omega : lvl - 1 < s.length), rd_missingPath_nat _ hl2]
  simp only [Out.ok_bind]
  rw [← hP, ← hQ, hns]
  set cur : Nat → Block := fun j => 0 ^^^ xorSum (fun i => if i % a = j then V lvl i else 0) c with hcur
  let Inv : Nat → List (List Block) → Prop := fun sib L => ∃ W, L = mk s W ∧
    (∀ l i, l < lvl → W l i = V l i) ∧
    (∀ F : Nat → Nat → Block,
        (∀ l i, F (l + 1) i = prg aes (F l (i / a)) (keyFn keys (i % a))) →
        (∀ j, j < a → P * a + j < c → cur j ^^^ x (lvl - 1) j = F lvl (P * a + j)) →
        ∀ d i, (∀ n, s[lvl + d]? = some n → i < n →
          W (lvl + d) i = if P * a ≤ i / a ^ d ∧ i / a ^ d < P * a + sib ∧ i / a ^ d ≠ Q then
            F (lvl + d) i else V (lvl + d) i))
  obtain ⟨L, hL1, W, hW1, hW2, hW3⟩ := loop_inv (fun sib levels =>
      if (P : Int) * (a : Int) + (sib : Int) = (Q : Int) then Out.ok levels else do
      let c ← rd ((List.range a).map cur) sib
      let x ← rd2 (mat (s.length - 1) a x) (lvl - 1) sib
      if (P : Int) * (a : Int) + (sib : Int) < 0 then Out.ub "negative index" else
      let levels ← wr2 levels lvl ((P : Int) * (a : Int) + (sib : Int)).toNat (c ^^^ x)
      expandSubtree aes a keys levels lvl ((P : Int) * (a : Int) + (sib : Int)).toNat)
    Inv 0 (min a (c - P * a)) (mk s V)
    (by
      refine ⟨V, rfl, fun _ _ _ => rfl, ?_⟩
      intro F hF hx d i n hn hi
      rw [if_neg]; omega)
    (by
      rintro sib L _ hsib ⟨W, rfl, hW2, hW3⟩
      have hZ : ((P : Int) * (a : Int) + (sib : Int)) = ((P * a + sib : Nat) : Int) := by push_cast; ring
      rw [hZ]
      by_cases heq : P * a + sib = Q
      · refine ⟨mk s W, by rw [if_pos (by exact_mod_cast heq)], W, rfl, hW2, ?_⟩
        intro F hF hx d i n hn hi
        rw [hW3 F hF hx d i n hn hi]
        have : (P * a ≤ i / a ^ d ∧ i / a ^ d < P * a + sib ∧ i / a ^ d ≠ Q) ↔
          (P * a ≤ i / a ^ d ∧ i / a ^ d < P * a + (sib + 1) ∧ i / a ^ d ≠ Q) := by omega
        simp only [this]
      · have hnc : P * a + sib < c := by omega
        have hw := wr2_mk (V := W) (cur sib ^^^ x (lvl - 1) sib) e hnc
        have hexp := expandSubtree_eq aes ha (keys := keys) (key := keyFn keys)
          (by rw [← hk]; exact keyFn_spec keys) hs
          (upd W lvl (P * a + sib) (cur sib ^^^ x (lvl - 1) sib)) e hnc
        refine ⟨_, ?_, sub aes a (keyFn keys)
          (upd W lvl (P * a + sib) (cur sib ^^^ x (lvl - 1) sib)) lvl (P * a + sib), rfl, ?_, ?_⟩
        · rw [if_neg (by exact_mod_cast heq), rd_map_range _ (by omega : sib < a),
            rd2_mat _ (by omega) (by omega)]
          simp only [Out.ok_bind]
          rw [if_neg (by omega), Int.toNat_natCast, hw]
          simp only [Out.ok_bind]
          rw [hexp]
        · intro l i hl
          rw [sub_low (by omega), upd, if_neg (by omega), hW2 l i hl]
        · intro F hF hx d i n hn hi
          by_cases hin : i / a ^ d = P * a + sib
          · rw [sub_eq hF _ d i hin]
            · rw [if_pos]; omega
            · simp only [upd]
              simp only [and_self, if_true]
              exact hx sib (by omega) hnc
          · rw [sub_off (by rw [show lvl + d - lvl = d by omega]; exact fun h => hin h.2)]
            have : upd W lvl (P * a + sib) (cur sib ^^^ x (lvl - 1) sib) (lvl + d) i = W (lvl + d) i := by
              simp only [upd]
              rw [if_neg]
              rintro ⟨h1, h2⟩
              apply hin
              have : d = 0 := by omega
              subst this; simpa using h2
            rw [this, hW3 F hF hx d i n hn hi]
            have : (P * a ≤ i / a ^ d ∧ i / a ^ d < P * a + sib ∧ i / a ^ d ≠ Q) ↔
              (P * a ≤ i / a ^ d ∧ i / a ^ d < P * a + (sib + 1) ∧ i / a ^ d ≠ Q) := by omega
            simp only [this])
  refine ⟨W, by rw [← hW1]; exact hL1, hW2, ?_⟩
  intro F hF hx d i n hn hi
  have hx' : ∀ j, j < a → P * a + j < c → cur j ^^^ x (lvl - 1) j = F lvl (P * a + j) := by
    intro j hj hjc
    rw [← hx j c hj e hjc, hcur]; simp
  rw [hW3 F hF hx' d i n hn hi]
  have hanc : i / a ^ d < c := hs.anc_lt ha d lvl c n i e hn hi
  have : (P * a ≤ i / a ^ d ∧ i / a ^ d < P * a + (0 + min a (c - P * a)) ∧ i / a ^ d ≠ Q) ↔
      (i / a ^ (d + 1) = P ∧ i / a ^ d ≠ Q) := by
    have h1 : i / a ^ (d + 1) = i / a ^ d / a := by
      rw [Nat.pow_succ, Nat.div_div_eq_div_mul]
    rw [h1, ← and_assoc]
    apply and_congr_left
    intro _
    constructor
    · rintro ⟨h2, h3⟩
      apply Nat.div_eq_of_lt_le h2
      rw [Nat.add_mul]; omega
    · intro h2
      have h3 := Nat.div_mul_le_self (i / a ^ d) a
      have h4 := Nat.lt_div_mul_add (a := i / a ^ d) (show 0 < a by omega)
      rw [h2] at h3 h4
      omega
  simp only [this]

theorem pathNode_succ {a L m l : Nat} (h : l + 1 < L) :
    pathNode a L m l = pathNode a L m (l + 1) / a := by
  unfold pathNode
  rw [show L - 1 - l = (L - 1 - (l + 1)) + 1 by omega, Nat.pow_succ, Nat.div_div_eq_div_mul]

/-- The reconstruction loop, for arbitrary XOR rows: it never fails and keeps the shape. -/
theorem fillLoop_safe (aes : Cipher) {a : Nat} (ha : 2 ≤ a) {keys : List Block}
    (hk : keys.length = a) {s : List Nat} (hs : Sizes a s) {N m : Nat}
    (hN : s[s.length - 1]? = some N) (hm : m < N) (hb : ∀ (l n : Nat), s[l]? = some n → n ≤ 2 ^ 31)
    (x : Nat → Nat → Block) (V : Nat → Nat → Block) :
    ∃ W, loop (fillLevel aes a a keys (missingPath a s.length m []) (mat (s.length - 1) a x)) 1
      (s.length - 1) (mk s V) = .ok (mk s W) := by
  obtain ⟨L, h1, W, h2⟩ := loop_inv
    (fillLevel aes a a keys (missingPath a s.length m []) (mat (s.length - 1) a x))
    (fun _ L => ∃ W, L = mk s W) 1 (s.length - 1) (mk s V) ⟨V, rfl⟩
    (by
      rintro lvl L h1 h2 ⟨W, rfl⟩
      obtain ⟨W', h3, _⟩ := fillLevel_safe aes ha hk hs hN hm hb x W h1 (by omega : lvl < s.length)
      exact ⟨_, h3, W', rfl⟩)
  exact ⟨W, by rw [h1, h2]⟩

/-- The reconstruction loop on the XORs of a full tree `F`. -/
theorem fillLoop_eq (aes : Cipher) {a : Nat} (ha : 2 ≤ a) {keys : List Block}
    (hk : keys.length = a) {s : List Nat} (hs : Sizes a s) {N m : Nat}
    (hN : s[s.length - 1]? = some N) (hm : m < N) (hb : ∀ (l n : Nat), s[l]? = some n → n ≤ 2 ^ 31)
    (F : Nat → Nat → Block)
    (hF : ∀ l i, F (l + 1) i = prg aes (F l (i / a)) (keyFn keys (i % a))) :
    loop (fillLevel aes a a keys (missingPath a s.length m []) (mat (s.length - 1) a (sxor a s F))) 1
      (s.length - 1) (mk s fun _ _ => 0) =
    .ok (mk s (fun l i => if i = pathNode a s.length m l then 0 else F l i)) := by
  have hslen : 1 ≤ s.length := by
    have := hs.head
    rw [List.getElem?_eq_some_iff] at this; exact this.1
  have hP0 : pathNode a s.length m 0 = 0 := by
    have := hs.anc_lt ha (s.length - 1) 0 1 N m hs.head (by rw [Nat.zero_add]; exact hN) hm
    unfold pathNode; simpa using this
  obtain ⟨L, h1, W, h2, h3, h4⟩ := loop_inv
    (fillLevel aes a a keys (missingPath a s.length m []) (mat (s.length - 1) a (sxor a s F)))
    (fun lvl L => ∃ W, L = mk s W ∧
      (∀ l n i, l < lvl → s[l]? = some n → i < n → W l i = if i = pathNode a s.length m l then 0 else F l i) ∧
      (∀ d n i, s[lvl - 1 + d]? = some n → i < n →
        W (lvl - 1 + d) i = if i / a ^ d = pathNode a s.length m (lvl - 1) then 0 else F (lvl - 1 + d) i))
    1 (s.length - 1) (mk s fun _ _ => 0)
    (by
      refine ⟨_, rfl, ?_, ?_⟩
      · intro l n i hl hn hi
        have : l = 0 := by omega
        subst this
        rw [hs.head] at hn; injection hn with hn; subst hn
        rw [hP0, if_pos (by omega)]
      · intro d n i hn hi
        have := hs.anc_lt ha d 0 1 n i hs.head (by simpa using hn) hi
        simp only [Nat.sub_self, hP0]
        rw [if_pos (Nat.lt_one_iff.1 this)])
    (by
      rintro lvl L hl1 hl2 ⟨V, rfl, hV1, hV2⟩
      have hl2' : lvl < s.length := by omega
      have e : s[lvl]? = some s[lvl] := by simp [hl2']
      obtain ⟨W, hW1, hW2, hW3⟩ := fillLevel_safe aes ha hk hs hN hm hb (sxor a s F) V hl1 hl2'
      refine ⟨_, hW1, W, rfl, ?_, ?_⟩
      all_goals
        have hW3 := hW3 F hF (by
          intro j n hj hn hlt
          rw [e] at hn; injection hn with hn; subst hn
          unfold sxor
          rw [show lvl - 1 + 1 = lvl by omega, e, Option.getD_some, xorSum_xor]
          rw [xorSum_single hlt]
          · have h5 : (pathNode a s.length m (lvl - 1) * a + j) % a = j := by
              rw [Nat.mul_comm, Nat.mul_add_mod, Nat.mod_eq_of_lt hj]
            have h6 : (pathNode a s.length m (lvl - 1) * a + j) / a = pathNode a s.length m (lvl - 1) := by
              rw [Nat.mul_comm, Nat.mul_add_div (by omega), Nat.div_eq_of_lt hj]; omega
            have h7 := hV2 1 s[lvl] (pathNode a s.length m (lvl - 1) * a + j)
              (by rw [show lvl - 1 + 1 = lvl by omega]; exact e) hlt
            rw [pow_one, h6, if_pos rfl, show lvl - 1 + 1 = lvl by omega] at h7
            rw [if_pos h5, if_pos h5, h7]; simp
          · intro i hi hne
            by_cases hmod : i % a = j
            · rw [if_pos hmod, if_pos hmod]
              have h7 := hV2 1 s[lvl] i (by rw [show lvl - 1 + 1 = lvl by omega]; exact e) hi
              rw [pow_one, show lvl - 1 + 1 = lvl by omega, if_neg] at h7
              · rw [h7]; simp
              · intro h8
                apply hne
                have := Nat.div_add_mod i a
                rw [h8, hmod] at this
                rw [← this, Nat.mul_comm]
            · rw [if_neg hmod, if_neg hmod]; simp)
      · intro l n i hl hn hi
        by_cases hlt : l < lvl
        · rw [hW2 l i hlt]; exact hV1 l n i hlt hn hi
        · have : l = lvl := by omega
          subst this
          have h8 := hW3 0 i n (by simpa using hn) hi
          have h9 := hV2 1 n i (by rw [show l - 1 + 1 = l by omega]; exact hn) hi
          rw [show l - 1 + 1 = l by omega] at h9
          rw [Nat.add_zero] at h8
          rw [h8, h9]
          simp only [pow_zero, Nat.div_one, Nat.zero_add]
          by_cases h10 : i = pathNode a s.length m l
          · rw [if_neg (fun h => h.2 h10), if_pos h10, if_pos]
            have := pathNode_succ (a := a) (L := s.length) (m := m) (l := l - 1) (by omega)
            rw [show l - 1 + 1 = l by omega] at this
            rw [pow_one, h10, this]
          · rw [if_neg h10]
            by_cases h11 : i / a ^ 1 = pathNode a s.length m (l - 1)
            · rw [if_pos ⟨h11, h10⟩]
            · rw [if_neg (fun h => h11 h.1), if_neg h11]
      · intro d n i hn hi
        rw [show lvl + 1 - 1 = lvl by omega] at hn ⊢
        rw [hW3 d i n hn hi]
        have h9 := hV2 (d + 1) n i (by rw [show lvl - 1 + (d + 1) = lvl + d by omega]; exact hn) hi
        rw [show lvl - 1 + (d + 1) = lvl + d by omega] at h9
        rw [h9]
        have hq : i / a ^ d = pathNode a s.length m lvl → i / a ^ (d + 1) = pathNode a s.length m (lvl - 1) := by
          intro h
          rw [Nat.pow_succ, ← Nat.div_div_eq_div_mul, h]
          have := pathNode_succ (a := a) (L := s.length) (m := m) (l := lvl - 1) (by omega)
          rw [this, show lvl - 1 + 1 = lvl by omega]
        by_cases h10 : i / a ^ d = pathNode a s.length m lvl
        · rw [if_neg (fun h => h.2 h10), if_pos h10, if_pos (hq h10)]
        · rw [if_neg h10]
          by_cases h11 : i / a ^ (d + 1) = pathNode a s.length m (lvl - 1)
          · rw [if_pos ⟨h11, h10⟩]
          · rw [if_neg (fun h => h11 h.1), if_neg h11])
  rw [h1, h2]
  congr 1
  apply mk_congr
  intro l n i hn hi
  have : l < s.length := by rw [List.getElem?_eq_some_iff] at hn; exact hn.1
  exact h3 l n i (by omega) hn hi

/-- All checks and allocations of `CreateFromSiblingWiseXOR` when the arguments meet its contract. -/
theorem createFromXor_unfold (aes : Cipher) (fl : Nat → Nat → Nat) {a N : Nat} (ha : 2 ≤ a)
    {keys : List Block} (hk : keys.length = a) {s : List Nat} (hs : Sizes a s)
    (hN : s[s.length - 1]? = some N) {m : Nat} (hm : m < N)
    (hal : allocateLevels fl a N = .ok (mk s fun _ _ => 0)) (x : Nat → Nat → Block)  :
    createFromXor aes fl a N m (mat (s.length - 1) a x) keys =
      (loop (fillLevel aes a a keys (missingPath a s.length m []) (mat (s.length - 1) a x)) 1
        (s.length - 1) (mk s fun _ _ => 0)) >>= fun L =>
        .ok { arity := a, levels := L, keys := keys, expandedKeys := keys } := by
  have hslen : 1 ≤ s.length := by
    have := hs.head
    rw [List.getElem?_eq_some_iff] at this; exact this.1
  have hlen : (mat (s.length - 1) a x).length = s.length - 1 := by simp [mat]
  unfold createFromXor
  have h1 : ¬ ((a : Int) < 2) := by omega
  have h2 : ¬ ((N : Int) ≤ 0) := by omega
  have h3 : ¬ ((m : Int) ≥ (N : Int)) := by omega
  have h4 : ¬ ((mat (s.length - 1) a x).any (fun r => (r.length : Int) ≠ (a : Int)) = true) := by
    simp [mat]
  have h5 : ¬ ((a : Int) ^ ((mat (s.length - 1) a x).length + 1 - 1) < (N : Int)) := by
    rw [hlen]
    have := (chain_pos ha hs.step (s.length - 1) 0 N (by omega) hN (by omega) 1 hs.head).2
    rw [Nat.one_mul] at this
    rw [Nat.add_sub_cancel]
    exact_mod_cast Nat.not_lt.2 this
  have h6 : ¬ (keys.isEmpty = true) := by
    intro h
    rw [List.isEmpty_iff] at h; subst h; simp at hk; omega
  simp only
  rw [if_neg h1, if_neg h2, if_neg h3, if_neg h4, if_neg h5, if_neg h6]
  rw [Int.toNat_natCast, Int.toNat_natCast, expandKeys_eq keys (by omega), hal]
  simp only [Out.ok_bind]
  rw [if_neg (by rw [hlen]; simp; omega), hlen, show s.length - 1 + 1 = s.length by omega,
    show keys.take a = keys by rw [← hk]; simp, hk]

end DVO.GGM
