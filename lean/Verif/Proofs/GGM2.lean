/-
Lemmas about XORBlocks, Create, GetSiblingWiseXOR.
-/
import Verif.Proofs.GGM

namespace DVO.GGM

theorem xorSum_congr {f g : Nat → Block} {n : Nat} (h : ∀ i, i < n → f i = g i) :
    xorSum f n = xorSum g n := by
  induction n with
  | zero => rfl
  | succ n ih => simp only [xorSum]; rw [ih (fun i hi => h i (by omega)), h n (by omega)]

theorem xorSum_xor (f g : Nat → Block) (n : Nat) :
    xorSum f n ^^^ xorSum g n = xorSum (fun i => f i ^^^ g i) n := by
  induction n with
  | zero => simp [xorSum]
  | succ n ih =>
    simp only [xorSum]
    rw [← ih]
    rw [BitVec.xor_assoc, BitVec.xor_assoc]
    congr 1
    rw [← BitVec.xor_assoc, ← BitVec.xor_assoc, BitVec.xor_comm (f n)]

theorem xorSum_zero (n : Nat) : xorSum (fun _ => 0) n = 0 := by
  induction n with
  | zero => rfl
  | succ n ih => simp only [xorSum]; rw [ih]; simp

theorem xorSum_single {f : Nat → Block} {n k : Nat} (hk : k < n) (h : ∀ i, i < n → i ≠ k → f i = 0) :
    xorSum f n = f k := by
  induction n with
  | zero => omega
  | succ n ih =>
    simp only [xorSum]
    by_cases e : k = n
    · subst e
      have : xorSum f k = 0 := by
        rw [← xorSum_zero k]; exact xorSum_congr (fun i hi => h i (by omega) (by omega))
      rw [this]; simp
    · rw [ih (by omega) (fun i hi => h i (by omega)), h n (by omega) (fun x => e x.symm)]; simp

theorem wr_map_range {a j : Nat} (f : Nat → Block) (v : Block) (h : j < a) :
    wr ((List.range a).map f) j v = .ok ((List.range a).map (fun k => if k = j then v else f k)) := by
  rw [wr_of_lt _ (by simpa using h)]
  congr 1
  apply List.ext_getElem?
  intro k
  rw [List.getElem?_set]
  by_cases e : j = k
  · subst e; simp [h]
  · have e2 : ¬ k = j := fun x => e x.symm
    by_cases hk : k < a
    · simp [e, e2, hk]
    · simp [e, hk]

/-- `XORBlocks` adds, at position `j`, the XOR of all inputs with index congruent to `j`. -/
theorem xorBlocks_eq {a n : Nat} (ha : 0 < a) (hn : n ≤ 2 ^ 31) (f o : Nat → Block) :
    xorBlocks ((List.range n).map f) ((List.range a).map o) =
      .ok ((List.range a).map (fun j => o j ^^^ xorSum (fun i => if i % a = j then f i else 0) n)) := by
  unfold xorBlocks
  simp only [List.length_map, List.length_range]
  rw [if_neg (by omega)]
  set acc : Nat → List Block := fun m =>
    (List.range a).map (fun j => o j ^^^ xorSum (fun i => if i % a = j then f i else 0) m) with hacc
  have hstep : ∀ m, m < n → wr (acc m) (m % a) ((o (m % a) ^^^
      xorSum (fun i => if i % a = m % a then f i else 0) m) ^^^ f m) = .ok (acc (m + 1)) := by
    intro m _
    rw [hacc]
    simp only
    rw [wr_map_range _ _ (Nat.mod_lt _ ha)]
    congr 1
    apply List.map_congr_left
    intro j _
    by_cases e : j = m % a
    · subst e; simp [xorSum, BitVec.xor_assoc]
    · have : ¬ m % a = j := fun x => e x.symm
      simp [e, this, xorSum]
  obtain ⟨s', h1, h2⟩ := loop_inv (fun batch out =>
      loop (fun block out => do
        let child := batch * a + block
        if child ≥ 2 ^ 31 then Out.ub "int overflow" else
        let o ← rd out block
        let i ← rd ((List.range n).map f) child
        wr out block (o ^^^ i)) 0 (min a (n - batch * a)) out)
    (fun batch out => out = acc (min n (batch * a))) 0 ((n + a - 1) / a) ((List.range a).map o)
    (by simp [hacc, xorSum])
    (by
      intro batch out _ hb hI
      have hba : batch * a < n := by
        have : batch + 1 ≤ (n + a - 1) / a := by omega
        rw [Nat.le_div_iff_mul_le ha, Nat.add_mul] at this
        omega
      obtain ⟨s', h1, h2⟩ := loop_inv (fun block out => do
        let child := batch * a + block
        if child ≥ 2 ^ 31 then Out.ub "int overflow" else
        let o ← rd out block
        let i ← rd ((List.range n).map f) child
        wr out block (o ^^^ i)) (fun block out => out = acc (batch * a + block)) 0
        (min a (n - batch * a)) out (by simp only [hI]; congr 1; omega)
        (by
          intro block out _ hbl hI
          have hmod : (batch * a + block) % a = block := by
            rw [Nat.mul_comm, Nat.mul_add_mod, Nat.mod_eq_of_lt (by omega)]
          refine ⟨_, ?_, rfl⟩
          have hst := hstep (batch * a + block) (by omega)
          rw [hmod] at hst
          simp only
          rw [if_neg (by omega), rd_map_range _ (by omega : batch * a + block < n), hI]
          rw [hacc] at hst ⊢
          simp only at hst ⊢
          rw [rd_map_range _ (by omega : block < a)]
          simp only [Out.ok_bind]
          exact hst)
      refine ⟨s', h1, ?_⟩
      rw [h2]
      congr 1
      rw [Nat.add_mul]; omega)
  rw [h1, h2]
  congr 2
  have h3 := Nat.div_add_mod (n + a - 1) a
  have h4 := Nat.mod_lt (n + a - 1) ha
  rw [Nat.zero_add]
  have : n ≤ (n + a - 1) / a * a := by rw [Nat.mul_comm]; omega
  omega

/-! ### Create -/

/-- Keys as a total function (only used below the arity). -/
def keyFn (keys : List Block) (j : Nat) : Block := keys[j]?.getD 0

theorem keyFn_spec (keys : List Block) : ∀ j, j < keys.length → keys[j]? = some (keyFn keys j) := by
  intro j hj; simp [keyFn, hj]

theorem create_cases (aes : Cipher) (fl : Nat → Nat → Nat) (n : Int) (seed : Block)
    (keys : List Block) :
    (keys.length < 2 ∨ n ≤ 0) ∧ (∃ m, create aes fl n seed keys = .err .invalidArgument m) ∨
    (2 ≤ keys.length ∧ 0 < n ∧ keys.length ^ fl n.toNat keys.length < n.toNat ∧
      ∃ m, create aes fl n seed keys = .err .internal m) ∨
    (2 ≤ keys.length ∧ 0 < n ∧ n.toNat ≤ keys.length ^ fl n.toNat keys.length ∧
      ∃ s, Sizes keys.length s ∧ s.length = fl n.toNat keys.length + 1 ∧
        s[s.length - 1]? = some n.toNat ∧
        allocateLevels fl keys.length n.toNat = .ok (mk s fun _ _ => 0) ∧
        create aes fl n seed keys = .ok
          { arity := keys.length
            levels := mk s (nodeVal aes keys.length (keyFn keys) seed)
            keys := keys
            expandedKeys := keys }) := by
  by_cases h1 : keys.length < 2
  · left; refine ⟨Or.inl h1, "arity must be at least 2", ?_⟩; simp only [create]; rw [if_pos h1]
  by_cases h2 : n ≤ 0
  · left; refine ⟨Or.inr h2, "num_leaves must be positive", ?_⟩; simp only [create]; rw [if_neg h1, if_pos h2]
  right
  have ha : 2 ≤ keys.length := by omega
  rcases allocateLevels_cases fl (a := keys.length) (n := n.toNat) ha (by omega) with
    ⟨hle, s, hal, hs, hlen, hlast⟩ | ⟨hlt, m, hal⟩
  · right
    refine ⟨ha, by omega, hle, s, hs, hlen, hlast, hal, ?_⟩
    simp only [create]
    rw [if_neg h1, if_neg h2, hal]
    simp only [Out.ok_bind]
    rw [wr2_mk seed hs.head (by omega)]
    simp only [Out.ok_bind]
    rw [expandSubtree_eq aes ha (keyFn_spec keys) hs _ hs.head (by omega)]
    simp only [Out.ok_bind]
    congr 2
    apply mk_congr
    intro l k i hl hi
    have := sub_eq (aes := aes) (a := keys.length) (key := keyFn keys) (sl := 0) (sn := 0)
      (V := upd (fun _ _ => 0) 0 0 seed) (F := nodeVal aes keys.length (keyFn keys) seed)
      (by intro l i; simp [nodeVal, prg]) (by simp [upd, nodeVal]) l i
    rw [Nat.zero_add] at this
    apply this
    -- the ancestor at level 0 of a stored node is the root
    clear this
    revert k i
    induction l with
    | zero => intro k i hl hi; rw [hs.head] at hl; injection hl with hl; subst hl; simpa using hi
    | succ l ih =>
      intro k i hl hi
      have hll : l < s.length := by
        rw [List.getElem?_eq_some_iff] at hl; exact Nat.lt_of_succ_lt hl.1
      rw [div_pow_succ']
      exact ih s[l] (i / keys.length) (by simp [hll])
        (hs.parent_lt ha (by simp [hll]) hl hi)
  · left
    refine ⟨ha, by omega, hlt, m, ?_⟩
    simp only [create]
    rw [if_neg h1, if_neg h2, hal]
    rfl

/-- Nodes of a stored level have their ancestors stored. -/
theorem Sizes.anc_lt {a : Nat} (ha : 2 ≤ a) {s : List Nat} (hs : Sizes a s) :
    ∀ d l n n' i, s[l]? = some n → s[l + d]? = some n' → i < n' → i / a ^ d < n := by
  intro d
  induction d with
  | zero => intro l n n' i h1 h2 hi; simp at h2; rw [h1] at h2; injection h2 with h2; subst h2; simpa using hi
  | succ d ih =>
    intro l n n' i h1 h2 hi
    have hll : l + d < s.length := by
      rw [List.getElem?_eq_some_iff] at h2; have := h2.1; omega
    rw [div_pow_succ']
    exact ih l n s[l + d] (i / a) h1 (by simp [hll]) (hs.parent_lt ha (by simp [hll]) h2 hi)

theorem Sizes.le_last {a : Nat} (ha : 2 ≤ a) {s : List Nat} (hs : Sizes a s) {N : Nat}
    (hN : s[s.length - 1]? = some N) :
    ∀ k l n, l + k + 1 = s.length → s[l]? = some n → n ≤ N := by
  intro k
  induction k with
  | zero =>
    intro l n hl hn
    rw [show s.length - 1 = l by omega, hn] at hN; injection hN with hN; omega
  | succ k ih =>
    intro l n hl hn
    have hll : l + 1 < s.length := by omega
    have h1 := ih (l + 1) s[l + 1] (by omega) (by simp [hll])
    have h2 := hs.step l n s[l + 1] hn (by simp [hll])
    have h3 := hs.pos (l + 1) s[l + 1] (by simp [hll])
    have : n ≤ s[l + 1] := by
      rw [h2]
      apply Nat.le_of_lt_succ
      rw [Nat.div_lt_iff_lt_mul (by omega)]
      have h4 : s[l+1] * 2 ≤ s[l+1] * a := Nat.mul_le_mul_left _ ha
      have h5 : s[l+1].succ * a = s[l+1] * a + a := Nat.succ_mul _ _
      omega
    omega

/-! ### GetSiblingWiseXOR -/

/-- The rows computed by `GetSiblingWiseXOR`, as a function. -/
def sxor (a : Nat) (s : List Nat) (V : Nat → Nat → Block) (l j : Nat) : Block :=
  xorSum (fun i => if i % a = j then V (l + 1) i else 0) (s[l + 1]?.getD 0)

/-- A matrix with `r` rows of length `a`. -/
def mat (r a : Nat) (f : Nat → Nat → Block) : List (List Block) :=
  (List.range r).map (fun l => (List.range a).map (f l))

theorem rd_mat {r a l} (f) (h : l < r) : rd (mat r a f) l = .ok ((List.range a).map (f l)) := by
  rw [rd_eq_ok]; simp [mat, h]

theorem rd2_mat {r a l j} (f) (h : l < r) (hj : j < a) : rd2 (mat r a f) l j = .ok (f l j) := by
  simp [rd2, rd_mat f h, rd_map_range _ hj]

theorem getSiblingWiseXOR_eq {t : Tree} {s : List Nat} {V : Nat → Nat → Block}
    (ha : 0 < t.arity) (ht : t.levels = mk s V) (hb : ∀ (l n : Nat), s[l]? = some n → n ≤ 2 ^ 31) :
    t.getSiblingWiseXOR = .ok (mat (s.length - 1) t.arity (sxor t.arity s V)) := by
  unfold Tree.getSiblingWiseXOR
  have hnl : t.numLevels = s.length := by simp [Tree.numLevels, ht]
  rw [hnl]
  obtain ⟨s', h1, h2⟩ := loop_inv (fun lvl values => do
      let row ← rd t.levels (lvl + 1)
      let v ← rd values lvl
      let v' ← xorBlocks row v
      wr values lvl v')
    (fun lvl values => values = mat (s.length - 1) t.arity
      (fun l j => if l < lvl then sxor t.arity s V l j else 0))
    0 (s.length - 1) (List.replicate (s.length - 1) (List.replicate t.arity 0))
    (by
      simp only [mat]
      apply List.ext_getElem
      · simp
      · intro i h1 h2
        apply List.ext_getElem <;> simp)
    (by
      intro lvl values _ hlvl hI
      refine ⟨_, ?_, rfl⟩
      have hl : lvl + 1 < s.length := by omega
      have e : s[lvl + 1]? = some s[lvl + 1] := by simp [hl]
      rw [ht, rd_mk e, hI, rd_mat _ (by omega : lvl < s.length - 1)]
      simp only [Out.ok_bind]
      rw [xorBlocks_eq ha (hb _ _ e)]
      simp only [Out.ok_bind]
      rw [wr_of_lt _ (by simp [mat]; omega)]
      congr 1
      apply List.ext_getElem?
      intro k
      rw [List.getElem?_set]
      by_cases hk : lvl = k
      · subst hk
        have : lvl < s.length - 1 := by omega
        simp [mat, this, sxor, hl]
      · by_cases hk2 : k < s.length - 1
        · simp only [hk, if_false, mat, List.getElem?_map, List.getElem?_range hk2, Option.map_some]
          congr 1
          apply List.map_congr_left
          intro j _
          by_cases h3 : k < lvl
          · rw [if_pos h3, if_pos (by omega)]
          · rw [if_neg h3, if_neg (by omega)]
        · simp [hk, mat, hk2])
  rw [h1, h2]
  congr 1
  apply List.map_congr_left
  intro l hl
  apply List.map_congr_left
  intro j _
  simp only
  rw [if_pos (by simpa using hl)]

end DVO.GGM
