/-
Lemmas about the GGM tree model.
-/
import Verif.Spec.GGM
import Mathlib.Tactic.Linarith
import Mathlib.Tactic.Ring
import Mathlib.Logic.Function.Basic

namespace DVO.GGM

/-! ### Level arrays as functions -/

/-- The levels array with sizes `s` and contents `V` (proof device). -/
def mk (s : List Nat) (V : Nat → Nat → Block) : List (List Block) :=
  s.mapIdx (fun l n => (List.range n).map (V l))

def upd (V : Nat → Nat → Block) (l i : Nat) (a : Block) : Nat → Nat → Block :=
  fun l' i' => if l' = l ∧ i' = i then a else V l' i'

@[simp] theorem mk_length (s V) : (mk s V).length = s.length := by simp [mk]

theorem mk_getElem? (s V) (l : Nat) :
    (mk s V)[l]? = (s[l]?).map (fun n => (List.range n).map (V l)) := by
  simp [mk, List.getElem?_mapIdx]

theorem rd_mk {s : List Nat} {V l n} (h : s[l]? = some n) :
    rd (mk s V) l = .ok ((List.range n).map (V l)) := by
  rw [rd_eq_ok, mk_getElem?, h]; rfl

theorem rd_map_range {n i : Nat} (f : Nat → Block) (h : i < n) :
    rd ((List.range n).map f) i = .ok (f i) := by
  rw [rd_eq_ok]; simp [h]

theorem rd2_mk {s : List Nat} {V l n i} (h : s[l]? = some n) (hi : i < n) :
    rd2 (mk s V) l i = .ok (V l i) := by
  simp [rd2, rd_mk h, rd_map_range _ hi]

theorem mk_congr {s : List Nat} {V W : Nat → Nat → Block}
    (h : ∀ l n i, s[l]? = some n → i < n → V l i = W l i) : mk s V = mk s W := by
  apply List.ext_getElem?
  intro l
  rw [mk_getElem?, mk_getElem?]
  cases hs : s[l]? with
  | none => rfl
  | some n =>
    simp only [Option.map_some, Option.some.injEq]
    apply List.map_congr_left
    intro i hi
    exact h l n i hs (by simpa using hi)

theorem mk_inj {s : List Nat} {V W : Nat → Nat → Block} (h : mk s V = mk s W)
    {l n i} (hs : s[l]? = some n) (hi : i < n) : V l i = W l i := by
  have h1 := @rd2_mk s V l n i hs hi
  rw [h, rd2_mk hs hi] at h1
  injection h1 with h1
  exact h1.symm

theorem wr2_mk {s : List Nat} {V l n i} (a : Block) (h : s[l]? = some n) (hi : i < n) :
    wr2 (mk s V) l i a = .ok (mk s (upd V l i a)) := by
  have hl : l < s.length := by
    rw [List.getElem?_eq_some_iff] at h; exact h.1
  have : wr ((List.range n).map (V l)) i a = .ok (((List.range n).map (V l)).set i a) :=
    wr_of_lt _ (by simpa using hi)
  simp only [wr2, rd_mk h, Out.ok_bind, this]
  rw [wr_of_lt _ (by simpa using hl)]
  congr 1
  apply List.ext_getElem?
  intro l'
  rw [List.getElem?_set, mk_getElem?, mk_getElem?]
  by_cases e : l = l'
  · subst e
    simp only [mk_length, hl, if_true, h, Option.map_some, Option.some.injEq]
    apply List.ext_getElem?
    intro i'
    rw [List.getElem?_set]
    by_cases e' : i = i'
    · subst e'; simp [hi, upd]
    · have e2 : ¬ i' = i := fun x => e' x.symm
      by_cases hi' : i' < n
      · simp [e', upd, e2, hi']
      · simp [e', hi']
  · have e2 : ¬ l' = l := fun x => e x.symm
    simp only [e, if_false]
    congr 1
    funext n'
    simp [upd, e2]

/-- Every levels array is of the form `mk`. -/
theorem exists_mk (L : List (List Block)) : ∃ V, L = mk (L.map List.length) V := by
  refine ⟨fun l i => ((L[l]?).getD [])[i]?.getD 0, ?_⟩
  apply List.ext_getElem?
  intro l
  rw [mk_getElem?]
  cases h : L[l]? with
  | none => simp [h]
  | some row =>
    simp only [List.getElem?_map, h, Option.map_some, Option.some.injEq, Option.getD_some]
    apply List.ext_getElem?
    intro i
    by_cases hi : i < row.length
    · simp [hi]
    · simp [hi]

/-! ### Level sizes -/

/-- Sizes of a tree: the root level has one node, each level is the next one divided by the arity
    (rounded up). -/
structure Sizes (a : Nat) (s : List Nat) : Prop where
  head : s[0]? = some 1
  step : ∀ (l n n' : Nat), s[l]? = some n → s[l + 1]? = some n' → n = (n' + a - 1) / a
  pos : ∀ (l n : Nat), s[l]? = some n → 0 < n

def Chain (a : Nat) (s : List Nat) : Prop :=
  ∀ (l n n' : Nat), s[l]? = some n → s[l + 1]? = some n' → n = (n' + a - 1) / a

theorem allocSizes_spec (a : Nat) : ∀ (k n : Nat) (acc : List Nat), Chain a (n :: acc) →
    ∃ pre, allocSizes a (k + 1) n acc = pre ++ n :: acc ∧ pre.length = k ∧
      Chain a (pre ++ n :: acc) := by
  intro k
  induction k with
  | zero => intro n acc h; exact ⟨[], by simp [allocSizes], rfl, by simpa using h⟩
  | succ k ih =>
    intro n acc h
    have hc : Chain a ((n + a - 1) / a :: n :: acc) := by
      intro l x x' h1 h2
      cases l with
      | zero => simp at h1 h2; subst h1; subst h2; rfl
      | succ l => simp only [List.getElem?_cons_succ] at h1 h2; exact h l x x' h1 h2
    obtain ⟨pre, h1, h2, h3⟩ := ih ((n + a - 1) / a) (n :: acc) hc
    refine ⟨pre ++ [(n + a - 1) / a], ?_, by simp [h2], by simpa using h3⟩
    have : allocSizes a (k + 1 + 1) n acc = allocSizes a (k + 1) ((n + a - 1) / a) (n :: acc) := by
      simp [allocSizes]
    rw [this, h1]; simp

theorem ceil_pos {a n : Nat} (ha : 2 ≤ a) (hn : 0 < n) : 0 < (n + a - 1) / a := by
  apply Nat.div_pos <;> omega

theorem chain_pos {a : Nat} (ha : 2 ≤ a) {s : List Nat} (h : Chain a s) :
    ∀ k l n, l + k + 1 = s.length → s[s.length - 1]? = some n → 0 < n →
      ∀ m, s[l]? = some m → 0 < m ∧ n ≤ m * a ^ k := by
  intro k
  induction k with
  | zero =>
    intro l n hl hn hp m hm
    have : l = s.length - 1 := by omega
    subst this
    rw [hn] at hm; injection hm with hm; subst hm; simpa using hp
  | succ k ih =>
    intro l n hl hn hp m hm
    have hlt : l + 1 < s.length := by omega
    obtain ⟨h1, h2⟩ := ih (l + 1) n (by omega) hn hp s[l + 1] (by simp [hlt])
    have := h l m s[l+1] hm (by simp [hlt])
    subst this
    refine ⟨ceil_pos ha h1, ?_⟩
    calc n ≤ s[l+1] * a ^ k := h2
      _ ≤ ((s[l+1] + a - 1) / a * a) * a ^ k := by
          apply Nat.mul_le_mul_right
          have h3 := Nat.div_add_mod (s[l+1] + a - 1) a
          have h4 := Nat.mod_lt (s[l+1] + a - 1) (show a > 0 by omega)
          rw [Nat.mul_comm]
          omega
      _ = _ := by rw [Nat.pow_succ]; ring

/-- `AllocateLevels` succeeds exactly when the floating-point number of levels is large enough. -/
theorem chain_head_le {a : Nat} (ha : 2 ≤ a) {s : List Nat} (h : Chain a s) :
    ∀ k l n m, l + k + 1 = s.length → s[s.length - 1]? = some n → s[l]? = some m →
      n ≤ a ^ k → m ≤ 1 := by
  intro k
  induction k with
  | zero =>
    intro l n m hl hn hm hk
    have : l = s.length - 1 := by omega
    subst this
    rw [hn] at hm; injection hm with hm; subst hm; simpa using hk
  | succ k ih =>
    -- generalise: every level is bounded by a power
    intro l n m hl hn hm hk
    have key : ∀ j, j ≤ k + 1 → ∀ x, s[s.length - 1 - j]? = some x → x ≤ a ^ (k + 1 - j) := by
      intro j
      induction j with
      | zero => intro _ x hx; simp at hx hn; rw [hn] at hx; injection hx with hx; subst hx; simpa using hk
      | succ j ihj =>
        intro hj x hx
        have hlt : s.length - 1 - j < s.length := by omega
        have e : s.length - 1 - (j + 1) + 1 = s.length - 1 - j := by omega
        have h1 := ihj (by omega) s[s.length - 1 - j] (by simp [hlt])
        have h2 := h _ x s[s.length - 1 - j] hx (by rw [e]; simp [hlt])
        rw [h2]
        have e2 : k + 1 - j = (k + 1 - (j + 1)) + 1 := by omega
        rw [e2, Nat.pow_succ] at h1
        have : (s[s.length - 1 - j] + a - 1) < (a ^ (k + 1 - (j + 1)) + 1) * a := by
          rw [Nat.add_mul]; omega
        have := (Nat.div_lt_iff_lt_mul (by omega : 0 < a)).2 this
        omega
    have := key (k + 1) (le_refl _) m (by rw [show s.length - 1 - (k + 1) = l by omega]; exact hm)
    simpa using this

theorem allocateLevels_cases (fl : Nat → Nat → Nat) {a n : Nat} (ha : 2 ≤ a) (hn : 0 < n) :
    (n ≤ a ^ fl n a ∧ ∃ s, allocateLevels fl a n = .ok (mk s fun _ _ => 0) ∧ Sizes a s ∧
        s.length = fl n a + 1 ∧ s[s.length - 1]? = some n) ∨
    (a ^ fl n a < n ∧ ∃ m, allocateLevels fl a n = .err .internal m) := by
  obtain ⟨pre, h1, h2, h3⟩ := allocSizes_spec a (fl n a) n []
    (by intro l x x' h1 h2; simp at h2)
  set s := pre ++ [n] with hs
  have hlen : s.length = fl n a + 1 := by simp [hs, h2]
  have hlast : s[s.length - 1]? = some n := by simp [hs]
  have hmk : (s.map fun n => List.replicate n (0 : Block)) = mk s fun _ _ => 0 := by
    apply List.ext_getElem?
    intro l
    rw [mk_getElem?, List.getElem?_map]
    congr 1
    funext n
    apply List.ext_getElem <;> simp
  have hal : ∀ l, l < s.length → 0 < s[l]?.getD 0 ∧ n ≤ s[l]?.getD 0 * a ^ (s.length - 1 - l) := by
    intro l hl
    have := chain_pos ha h3 (s.length - 1 - l) l n (by omega) hlast hn s[l] (by simp [hl])
    simpa [hl] using this
  obtain ⟨m, s', hms⟩ : ∃ m s', s = m :: s' := by
    cases hss : s with
    | nil => rw [hss] at hlen; simp at hlen
    | cons m s' => exact ⟨m, s', rfl⟩
  have h0 : s[0]? = some m := by rw [hms]; rfl
  have hm := hal 0 (by omega)
  rw [h0] at hm
  have hm2 := chain_head_le ha h3 (fl n a) 0 n m (by omega) hlast h0
  have hunf : allocateLevels fl a n = if m ≠ 1 then
      .err .internal "First level should always have one block"
      else .ok (mk s fun _ _ => 0) := by
    unfold allocateLevels
    simp only
    rw [show 1 + fl n a = fl n a + 1 by omega, h1, hmk]
    have : mk s (fun _ _ => 0) = ((List.range m).map fun _ => 0) :: (mk s (fun _ _ => 0)).tail := by
      rw [hms]; simp [mk]
    rw [this]
    simp
  simp only [Option.getD_some, hlen, Nat.add_sub_cancel, Nat.sub_zero] at hm
  by_cases hc : n ≤ a ^ fl n a
  · left
    have hm1 : m = 1 := by have := hm2 hc; omega
    refine ⟨hc, s, by rw [hunf]; simp [hm1], ⟨by rw [h0, hm1], h3, ?_⟩, hlen, hlast⟩
    intro l x hx
    have hl : l < s.length := by rw [List.getElem?_eq_some_iff] at hx; exact hx.1
    have := (hal l hl).1
    rw [hx] at this; simpa using this
  · right
    refine ⟨by omega, "First level should always have one block", ?_⟩
    rw [hunf, if_pos]
    intro h1
    subst h1
    simp at hm
    omega

theorem Sizes.lt_of_parent {a : Nat} (ha : 2 ≤ a) {s : List Nat} (h : Sizes a s) {l n n' i : Nat}
    (h1 : s[l]? = some n) (h2 : s[l + 1]? = some n') : (i < n ↔ i * a < n') := by
  have h3 := h.step l n n' h1 h2
  have h0 := h.pos _ _ h2
  rw [h3]
  rw [Nat.lt_iff_add_one_le, Nat.le_div_iff_mul_le (by omega), Nat.add_mul]
  omega

theorem Sizes.parent_lt {a : Nat} (ha : 2 ≤ a) {s : List Nat} (h : Sizes a s) {l n n' i : Nat}
    (h1 : s[l]? = some n) (h2 : s[l + 1]? = some n') (hi : i < n') : i / a < n := by
  rw [h.lt_of_parent ha h1 h2]
  exact lt_of_le_of_lt (Nat.div_mul_le_self i a) hi

/-! ### ExpandSubtree -/

/-- Contents after expanding the subtree below `(sl, sn)`. -/
def sub (aes : Cipher) (a : Nat) (key : Nat → Block) (V : Nat → Nat → Block) (sl sn : Nat) :
    Nat → Nat → Block
  | 0, i => V 0 i
  | l + 1, i =>
    if sl ≤ l ∧ i / a ^ (l + 1 - sl) = sn then
      prg aes (sub aes a key V sl sn l (i / a)) (key (i % a))
    else V (l + 1) i

theorem sub_low {aes a key V sl sn l i} (h : l ≤ sl) : sub aes a key V sl sn l i = V l i := by
  cases l with
  | zero => rfl
  | succ l => simp only [sub]; rw [if_neg]; omega

theorem div_pow_succ' (i a d : Nat) : i / a ^ (d + 1) = i / a / a ^ d := by
  rw [Nat.pow_succ, Nat.mul_comm, Nat.div_div_eq_div_mul]

theorem sub_off {aes a key V sl sn l i} (h : ¬ (sl < l ∧ i / a ^ (l - sl) = sn)) :
    sub aes a key V sl sn l i = V l i := by
  cases l with
  | zero => rfl
  | succ l => simp only [sub]; rw [if_neg]; intro h'; apply h; exact ⟨by omega, h'.2⟩

/-- If the expanded node already has the value prescribed by `F`, which obeys the recurrence, the
    whole subtree gets the values of `F`. -/
theorem sub_eq {aes a key sl sn} {V F : Nat → Nat → Block}
    (hF : ∀ l i, F (l + 1) i = prg aes (F l (i / a)) (key (i % a))) (h0 : V sl sn = F sl sn) :
    ∀ d i, i / a ^ d = sn → sub aes a key V sl sn (sl + d) i = F (sl + d) i := by
  intro d
  induction d with
  | zero => intro i hi; simp at hi; subst hi; rw [sub_low (by omega)]; exact h0
  | succ d ih =>
    intro i hi
    rw [show sl + (d + 1) = (sl + d) + 1 by omega, hF]
    simp only [sub]
    rw [if_pos]
    · rw [ih (i / a) (by rw [← div_pow_succ']; exact hi)]
    · refine ⟨by omega, ?_⟩
      rw [show sl + d + 1 - sl = d + 1 by omega]; exact hi

theorem expandSubtree_eq (aes : Cipher) {a : Nat} (ha : 2 ≤ a) {keys : List Block}
    {key : Nat → Block} (hk : ∀ j, j < a → keys[j]? = some (key j)) {s : List Nat}
    (hs : Sizes a s) (V : Nat → Nat → Block) {sl sn n0 : Nat} (hsl : s[sl]? = some n0) (hsn : sn < n0) :
    expandSubtree aes a keys (mk s V) sl sn = .ok (mk s (sub aes a key V sl sn)) := by
  set S := sub aes a key V sl sn with hS
  have hsl' : sl < s.length := by rw [List.getElem?_eq_some_iff] at hsl; exact hsl.1
  let Inv : Nat → List (List Block) × Nat × Nat → Prop := fun lvl st =>
    st.1 = mk s (fun l i => if l ≤ lvl then S l i else V l i) ∧
    st.2.1 = sn * a ^ (lvl - sl) ∧
    (∀ n, s[lvl]? = some n → sn * a ^ (lvl - sl) < n) ∧
    (∀ n, s[lvl]? = some n → ∀ i, i < n → (i < st.2.2 ↔ i < (sn + 1) * a ^ (lvl - sl)))
  unfold expandSubtree
  obtain ⟨st, h1, h2⟩ := loop_inv (σ := List (List Block) × Nat × Nat)
    (fun lvl (st : List (List Block) × Nat × Nat) => do
      let cur ← rd st.1 lvl
      let maxNode := min st.2.2 cur.length
      let levels ← loop (fun node levels => do
          let next ← rd levels (lvl + 1)
          let numSiblings := min a (next.length - node * a)
          loop (fun sib levels => do
              let parent ← rd2 levels lvl node
              let key ← rd keys sib
              wr2 levels (lvl + 1) (a * node + sib) (prg aes parent key))
            0 numSiblings levels)
        st.2.1 (maxNode - st.2.1) st.1
      Out.ok (levels, st.2.1 * a, maxNode * a)) Inv sl (s.length - 1 - sl) (mk s V, sn, sn + 1)
    (by
      refine ⟨mk_congr ?_, by simp, ?_, ?_⟩
      · intro l n i _ _
        by_cases h : l ≤ sl
        · simp [h, hS, sub_low h]
        · simp [h]
      · intro n hn; rw [hsl] at hn; injection hn with hn; subst hn; simpa using hsn
      · intro n hn i hi; simp)
    (by
      intro lvl st hlo hhi hI
      obtain ⟨L, start, mx⟩ := st
      obtain ⟨hL, hst, hlt, hmx⟩ := hI
      simp only at hL hst hmx
      set d := lvl - sl with hd
      have hl1 : lvl + 1 < s.length := by omega
      have e1 : s[lvl]? = some s[lvl] := by simp [show lvl < s.length by omega]
      have e2 : s[lvl + 1]? = some s[lvl + 1] := by simp [hl1]
      set c := s[lvl] with hc
      set c' := s[lvl + 1] with hc'
      have hlt := hlt c e1
      have hmx := hmx c e1
      -- the middle loop
      have hrow : rd L lvl = .ok ((List.range c).map
          ((fun l i => if l ≤ lvl then S l i else V l i) lvl)) := by rw [hL]; exact rd_mk e1
      set mx' := min mx c with hmx'
      have hmxle : mx' ≤ c := by omega
      have hmxiff : ∀ i, i < c → (i < mx' ↔ i < (sn + 1) * a ^ d) := by
        intro i hi; rw [← hmx i hi]; omega
      have hstlt : start < mx' := by
        rw [hst, hmxiff _ hlt]
        apply Nat.mul_lt_mul_of_pos_right (by omega)
        exact Nat.pow_pos (by omega)
      obtain ⟨L2, hL2, hL2'⟩ := loop_inv (fun node levels => do
          let next ← rd levels (lvl + 1)
          let numSiblings := min a (next.length - node * a)
          loop (fun sib levels => do
              let parent ← rd2 levels lvl node
              let key ← rd keys sib
              wr2 levels (lvl + 1) (a * node + sib) (prg aes parent key))
            0 numSiblings levels)
        (fun node levels => levels = mk s (fun l i => if l ≤ lvl then S l i else
            if l = lvl + 1 ∧ start * a ≤ i ∧ i < node * a then S l i else V l i))
        start (mx' - start) L
        (by
          rw [hL]; apply mk_congr; intro l n i _ _
          by_cases h : l ≤ lvl
          · simp [h]
          · simp only [h, if_false]; rw [if_neg]; omega)
        (by
          intro node levels hn1 hn2 hLv
          have hnode : node < c := by omega
          rw [hLv, rd_mk e2, ← hLv]
          simp only [Out.ok_bind, List.length_map, List.length_range]
          have hna : node * a < c' := (hs.lt_of_parent ha e1 e2).1 hnode
          obtain ⟨L3, hL3, hL3'⟩ := loop_inv (fun sib levels => do
              let parent ← rd2 levels lvl node
              let key ← rd keys sib
              wr2 levels (lvl + 1) (a * node + sib) (prg aes parent key))
            (fun sib levels => levels = mk s (fun l i => if l ≤ lvl then S l i else
              if l = lvl + 1 ∧ start * a ≤ i ∧ i < node * a + sib then S l i else V l i))
            0 (min a (c' - node * a)) levels
            (by rw [hLv]; simp)
            (by
              intro sib levels _ hsib hLv
              have hsa : sib < a := by omega
              have hsc : a * node + sib < c' := by rw [Nat.mul_comm]; omega
              have hk' : rd keys sib = .ok (key sib) := by rw [rd_eq_ok]; exact hk sib hsa
              have hr : rd2 levels lvl node = .ok (S lvl node) := by
                rw [hLv, rd2_mk e1 hnode]; simp
              refine ⟨_, by simp only [hr, hk', Out.ok_bind]; rw [hLv, wr2_mk _ e2 hsc], ?_⟩
              apply mk_congr
              intro l n i _ _
              unfold upd
              have hdiv : (a * node + sib) / a = node := by
                rw [Nat.mul_add_div (by omega), Nat.div_eq_of_lt hsa]; omega
              have hmod : (a * node + sib) % a = sib := by
                rw [Nat.mul_add_mod, Nat.mod_eq_of_lt hsa]
              have hval : S (lvl + 1) (a * node + sib) = prg aes (S lvl node) (key sib) := by
                rw [hS]
                simp only [sub]
                rw [if_pos, hdiv, hmod]
                refine ⟨hlo, ?_⟩
                rw [show lvl + 1 - sl = d + 1 by omega, div_pow_succ', hdiv]
                have h5 : node < (sn + 1) * a ^ d := (hmxiff node hnode).1 (by omega)
                have h6 : sn * a ^ d ≤ node := by rw [← hst]; exact hn1
                exact Nat.div_eq_of_lt_le h6 h5
              by_cases hc1 : l = lvl + 1 ∧ i = a * node + sib
              · obtain ⟨rfl, rfl⟩ := hc1
                rw [if_pos ⟨rfl, rfl⟩, if_neg (by omega), if_pos, hval]
                refine ⟨rfl, ?_, ?_⟩
                · have := Nat.mul_le_mul_right a hn1
                  rw [Nat.mul_comm a node]; omega
                · rw [Nat.mul_comm a node]; omega
              · rw [if_neg hc1]
                by_cases hc2 : l ≤ lvl
                · simp [hc2]
                · simp only [hc2, if_false]
                  by_cases hc3 : l = lvl + 1
                  · have : ¬ i = a * node + sib := fun h => hc1 ⟨hc3, h⟩
                    rw [Nat.mul_comm a node] at this
                    by_cases hc4 : start * a ≤ i ∧ i < node * a + sib
                    · rw [if_pos ⟨hc3, hc4⟩, if_pos ⟨hc3, hc4.1, by omega⟩]
                    · rw [if_neg (fun h => hc4 h.2), if_neg]
                      intro h; apply hc4; exact ⟨h.2.1, by omega⟩
                  · rw [if_neg (fun h => hc3 h.1), if_neg (fun h => hc3 h.1)])
          refine ⟨L3, hL3, ?_⟩
          rw [hL3']
          apply mk_congr
          intro l n i hln hi
          by_cases hc2 : l ≤ lvl
          · simp [hc2]
          · simp only [hc2, if_false]
            by_cases hc3 : l = lvl + 1
            · subst hc3
              rw [e2] at hln; injection hln with hln; subst hln
              have hiff : (i < node * a + (0 + min a (c' - node * a))) ↔ i < (node + 1) * a := by
                rw [Nat.add_mul]; omega
              simp only [true_and, hiff]
            · rw [if_neg (fun h => hc3 h.1), if_neg (fun h => hc3 h.1)])
      refine ⟨(L2, start * a, mx' * a), ?_, ?_, ?_, ?_, ?_⟩
      · simp only [hrow, Out.ok_bind, List.length_map, List.length_range]
        rw [hL2]; rfl
      · simp only
        rw [hL2', show start + (mx' - start) = mx' by omega]
        apply mk_congr
        intro l n i hln hi
        by_cases hc2 : l ≤ lvl
        · rw [if_pos hc2, if_pos (by omega)]
        · rw [if_neg hc2]
          by_cases hc3 : l = lvl + 1
          · subst hc3
            rw [e2] at hln; injection hln with hln; subst hln
            rw [if_pos (le_refl (lvl + 1))]
            split
            · rfl
            · rename_i hneg
              symm
              rw [hS]
              apply sub_off
              rintro ⟨_, hq⟩
              apply hneg
              refine ⟨rfl, ?_⟩
              have hq' : i / a / a ^ d = sn := by
                rw [← div_pow_succ', show d + 1 = lvl + 1 - sl by omega]; exact hq
              have hpc : i / a < c := hs.parent_lt ha e1 e2 hi
              have hpos : 0 < a ^ d := Nat.pow_pos (by omega)
              have hlo' : sn * a ^ d ≤ i / a := by rw [← hq']; exact Nat.div_mul_le_self _ _
              have hhi' : i / a < (sn + 1) * a ^ d := by
                rw [← hq', Nat.add_mul, Nat.one_mul]; exact Nat.lt_div_mul_add hpos
              constructor
              · rw [hst]
                exact le_trans (Nat.mul_le_mul_right a hlo') (Nat.div_mul_le_self _ _)
              · rw [← Nat.div_lt_iff_lt_mul (by omega : 0 < a)]
                exact (hmxiff _ hpc).2 hhi'
          · rw [if_neg (fun h => hc3 h.1), if_neg (by omega)]
      · simp only
        rw [hst, show lvl + 1 - sl = d + 1 by omega, Nat.pow_succ]; ring
      · intro n hn
        rw [e2] at hn; injection hn with hn; subst hn
        rw [show lvl + 1 - sl = d + 1 by omega, Nat.pow_succ, ← Nat.mul_assoc]
        exact (hs.lt_of_parent ha e1 e2).1 hlt
      · intro n hn i hi
        rw [e2] at hn; injection hn with hn; subst hn
        simp only
        rw [show lvl + 1 - sl = d + 1 by omega, Nat.pow_succ, ← Nat.mul_assoc,
          ← Nat.div_lt_iff_lt_mul (by omega : 0 < a), ← Nat.div_lt_iff_lt_mul (by omega : 0 < a)]
        exact hmxiff _ (hs.parent_lt ha e1 e2 hi))
  simp only [mk_length]
  rw [h1]
  simp only [Out.ok_bind]
  rw [h2.1]
  congr 1
  apply mk_congr
  intro l n i hl _
  have : l < s.length := by rw [List.getElem?_eq_some_iff] at hl; exact hl.1
  rw [if_pos (by omega)]

end DVO.GGM
