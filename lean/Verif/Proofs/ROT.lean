/-
Lemmas about the all-but-one random OT.
-/
import Verif.Model.ROT
import Verif.Spec.ROT
import Verif.Props.GGM

namespace DVO.ROT
open GGM

theorem ggmToEmp_eq (x : Block) : ggmToEmp x = x := by
  apply BitVec.eq_of_getLsbD_eq
  intro i hi
  simp only [ggmToEmp, BitVec.getLsbD_append, BitVec.getLsbD_extractLsb']
  by_cases h : i < 64
  · simp [h]
  · simp only [h, if_false]
    have h1 : i - 64 < 64 := by omega
    simp [h1, show 64 + (i - 64) = i by omega]

theorem empToGgm_eq (x : Block) : empToGgm x = x := by
  apply BitVec.eq_of_getLsbD_eq
  intro i hi
  simp only [empToGgm, BitVec.getLsbD_or, BitVec.getLsbD_shiftLeft, BitVec.getLsbD_setWidth,
    BitVec.getLsbD_extractLsb']
  by_cases h : i < 64
  · simp [h, hi]
  · have h1 : i - 64 < 64 := by omega
    have h2 : i - 64 < 128 := by omega
    simp [h, hi, h1, h2, show 64 + (i - 64) = i by omega]

/-! ### Flattened lists -/

theorem flat_get {α : Type} : ∀ (L : List (List α)) (i j : Nat) (row : List α),
    L[i]? = some row → j < row.length →
    L.flatten[((L.take i).map List.length).sum + j]? = row[j]? := by
  intro L
  induction L with
  | nil => intro i j row h; simp at h
  | cons r L ih =>
    intro i j row h hj
    cases i with
    | zero =>
      simp only [List.getElem?_cons_zero, Option.some.injEq] at h
      subst h
      simp only [List.flatten_cons, List.take_zero, List.map_nil, List.sum_nil, Nat.zero_add]
      rw [List.getElem?_append_left hj]
    | succ i =>
      simp only [List.getElem?_cons_succ] at h
      simp only [List.flatten_cons, List.take_succ_cons, List.map_cons, List.sum_cons]
      rw [List.getElem?_append_right (by omega), Nat.add_assoc, Nat.add_sub_cancel_left]
      exact ih i j row h hj

/-! ### One tree -/

/-- Level sizes of the tree with `n` leaves. -/
def szs (fl : Nat → Nat → Nat) (n : Nat) : List Nat :=
  match allocateLevels fl 2 n with
  | .ok L => L.map List.length
  | _ => []

def fullTree (aes : Cipher) (fl : Nat → Nat → Nat) (keys : List Block) (n : Nat) (seed : Block) : Tree :=
  { arity := 2, levels := mk (szs fl n) (nodeVal aes 2 (keyFn keys) seed), keys := keys, expandedKeys := keys }

def punctTree (aes : Cipher) (fl : Nat → Nat → Nat) (keys : List Block) (n : Nat) (seed : Block) (m : Nat) : Tree :=
  { arity := 2
    levels := mk (szs fl n) (fun l i => if i = pathNode 2 (fl n 2 + 1) m l then 0 else
      nodeVal aes 2 (keyFn keys) seed l i)
    keys := keys, expandedKeys := keys }

/-- The value of entry `j` of row `l` of the sibling-wise XORs. -/
def sx (aes : Cipher) (fl : Nat → Nat → Nat) (keys : List Block) (n : Nat) (seed : Block) (l j : Nat) : Block :=
  sxor 2 (szs fl n) (nodeVal aes 2 (keyFn keys) seed) l j

theorem mk_lengths (s : List Nat) (V) : (mk s V).map List.length = s := by
  apply List.ext_getElem?
  intro l
  rw [List.getElem?_map, mk_getElem?]
  cases s[l]? <;> simp

theorem tree_facts (aes : Cipher) {fl : Nat → Nat → Nat} {n : Nat} (hn : 0 < n) (hg : GoodSize fl n)
    {keys : List Block} (hk : keys.length = 2) (seed : Block) :
    Sizes 2 (szs fl n) ∧ (szs fl n).length = fl n 2 + 1 ∧ (szs fl n)[fl n 2]? = some n ∧
    allocateLevels fl 2 n = .ok (mk (szs fl n) fun _ _ => 0) ∧
    (∀ (l k : Nat), (szs fl n)[l]? = some k → k ≤ 2 ^ 31) ∧
    create aes fl n seed keys = .ok (fullTree aes fl keys n seed) ∧
    (fullTree aes fl keys n seed).getSiblingWiseXOR = .ok (mat (fl n 2) 2 (sx aes fl keys n seed)) := by
  have hgc := hg.cover hn
  have hgl := hg.le
  rcases create_cases aes fl n seed keys with ⟨h1, _⟩ | ⟨_, _, h1, _⟩ | ⟨ha, _, _, s, hs, hlen, hlast, hal, hcr⟩
  · omega
  · rw [hk, Int.toNat_natCast] at h1; omega
  · rw [hk, Int.toNat_natCast] at hal hlen
    rw [Int.toNat_natCast] at hlast
    rw [hk] at hs hcr
    have hsz : szs fl n = s := by
      unfold szs; rw [hal]; simp only; rw [mk_lengths]
    have hb : ∀ (l k : Nat), s[l]? = some k → k ≤ 2 ^ 31 := by
      intro l k hl
      have hls : l < s.length := by rw [List.getElem?_eq_some_iff] at hl; exact hl.1
      have := hs.le_last (by omega) hlast (s.length - 1 - l) l k (by omega) hl
      omega
    have hx := getSiblingWiseXOR_eq (t := fullTree aes fl keys n seed) (s := szs fl n) (by simp [fullTree]) rfl
      (by rw [hsz]; exact hb)
    rw [hsz, hlen] at hx
    rw [hsz]
    refine ⟨hs, hlen, by rw [hlen] at hlast; exact hlast, hal, hb, ?_, ?_⟩
    · rw [hcr, fullTree, hsz]
    · rw [hx]
      simp only [Nat.add_sub_cancel]
      congr 2
      funext l j
      simp [sx, hsz, fullTree]

/-- OT messages for one tree. -/
def msgsOf (aes : Cipher) (fl : Nat → Nat → Nat) (keys : List Block) (n : Nat) (seed : Block) : List (Block × Block) :=
  (List.range (fl n 2)).map (fun l => (sx aes fl keys n seed l 0, sx aes fl keys n seed l 1))

theorem msgs_loop (x : Nat → Nat → Block) (k : Nat) :
    loop (fun j (ms : List (Block × Block)) => do
        let x0 ← rd2 (mat k 2 x) j 0
        let x1 ← rd2 (mat k 2 x) j 1
        .ok (ms ++ [(ggmToEmp x0, ggmToEmp x1)])) 0 k [] =
      .ok ((List.range k).map (fun l => (x l 0, x l 1))) := by
  obtain ⟨s, h1, h2⟩ := loop_inv (fun j (ms : List (Block × Block)) => do
        let x0 ← rd2 (mat k 2 x) j 0
        let x1 ← rd2 (mat k 2 x) j 1
        Out.ok (ms ++ [(ggmToEmp x0, ggmToEmp x1)]))
      (fun j ms => ms = (List.range j).map (fun l => (x l 0, x l 1))) 0 k [] (by simp)
      (by
        intro j ms _ hj hI
        refine ⟨_, ?_, rfl⟩
        rw [rd2_mat _ (by omega) (by omega), rd2_mat _ (by omega) (by omega), hI]
        simp [ggmToEmp_eq, List.range_succ])
  rw [h1, h2]; simp

/-- Trees and OT messages of the sender. -/
def fullTrees (aes : Cipher) (fl : Nat → Nat → Nat) (keys : List Block) (seed : Nat → Block)
    (ns : List Nat) : List (Option Tree) :=
  ns.mapIdx (fun i n => if n = 0 then none else some (fullTree aes fl keys n (seed i)))

def msgRows (aes : Cipher) (fl : Nat → Nat → Nat) (keys : List Block) (seed : Nat → Block)
    (ns : List Nat) : List (List (Block × Block)) :=
  ns.mapIdx (fun i n => if n = 0 then [] else msgsOf aes fl keys n (seed i))

theorem collectOT_eq (aes : Cipher) {fl : Nat → Nat → Nat} {keys : List Block} (hk : keys.length = 2) :
    ∀ (ns : List Nat) (seed : Nat → Block), (∀ n ∈ ns, GoodSize fl n) →
    collectOT (createTrees aes fl keys seed ns) =
      .ok (fullTrees aes fl keys seed ns, (msgRows aes fl keys seed ns).flatten) := by
  intro ns
  induction ns with
  | nil => intro seed _; rfl
  | cons n ns ih =>
    intro seed hg
    have ih' := ih (fun i => seed (i + 1)) (fun n hn => hg n (by simp [hn]))
    simp only [createTrees, fullTrees, msgRows, List.mapIdx_cons] at ih' ⊢
    by_cases hn : n = 0
    · subst hn
      simp only [if_true, collectOT]
      rw [ih']
      simp
    · rw [if_neg hn, if_neg hn, if_neg hn]
      obtain ⟨_, hlen, _, _, _, hcr, hx⟩ := tree_facts aes (by omega) (hg n (by simp)) hk (seed 0)
      simp only [collectOT]
      rw [hcr]
      simp only [Out.ok_bind]
      rw [hx]
      simp only [Out.ok_bind]
      have hnl : (fullTree aes fl keys n (seed 0)).numLevels - 1 = fl n 2 := by
        simp [Tree.numLevels, fullTree, hlen]
      rw [hnl, msgs_loop]
      simp only [Out.ok_bind]
      rw [ih']
      simp [msgsOf]

/-! ### Choice bits -/

def csOf (k : Nat) (m : Nat) : List Bool := (List.range k).map (fun l => !(m.testBit (k - 1 - l)))

theorem choiceBits_eq {k m : Nat} (hk : k ≤ 64) : choiceBits k (m : Int) = .ok (csOf k m) := by
  unfold choiceBits
  have hbit : ∀ j, j < 64 → ((~~~(BitVec.ofInt 64 (m : Int))) >>> j).getLsbD 0 = !(m.testBit j) := by
    intro j hj
    rw [BitVec.getLsbD_ushiftRight, BitVec.getLsbD_not]
    simp only [BitVec.ofInt_natCast, BitVec.getLsbD_ofNat, Nat.add_zero, hj, decide_true, Bool.true_and]
  simp only
  obtain ⟨s, h1, h2⟩ := loop_inv (fun j cs => if j ≥ 64 then Out.ub "shift" else
      wr cs (k - 1 - j) (((~~~(BitVec.ofInt 64 (m : Int))) >>> j).getLsbD 0))
    (fun j cs => cs.length = k ∧ ∀ l, l < k → k ≤ l + j → cs[l]? = some (!(m.testBit (k - 1 - l))))
    0 k (List.replicate k false) ⟨by simp, by intro l h1 h2; omega⟩
    (by
      rintro j cs _ hj ⟨hlen, hI⟩
      refine ⟨_, by rw [if_neg (by omega), wr_of_lt _ (by omega)], by simpa using hlen, ?_⟩
      intro l hl hlj
      rw [List.getElem?_set]
      by_cases e : k - 1 - j = l
      · rw [if_pos e, if_pos (by omega), hbit j (by omega)]
        rw [show k - 1 - l = j by omega]
      · rw [if_neg e]; exact hI l hl (by omega))
  rw [h1]
  congr 1
  apply List.ext_getElem?
  intro l
  by_cases hl : l < k
  · rw [h2.2 l hl (by omega)]; simp [csOf, hl]
  · have : s.length ≤ l := by omega
    simp [csOf, hl, this]

/-- The choice bit at level `l` is the complement of the path digit. -/
theorem digit_eq {k m l : Nat} (hl : l < k) :
    pathDigit 2 (k + 1) (m : Int) l = if m.testBit (k - 1 - l) then 1 else 0 := by
  unfold pathDigit
  obtain ⟨d, hd⟩ : ∃ d, d = k - 1 - l := ⟨_, rfl⟩
  have e1 : k - 1 - l = d := by omega
  have e2 : k + 1 - 1 - (l + 1) = d := by omega
  have e3 : k + 1 - 1 - l = d + 1 := by omega
  rw [e1, e2, e3]
  clear e1 e2 e3
  have h1 : (m : Int).tdiv (2 ^ d) = ((m / 2 ^ d : Nat) : Int) := by
    rw [Int.ofNat_tdiv]; norm_cast
  have h2 : (m : Int).tdiv (2 ^ (d + 1)) = ((m / 2 ^ d / 2 : Nat) : Int) := by
    rw [Nat.div_div_eq_div_mul, ← Nat.pow_succ, Int.ofNat_tdiv]; norm_cast
  rw [h1, h2, Nat.testBit_eq_decide_div_mod_eq]
  generalize m / 2 ^ d = q
  by_cases h : q % 2 = 1
  · simp only [h, decide_true, if_true]; omega
  · simp only [h, decide_false]; simp; omega

/-! ### One punctured tree -/

/-- The XOR table built by the receiver. -/
def recvTable (aes : Cipher) (fl : Nat → Nat → Nat) (keys : List Block) (n : Nat) (seed : Block) (m : Nat) :
    List (List Block) :=
  mat (fl n 2) 2 (fun l j => if j = (if m.testBit (fl n 2 - 1 - l) then 0 else 1) then
    sx aes fl keys n seed l j else 0)

theorem createPunct (aes : Cipher) {fl : Nat → Nat → Nat} {n : Nat} (hn : 0 < n) (hg : GoodSize fl n)
    {keys : List Block} (hk : keys.length = 2) (seed : Block) {m : Nat} (hm : m < n) :
    createFromXor aes fl 2 n m (recvTable aes fl keys n seed m) keys =
      .ok (punctTree aes fl keys n seed m) := by
  obtain ⟨hs, hlen, hlast, hal, hb, _, _⟩ := tree_facts aes hn hg hk seed
  have h4 := C04_ignores_path_entries aes fl 2 n m (recvTable aes fl keys n seed m)
    (mat (fl n 2) 2 (sx aes fl keys n seed)) keys
    (by simp [recvTable, mat])
    (by
      intro l j hj
      have hrl : (recvTable aes fl keys n seed m).length = fl n 2 := by simp [recvTable, mat]
      rw [hrl] at hj
      by_cases hl : l < fl n 2
      · by_cases hj2 : j < 2
        · rw [recvTable, rd2_mat _ hl hj2, rd2_mat _ hl hj2, if_pos]
          rw [digit_eq hl] at hj
          by_cases hb : m.testBit (fl n 2 - 1 - l) = true
          · rw [if_pos hb] at hj ⊢; omega
          · rw [if_neg hb] at hj ⊢; omega
        · simp only [rd2, recvTable, rd_mat _ hl, Out.ok_bind]
          simp [rd, hj2]
      · simp [rd2, rd, recvTable, mat, hl])
  rw [h4]
  have h5 := createFromXor_unfold aes fl (a := 2) (by omega) hk hs (N := n)
    (by rw [hlen]; exact hlast) hm hal (sx aes fl keys n seed)
  rw [hlen, Nat.add_sub_cancel] at h5
  have h6 := fillLoop_eq aes (a := 2) (by omega) hk hs (N := n) (by rw [hlen]; exact hlast) hm hb
    (nodeVal aes 2 (keyFn keys) seed) (by intro l i; rfl)
  rw [hlen, Nat.add_sub_cancel] at h6
  norm_cast at h5 h6 ⊢
  rw [h5]
  have : (mat (fl n 2) 2 (sx aes fl keys n seed)) = mat (fl n 2) 2 (sxor 2 (szs fl n) (nodeVal aes 2 (keyFn keys) seed)) := rfl
  rw [this, h6]
  rfl

/-! ### The receiver's loops -/

/-- Number of levels below the root, 0 for empty entries. -/
def kOf (fl : Nat → Nat → Nat) (n : Nat) : Nat := if n = 0 then 0 else fl n 2

def csRows (fl : Nat → Nat → Nat) (ns : List Nat) (ms : List Nat) : List (List Bool) :=
  List.zipWith (fun n m => csOf (kOf fl n) m) ns ms

def offs (fl : Nat → Nat → Nat) (ns : List Nat) (i : Nat) : Nat := ((ns.take i).map (kOf fl)).sum

theorem allChoices_eq {fl : Nat → Nat → Nat} : ∀ (ns : List Nat) (ms : List Nat) (o : Nat),
    ns.length = ms.length → (∀ n ∈ ns, GoodSize fl n) →
    allChoices fl ns (ms.map (fun m : Nat => (m : Int))) o =
      .ok ((csRows fl ns ms).flatten, (List.range (ns.length + 1)).map (fun i => o + offs fl ns i)) := by
  intro ns
  induction ns with
  | nil => intro ms o _ _; simp [allChoices, csRows, offs]
  | cons n ns ih =>
    intro ms o hlen hg
    cases ms with
    | nil => simp at hlen
    | cons m ms =>
      have hl : ns.length = ms.length := by simpa using hlen
      have hg' : ∀ n ∈ ns, GoodSize fl n := fun x hx => hg x (by simp [hx])
      have hoff : (List.range ((n :: ns).length + 1)).map (fun i => o + offs fl (n :: ns) i) =
          o :: (List.range (ns.length + 1)).map (fun i => (o + kOf fl n) + offs fl ns i) := by
        rw [List.length_cons, List.range_succ_eq_map]
        simp [offs, Function.comp_def, Nat.add_assoc]
      rw [hoff]
      simp only [List.map_cons, allChoices]
      by_cases hn : n = 0
      · subst hn
        rw [if_pos rfl, ih ms o hl hg']
        simp [csRows, kOf, csOf]
      · have hk := (hg n (by simp)).shift (by omega)
        rw [if_neg hn, choiceBits_eq hk]
        simp only [Out.ok_bind]
        rw [ih ms _ hl hg']
        simp [csRows, kOf, hn]

theorem otResult_length {ms : List (Block × Block)} {cs : List Bool} (h : ms.length = cs.length) :
    (otResult ms cs).length = cs.length := by simp [otResult, h]

theorem otResult_get {ms : List (Block × Block)} {cs : List Bool} {i : Nat} {p : Block × Block} {c : Bool}
    (h1 : ms[i]? = some p) (h2 : cs[i]? = some c) :
    (otResult ms cs)[i]? = some (if c then p.2 else p.1) := by
  simp [otResult, List.getElem?_zipWith, h1, h2]

theorem take_mapIdx_lengths (aes : Cipher) {fl : Nat → Nat → Nat} (keys : List Block) (seed : Nat → Block)
    (ns : List Nat) (i : Nat) :
    (((msgRows aes fl keys seed ns).take i).map List.length).sum = offs fl ns i := by
  unfold offs
  congr 1
  rw [List.map_take, List.map_take]
  congr 1
  apply List.ext_getElem?
  intro j
  simp only [msgRows, List.getElem?_map, List.getElem?_mapIdx, Option.map_map]
  congr 1
  funext n
  by_cases h : n = 0
  · simp [h, kOf]
  · simp [h, kOf, msgsOf]

theorem take_csRows_lengths {fl : Nat → Nat → Nat} (ns ms : List Nat) (h : ns.length = ms.length) (i : Nat) :
    (((csRows fl ns ms).take i).map List.length).sum = offs fl ns i := by
  unfold offs
  congr 1
  rw [List.map_take, List.map_take]
  congr 1
  apply List.ext_getElem?
  intro j
  simp only [csRows, List.getElem?_map, List.getElem?_zipWith]
  by_cases hj : j < ns.length
  · have hj2 : j < ms.length := by omega
    simp [hj, hj2, csOf]
  · simp [hj]

theorem flatten_lengths_eq (aes : Cipher) {fl : Nat → Nat → Nat} (keys : List Block) (seed : Nat → Block)
    (ns ms : List Nat) (h : ns.length = ms.length) :
    (msgRows aes fl keys seed ns).flatten.length = (csRows fl ns ms).flatten.length := by
  have h1 := take_mapIdx_lengths aes (fl := fl) keys seed ns ns.length
  have h2 := take_csRows_lengths (fl := fl) ns ms h ns.length
  rw [List.take_of_length_le (by simp [msgRows])] at h1
  rw [List.take_of_length_le (by simp [csRows])] at h2
  rw [List.length_flatten, List.length_flatten, h1, h2]

theorem upd2_mat {k a l j : Nat} (f : Nat → Nat → Block) (v : Block) (hl : l < k) (hj : j < a) :
    wr2 (mat k a f) l j v = .ok (mat k a (fun l' j' => if l' = l ∧ j' = j then v else f l' j')) := by
  simp only [wr2, rd_mat f hl, Out.ok_bind]
  rw [wr_map_range _ _ hj]
  simp only [Out.ok_bind]
  rw [wr_of_lt _ (by simpa [mat] using hl)]
  congr 1
  apply List.ext_getElem?
  intro l'
  rw [List.getElem?_set]
  by_cases e : l = l'
  · subst e
    simp [mat, hl]
  · have e2 : ¬ l' = l := fun x => e x.symm
    rw [if_neg e]
    simp only [mat, List.getElem?_map]
    by_cases hk : l' < k
    · simp [hk, e2]
    · simp [hk]

theorem xorTable_eq (aes : Cipher) {fl : Nat → Nat → Nat} (keys : List Block) {n : Nat} (seed : Block)
    {m : Nat} {choices : List Bool} {res : List Block} {off : Nat}
    (hc : ∀ j, j < fl n 2 → choices[off + j]? = some (!(m.testBit (fl n 2 - 1 - j))))
    (hr : ∀ j, j < fl n 2 → res[off + j]? = some
      (if !(m.testBit (fl n 2 - 1 - j)) then sx aes fl keys n seed j 1 else sx aes fl keys n seed j 0)) :
    xorTable choices res off (fl n 2) = .ok (recvTable aes fl keys n seed m) := by
  unfold xorTable
  obtain ⟨s, h1, h2⟩ := loop_inv (fun j xors => do
      let c ← rd choices (off + j)
      let r ← rd res (off + j)
      wr2 xors j (if c then 1 else 0) (empToGgm r))
    (fun i xors => xors = mat (fl n 2) 2 (fun l j => if l < i ∧ j = (if m.testBit (fl n 2 - 1 - l) then 0 else 1) then
        sx aes fl keys n seed l j else 0))
    0 (fl n 2) (List.replicate (fl n 2) (List.replicate 2 0))
    (by
      apply List.ext_getElem
      · simp [mat]
      · intro i h1 h2
        apply List.ext_getElem <;> simp [mat])
    (by
      intro l xors _ hl hI
      have hl : l < fl n 2 := by omega
      refine ⟨_, ?_, rfl⟩
      rw [rd_eq_ok.2 (hc l hl), rd_eq_ok.2 (hr l hl), hI]
      simp only [Out.ok_bind, empToGgm_eq]
      by_cases hb : m.testBit (fl n 2 - 1 - l) = true
      · simp only [hb, Bool.not_true, Bool.false_eq_true, if_false]
        rw [upd2_mat _ _ hl (by omega)]
        congr 1
        unfold mat
        apply List.map_congr_left; intro l' hl'
        apply List.map_congr_left; intro j' hj'
        by_cases e : l' = l
        · subst e
          by_cases e2 : j' = 0
          · subst e2; simp [hb]
          · simp [e2, hb]
        · simp only [e, false_and, if_false]
          have : l' < l ↔ l' < l + 1 := by omega
          simp only [this]
      · simp only [Bool.not_eq_true] at hb
        simp only [hb, Bool.not_false, if_true]
        rw [upd2_mat _ _ hl (by omega)]
        congr 1
        unfold mat
        apply List.map_congr_left; intro l' hl'
        apply List.map_congr_left; intro j' hj'
        by_cases e : l' = l
        · subst e
          by_cases e2 : j' = 1
          · subst e2; simp [hb]
          · simp [e2, hb]
        · simp only [e, false_and, if_false]
          have : l' < l ↔ l' < l + 1 := by omega
          simp only [this])
  rw [h1, h2]
  congr 1
  unfold recvTable mat
  apply List.map_congr_left; intro l hl
  apply List.map_congr_left; intro j hj
  have : l < fl n 2 := by simpa using hl
  simp [this]

/-- The receiver's trees. -/
def punctTrees (aes : Cipher) (fl : Nat → Nat → Nat) (keys : List Block) (seed : Nat → Block)
    (ns ms : List Nat) : List (Option Tree) :=
  ns.mapIdx (fun i n => if n = 0 then none else some (punctTree aes fl keys n (seed i) (ms[i]?.getD 0)))

/-- All indices of non-empty entries are in range. -/
def IdxOk (ns ms : List Nat) : Prop :=
  ns.length = ms.length ∧ ∀ (i n m : Nat), ns[i]? = some n → ms[i]? = some m → 0 < n → m < n

theorem buildTrees_eq (aes : Cipher) {fl : Nat → Nat → Nat} {keys : List Block} (hk : keys.length = 2)
    (seed : Nat → Block) {ns ms : List Nat} (hidx : IdxOk ns ms) (hg : ∀ n ∈ ns, GoodSize fl n) :
    buildTrees aes fl keys (csRows fl ns ms).flatten
      (otResult (msgRows aes fl keys seed ns).flatten (csRows fl ns ms).flatten)
      ((List.range (ns.length + 1)).map (fun i => 0 + offs fl ns i)) ns (ms.map (fun m : Nat => (m : Int))) =
    .ok (punctTrees aes fl keys seed ns ms, none) := by
  obtain ⟨hlen, hlt⟩ := hidx
  unfold buildTrees
  set CS := (csRows fl ns ms).flatten with hCS
  set MS := (msgRows aes fl keys seed ns).flatten with hMS
  obtain ⟨s, h1, h2⟩ := loop_inv (fun i (st : List (Option Tree) × Option (Code × String)) => do
    let n ← rd ns i
    if n = 0 then Out.ok (st.1 ++ [none], st.2) else
    let o0 ← rd ((List.range (ns.length + 1)).map (fun i => 0 + offs fl ns i)) i
    let o1 ← rd ((List.range (ns.length + 1)).map (fun i => 0 + offs fl ns i)) (i + 1)
    let xors ← xorTable CS (otResult MS CS) o0 (o1 - o0)
    let idx ← rd (ms.map (fun m : Nat => (m : Int))) i
    match createFromXor aes fl 2 n idx xors keys with
    | .ok t => .ok (st.1 ++ [some t], st.2)
    | .err c m => .ok (st.1 ++ [none], some (c, m))
    | .throws m => .throws m
    | .ub w => .ub w
    | .diverge => .diverge)
    (fun i st => st = ((punctTrees aes fl keys seed ns ms).take i, none)) 0 ns.length ([], none)
    (by simp)
    (by
      rintro i st _ hi rfl
      have hi : i < ns.length := by omega
      have hi2 : i < ms.length := by omega
      refine ⟨_, ?_, rfl⟩
      rw [rd_of_lt hi]
      simp only [Out.ok_bind]
      have htk : (punctTrees aes fl keys seed ns ms).take (i + 1) =
          (punctTrees aes fl keys seed ns ms).take i ++
            [if ns[i] = 0 then none else some (punctTree aes fl keys ns[i] (seed i) ms[i])] := by
        rw [List.take_succ_eq_append_getElem (by simpa [punctTrees] using hi)]
        simp [punctTrees, hi2]
      rw [htk]
      by_cases hz : ns[i] = 0
      · rw [if_pos hz, if_pos hz]
      · rw [if_neg hz, if_neg hz]
        have e0 : rd ((List.range (ns.length + 1)).map (fun i => 0 + offs fl ns i)) i = .ok (offs fl ns i) := by
          rw [rd_eq_ok]; simp [show i < ns.length + 1 by omega]
        have e1 : rd ((List.range (ns.length + 1)).map (fun i => 0 + offs fl ns i)) (i + 1) =
            .ok (offs fl ns i + fl ns[i] 2) := by
          rw [rd_eq_ok]
          simp only [List.getElem?_map, Nat.zero_add]
          rw [List.getElem?_range (by omega)]
          simp only [Option.map_some]
          congr 1
          unfold offs
          rw [List.take_succ_eq_append_getElem hi, List.map_append, List.sum_append]
          simp only [List.map_cons, List.map_nil, List.sum_cons, List.sum_nil, kOf, hz, if_false, Nat.add_zero]
        rw [e0, e1]
        simp only [Out.ok_bind, Nat.add_sub_cancel_left]
        have hpos : 0 < ns[i] := by omega
        have hcs : ∀ j, j < fl ns[i] 2 → CS[offs fl ns i + j]? = some (!(ms[i].testBit (fl ns[i] 2 - 1 - j))) := by
          intro j hj
          have := flat_get (csRows fl ns ms) i j (csOf (kOf fl ns[i]) ms[i])
            (by simp [csRows, List.getElem?_zipWith, hi, hi2]) (by simp [csOf, kOf, hz, hj])
          rw [take_csRows_lengths ns ms hlen] at this
          rw [hCS, this]
          simp [csOf, kOf, hz, hj]
        have hms : ∀ j, j < fl ns[i] 2 → MS[offs fl ns i + j]? =
            some (sx aes fl keys ns[i] (seed i) j 0, sx aes fl keys ns[i] (seed i) j 1) := by
          intro j hj
          have := flat_get (msgRows aes fl keys seed ns) i j (msgsOf aes fl keys ns[i] (seed i))
            (by simp [msgRows, List.getElem?_mapIdx, hi, hz]) (by simp [msgsOf, hj])
          rw [take_mapIdx_lengths] at this
          rw [hMS, this]
          simp [msgsOf, hj]
        rw [xorTable_eq aes keys (seed i) hcs (by
          intro j hj
          rw [otResult_get (hms j hj) (hcs j hj)])]
        simp only [Out.ok_bind]
        rw [show rd (ms.map (fun m : Nat => (m : Int))) i = .ok (ms[i] : Int) by
          rw [rd_eq_ok]; simp [hi2]]
        simp only [Out.ok_bind]
        rw [createPunct aes hpos (hg _ (by simp)) hk (seed i) (hlt i ns[i] ms[i] (by simp [hi]) (by simp [hi2]) hpos)])
  refine Eq.trans h1 ?_
  rw [h2]
  congr 2
  rw [Nat.zero_add]
  apply List.take_of_length_le
  simp [punctTrees]

/-! ### Unpacking -/

variable {T : Type} [Scalar T]

theorem getValueAtLeaf_mk {s : List Nat} {V : Nat → Nat → Block} {a : Nat} {keys keys' : List Block}
    {L n i : Nat} (hlen : s.length = L + 1) (hlast : s[L]? = some n) (hi : i < n) :
    (GGM.Tree.getValueAtLeaf { arity := a, levels := mk s V, keys := keys, expandedKeys := keys' } (i : Nat)) =
      .ok (V L i) := by
  unfold GGM.Tree.getValueAtLeaf Tree.getValueAtNode Tree.numLevels
  simp only [mk_length, hlen]
  rw [if_neg (by omega)]
  rw [show ((((L + 1 : Nat) : Int) - 1)).toNat = L by omega, rd_mk hlast]
  simp only [Out.ok_bind, Int.toNat_natCast]
  rw [if_neg (by simp; omega), rd_map_range _ hi]

theorem unpackLastLevel_eq {s : List Nat} {V : Nat → Nat → Block} {a : Nat} {keys keys' : List Block}
    {L n : Nat} (hlen : s.length = L + 1) (hlast : s[L]? = some n) (out : List T) (ho : out.length = n) :
    unpackLastLevel { arity := a, levels := mk s V, keys := keys, expandedKeys := keys' } out =
      .ok ((List.range n).map (fun i => Scalar.ofU128 (V L i))) := by
  unfold unpackLastLevel
  have hnl : GGM.Tree.numLeaves { arity := a, levels := mk s V, keys := keys, expandedKeys := keys' } = n := by
    simp only [GGM.Tree.numLeaves]
    rw [List.getLast?_eq_getElem?, mk_length, mk_getElem?, hlen, Nat.add_sub_cancel, hlast]; simp
  rw [hnl]
  obtain ⟨o, h1, h2⟩ := loop_inv (fun i out =>
      match GGM.Tree.getValueAtLeaf { arity := a, levels := mk s V, keys := keys, expandedKeys := keys' } (i : Nat) with
      | .ok leaf => wr out i (Scalar.ofU128 leaf)
      | _ => .ub "ValueOrDie on an error")
    (fun i (o : List T) => o.length = n ∧ ∀ j, j < i → o[j]? = some (Scalar.ofU128 (V L j))) 0 n out
    ⟨ho, by intro j hj; omega⟩
    (by
      rintro i o _ hi ⟨hl, hI⟩
      refine ⟨o.set i (Scalar.ofU128 (V L i)), ?_, by simpa using hl, ?_⟩
      · rw [getValueAtLeaf_mk hlen hlast (by omega)]
        exact wr_of_lt _ (by omega)
      · intro j hj
        rw [List.getElem?_set]
        by_cases e : i = j
        · subst e; rw [if_pos rfl, if_pos (by omega)]
        · rw [if_neg e]; exact hI j (by omega))
  refine Eq.trans h1 ?_
  congr 1
  apply List.ext_getElem?
  intro j
  by_cases hj : j < n
  · rw [h2.2 j (by omega)]; simp [hj]
  · have : o.length ≤ j := by rw [h2.1]; omega
    simp [hj, this]

/-- Unpacking a batch of trees given by their leaf functions. -/
theorem unpackAll_eq {trees : List (Option Tree)} {outputs : List (List T)} {F : Nat → List T}
    (h : ∀ i o, outputs[i]? = some o → o.length ≠ 0 →
      ∃ t, trees[i]? = some (some t) ∧ unpackLastLevel t o = .ok (F i)) :
    unpackAll trees outputs = .ok (outputs.mapIdx (fun i o => if o.length = 0 then o else F i)) := by
  unfold unpackAll
  obtain ⟨s, h1, h2⟩ := loop_inv (fun i outs => do
      let o ← rd outs i
      if o.length = 0 then Out.ok outs else
      match ← rd trees i with
      | none => Out.ub "null pointer"
      | some t => do
        let o' ← unpackLastLevel t o
        wr outs i o')
    (fun i (outs : List (List T)) => outs =
      outputs.mapIdx (fun j o => if j < i then (if o.length = 0 then o else F j) else o))
    0 outputs.length outputs (by apply List.ext_getElem?; intro j; simp)
    (by
      rintro i outs _ hi rfl
      have hi : i < outputs.length := by omega
      refine ⟨_, ?_, rfl⟩
      have hrd : rd (outputs.mapIdx (fun j o => if j < i then (if o.length = 0 then o else F j) else o)) i =
          .ok outputs[i] := by
        rw [rd_eq_ok]; simp [hi]
      rw [hrd]
      simp only [Out.ok_bind]
      by_cases hz : outputs[i].length = 0
      · rw [if_pos hz]
        congr 1
        apply List.ext_getElem?
        intro j
        simp only [List.getElem?_mapIdx]
        by_cases hj : j < outputs.length
        · simp only [hj, List.getElem?_eq_getElem, Option.map_some]
          by_cases e : j = i
          · subst e; simp [hz]
          · have : j < i ↔ j < i + 1 := by omega
            simp only [this]
        · simp [hj]
      · rw [if_neg hz]
        obtain ⟨t, ht, hu⟩ := h i outputs[i] (by simp [hi]) hz
        rw [rd_eq_ok.2 ht]
        simp only [Out.ok_bind]
        rw [hu]
        simp only [Out.ok_bind]
        rw [wr_of_lt _ (by simpa using hi)]
        congr 1
        apply List.ext_getElem?
        intro j
        rw [List.getElem?_set]
        simp only [List.getElem?_mapIdx, List.length_mapIdx]
        by_cases e : i = j
        · subst e; simp only [hi, if_true, List.getElem?_eq_getElem, Option.map_some]
          rw [if_pos (by omega), if_neg hz]
        · rw [if_neg e]
          by_cases hj : j < outputs.length
          · simp only [hj, List.getElem?_eq_getElem, Option.map_some]
            have : j < i ↔ j < i + 1 := by omega
            simp only [this]
          · simp [hj])
  refine Eq.trans h1 ?_
  rw [h2]
  congr 1
  apply List.ext_getElem?
  intro j
  simp only [List.getElem?_mapIdx]
  by_cases hj : j < outputs.length
  · simp [hj]
  · simp [hj]

end DVO.ROT
