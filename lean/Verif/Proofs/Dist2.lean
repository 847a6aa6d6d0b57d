/-
The loops of `std::uniform_int_distribution`, and sampling with it, on a given sequence of words.
-/
import Verif.Proofs.Dist1
import Verif.Proofs.VOLE8
import Verif.Model.Distribution

namespace DVO.Dist
open VOLE RNG

/-- From the state `G p`, the generator yields the words `f p`, `f (p + 1)`, … as far as `cap`. -/
def Tape (aes : Cipher) (f : Nat → BitVec 64) (G : Nat → Gen) (cap : Nat) : Prop :=
  ∀ p, p < cap → word aes (G p) = .ok (f p, G (p + 1))

theorem tape_create (aes : Cipher) {junk : Gen} {s : List (BitVec 8)} {b : Int} (he : size b % 2 = 0) {g : Gen} (hg : create junk s b = .ok g) :
    Tape aes (stream aes (load128 s) (load128 (s.drop 16))) (fun p => after aes g p) (size b * (2 ^ 48 / (size b / 2))) := by
  have hs : 32 ≤ s.length := by
    by_contra hc
    have h : s.length < stateSize := by unfold stateSize; omega
    unfold create RNG.seed at hg
    simp only [if_pos h] at hg
    cases hg
  obtain ⟨g', h1, h2, hB⟩ := create_at aes junk s b hs
  rw [hg] at h1
  cases h1
  intro p hp
  have h3 := call_eq hB h2 p hp
  unfold bufWord at h3
  have h4 := Nat.mod_lt p (show 0 < size b by omega)
  have h5 : 2 * (size b / 2) = size b := by omega
  rw [h5, if_pos h4, Nat.mul_comm, Nat.div_add_mod] at h3
  unfold call at h3
  unfold word
  show (match next aes (after aes g p) with | _ => _) = _
  rw [show next aes (after aes g p) = ((next aes (after aes g p)).1, (next aes (after aes g p)).2) from rfl, h3]
  rfl

section
variable {aes : Cipher} {f : Nat → BitVec 64} {G : Nat → Gen} {cap n : Nat}

theorem threshold (hn' : n < 2 ^ 64) : (2 ^ 64 - n) % n = 2 ^ 64 % n := (Nat.mod_eq_sub_mod hn'.le).symm

theorem reject_division (hn : 0 < n) (hn' : n < 2 ^ 64) (w : Nat) : w ≥ n * ((2 ^ 64 - 1) / n) ↔ decode false n w = none := by
  have hs : 0 < (2 ^ 64 - 1) / n := Nat.div_pos (by omega) (by omega)
  unfold decode
  simp only [Bool.false_eq_true, if_false]
  rw [ge_iff_le, ← Nat.le_div_iff_mul_le hs]
  generalize w / ((2 ^ 64 - 1) / n) = x
  split <;> simp only [reduceCtorEq, iff_false, iff_true] <;> omega

theorem divisionLoop_eq (H : Tape aes f G cap) (hn : 0 < n) (hn' : n < 2 ^ 64) {v : Nat} : ∀ (k p fuel : Nat), k < fuel → p + k < cap →
    (∀ i < k, decode false n (f (p + i)).toNat = none) → decode false n (f (p + k)).toNat = some v →
    divisionLoop aes ((2 ^ 64 - 1) / n) (n * ((2 ^ 64 - 1) / n)) fuel (G p) = .ok (v, G (p + k + 1)) := by
  intro k
  induction k with
  | zero =>
    intro p fuel hf hp _ hv
    obtain ⟨fuel, rfl⟩ : ∃ x, fuel = x + 1 := ⟨fuel - 1, by omega⟩
    unfold divisionLoop
    rw [H p (by omega), Out.ok_bind]
    dsimp only
    rw [if_neg (by rw [reject_division hn hn']; intro h; rw [Nat.add_zero, h] at hv; cases hv)]
    unfold decode at hv
    simp only [Bool.false_eq_true, if_false] at hv
    split at hv
    · cases hv; rfl
    · cases hv
  | succ k ih =>
    intro p fuel hf hp hr hv
    obtain ⟨fuel, rfl⟩ : ∃ x, fuel = x + 1 := ⟨fuel - 1, by omega⟩
    unfold divisionLoop
    rw [H p (by omega), Out.ok_bind]
    dsimp only
    rw [if_pos ((reject_division hn hn' (f p).toNat).2 (hr 0 (by omega))), ih (p + 1) fuel (by omega) (by omega) (fun i hi => by
      rw [show p + 1 + i = p + (i + 1) by omega]; exact hr _ (by omega)) (by rw [show p + 1 + k = p + (k + 1) by omega]; exact hv)]
    rw [show p + 1 + k + 1 = p + (k + 1) + 1 by omega]

theorem productLoop_eq (H : Tape aes f G cap) {v : Nat} : ∀ (k p fuel : Nat), k < fuel → p + k < cap →
    (∀ i < k, decode true n (f (p + i)).toNat = none) → decode true n (f (p + k)).toNat = some v →
    productLoop aes n (2 ^ 64 % n) fuel ((f p).toNat * n) (G (p + 1)) = .ok (v, G (p + k + 1)) := by
  intro k
  induction k with
  | zero =>
    intro p fuel hf hp _ hv
    obtain ⟨fuel, rfl⟩ : ∃ x, fuel = x + 1 := ⟨fuel - 1, by omega⟩
    unfold productLoop
    unfold decode at hv
    rw [if_pos rfl, Nat.add_zero] at hv
    split at hv
    · cases hv
    · next h => cases hv; rw [if_neg h]
  | succ k ih =>
    intro p fuel hf hp hr hv
    obtain ⟨fuel, rfl⟩ : ∃ x, fuel = x + 1 := ⟨fuel - 1, by omega⟩
    unfold productLoop
    have h0 := hr 0 (by omega)
    unfold decode at h0
    rw [if_pos rfl, Nat.add_zero] at h0
    split at h0
    · next h =>
      rw [if_pos h, H (p + 1) (by omega), Out.ok_bind]
      dsimp only
      rw [ih (p + 1) fuel (by omega) (by omega) (fun i hi => by
        rw [show p + 1 + i = p + (i + 1) by omega]; exact hr _ (by omega)) (by rw [show p + 1 + k = p + (k + 1) by omega]; exact hv)]
      rw [show p + 1 + k + 1 = p + (k + 1) + 1 by omega]
    · cases h0

theorem product_eq (H : Tape aes f G cap) (hn : 0 < n) (hn' : n < 2 ^ 64) {v k p fuel : Nat} (hk : k < fuel) (hp : p + k < cap)
    (hr : ∀ i < k, decode true n (f (p + i)).toNat = none) (hv : decode true n (f (p + k)).toNat = some v) :
    product aes n fuel (G p) = .ok (v, G (p + k + 1)) := by
  unfold product
  rw [H p (by omega), Out.ok_bind]
  dsimp only
  split
  · rw [threshold hn']
    exact productLoop_eq H k p fuel hk hp hr hv
  · next h =>
    have hlt : 2 ^ 64 % n < n := Nat.mod_lt _ hn
    cases k with
    | zero =>
      unfold decode at hv
      rw [if_pos rfl, Nat.add_zero, if_neg (by omega)] at hv
      cases hv
      rfl
    | succ k =>
      have h0 := hr 0 (by omega)
      unfold decode at h0
      rw [if_pos rfl, Nat.add_zero, if_neg (by omega)] at h0
      cases h0

/-- One draw: words are skipped until one means a number. -/
theorem unif_eq (H : Tape aes f G cap) (new : Bool) (hn : 0 < n) (hn' : n < 2 ^ 64) {v k p fuel : Nat} (hk : k < fuel) (hp : p + k < cap)
    (hr : ∀ i < k, decode new n (f (p + i)).toNat = none) (hv : decode new n (f (p + k)).toNat = some v) :
    unif new fuel aes (G p) 0 ((n : Int) - 1) = .ok ((v : Int), G (p + k + 1)) := by
  unfold unif
  have e : (((n : Int) - 1 - 0) % 2 ^ 64).toNat = n - 1 := by
    rw [Int.emod_eq_of_lt (by omega) (by omega)]; omega
  dsimp only
  rw [e, if_pos (by omega), show n - 1 + 1 = n by omega]
  cases new with
  | true => rw [if_pos rfl, product_eq H hn hn' hk hp hr hv, Out.ok_bind]; simp
  | false =>
    simp only [Bool.false_eq_true, if_false]
    rw [show division aes n fuel (G p) = _ from divisionLoop_eq H hn hn' k p fuel hk hp hr hv, Out.ok_bind]; simp

/-- The first word from `p` on that means a number. -/
theorem first_accepted {new : Bool} {p q : Nat} (hpq : p ≤ q) (hq : decode new n (f q).toNat ≠ none) :
    ∃ k v, p + k ≤ q ∧ (∀ i < k, decode new n (f (p + i)).toNat = none) ∧ decode new n (f (p + k)).toNat = some v := by
  have hex : ∃ k, decode new n (f (p + k)).toNat ≠ none := ⟨q - p, by rwa [show p + (q - p) = q by omega]⟩
  classical
  obtain ⟨v, hv⟩ := Option.ne_none_iff_exists'.1 (Nat.find_spec hex)
  refine ⟨Nat.find hex, v, ?_, fun i hi => ?_, hv⟩
  · have := Nat.find_min' hex (m := q - p) (by rwa [show p + (q - p) = q by omega])
    omega
  · by_contra hc
    exact Nat.find_min hex hi hc

/-- Sampling ends if the first `W` words mean enough different numbers. -/
theorem sampleIndices_eq (H : Tape aes f G cap) (hiFirst new : Bool) (hn : 0 < n) (hn' : n < 2 ^ 64) {t W dfuel : Nat} (hW : W ≤ cap) (hd : W ≤ dfuel)
    (S : Finset Int) (hS : t ≤ S.card) : ∀ (fuel p : Nat) (set : List Int), W - p < fuel →
    (∀ v ∈ S, v ∈ set ∨ ∃ q, p ≤ q ∧ q < W ∧ (decode new n (f q).toNat).map (fun x : Nat => (x : Int)) = some v) →
    ∃ l, sampleIndices (stdLib hiFirst new dfuel) aes n t fuel (G p) set = .ok l := by
  intro fuel
  induction fuel with
  | zero => intro p set h; omega
  | succ fuel ih =>
    intro p set hf hv
    unfold sampleIndices
    by_cases hlt : set.length < t
    · rw [if_pos (by exact_mod_cast hlt)]
      obtain ⟨v, hvS, hvn⟩ : ∃ v ∈ S, v ∉ set := by
        by_contra hc
        push Not at hc
        have h1 : S ⊆ set.toFinset := fun v hv => List.mem_toFinset.2 (hc v hv)
        have h2 := (Finset.card_le_card h1).trans (List.toFinset_card_le set)
        omega
      obtain ⟨q, h1, h2, h3⟩ := (hv v hvS).resolve_left hvn
      have h4 : decode new n (f q).toNat ≠ none := by intro h; rw [h] at h3; cases h3
      obtain ⟨k, u, h5, h6, h7⟩ := first_accepted h1 h4
      show ∃ l, (unif new dfuel aes (G p) 0 ((n : Int) - 1) >>= _) = .ok l
      rw [unif_eq H new hn hn' (by omega) (by omega) h6 h7, Out.ok_bind]
      dsimp only
      refine ih _ _ (by omega) fun v' hv' => ?_
      rcases hv v' hv' with h | ⟨q', h8, h9, h10⟩
      · left
        split
        · exact h
        · exact List.mem_append_left _ h
      · by_cases hq : q' < p + k
        · have h11 := h6 (q' - p) (by omega)
          rw [show p + (q' - p) = q' by omega] at h11
          rw [h11] at h10
          cases h10
        · by_cases hq2 : q' = p + k
          · left
            rw [hq2, h7] at h10
            cases h10
            split
            · assumption
            · exact List.mem_append_right _ (List.mem_singleton.2 rfl)
          · exact .inr ⟨q', by omega, h9, h10⟩
    · rw [if_neg (by exact_mod_cast hlt)]
      exact ⟨_, rfl⟩

theorem sampleElems_eq {T : Type} [Scalar T] (H : Tape aes f G cap) (lib : Lib) (m : Nat) (hm : 2 * m ≤ cap) :
    ∃ l : List T, sampleElems lib aes m (G 0) = .ok (l, G (2 * m)) ∧ l.length = m := by
  obtain ⟨⟨l, g'⟩, e, h1, h2⟩ := loop_inv (Inv := fun i (s : List T × RNG.Gen) => s.1.length = i ∧ s.2 = G (2 * i)) (lo := 0) (n := m)
    (f := fun _ (s : List T × RNG.Gen) => do
      let (r, g) ← word128 lib aes s.2
      .ok (s.1 ++ [Scalar.ofU128 r], g)) (s := ([], G 0)) (h0 := ⟨rfl, rfl⟩) (hstep := by
      rintro i ⟨l, g⟩ _ hi ⟨h1, h2⟩
      dsimp only at h1 h2 ⊢
      subst h2
      unfold word128
      rw [H (2 * i) (by omega), Out.ok_bind]
      dsimp only
      rw [H (2 * i + 1) (by omega), Out.ok_bind]
      exact ⟨_, rfl, by simp [h1], rfl⟩)
  dsimp only at h1 h2
  rw [Nat.zero_add] at h1 h2
  subst h2
  exact ⟨l, e, h1⟩

theorem sampleCol_eq {T : Type} (H : Tape aes f G cap) (hiFirst new : Bool) {rows : Nat} (hr : 0 < rows) (hr' : rows < 2 ^ 64) {F dfuel : Nat} (hd : F ≤ dfuel)
    (elems : List T) (col : Nat) (he : (col + 1) * nonzeros ≤ elems.length) {p W : Nat} (hp : p + nonzeros * F ≤ W) (hW : W ≤ cap)
    (hF : ∀ p, p + F ≤ W → ∃ k < F, decode new rows (f (p + k)).toNat ≠ none) :
    ∃ c p', sampleCol (stdLib hiFirst new dfuel) aes rows elems col (G p) = .ok (c, G p') ∧ p' ≤ p + nonzeros * F := by
  obtain ⟨⟨c, g'⟩, e, p', h1, h2⟩ := loop_inv (Inv := fun i (s : List (Nat × T) × RNG.Gen) => ∃ p', s.2 = G p' ∧ p' ≤ p + i * F) (lo := 0) (n := nonzeros)
    (f := fun i (s : List (Nat × T) × RNG.Gen) => do
      let (row, g) ← (stdLib hiFirst new dfuel).unif aes s.2 0 (rows - 1)
      if row < 0 ∨ row ≥ rows then .ub "Eigen: coeffRef" else
      let x ← rd elems (col * nonzeros + i)
      .ok (setEntry s.1 row.toNat x, g)) (s := ([], G p)) (h0 := ⟨p, rfl, by omega⟩) (hstep := by
      rintro i ⟨l, g⟩ _ hi ⟨p', h1, h2⟩
      dsimp only at h1 ⊢
      subst h1
      have hi' : i < nonzeros := by omega
      have h3 : (i + 1) * F ≤ nonzeros * F := Nat.mul_le_mul_right _ hi'
      rw [Nat.succ_mul] at h3
      obtain ⟨k0, hk0, hk1⟩ := hF p' (by omega)
      obtain ⟨k, v, h5, h6, h7⟩ := first_accepted (Nat.le_add_right p' k0) hk1
      have hv := decode_lt (f (p' + k)).isLt h7
      show ∃ s', (unif new dfuel aes (G p') 0 ((rows : Int) - 1) >>= _) = Out.ok s' ∧ _
      rw [unif_eq H new hr hr' (by omega) (by omega) h6 h7, Out.ok_bind]
      dsimp only
      rw [if_neg (by omega), rd_of_lt (by have : (col + 1) * nonzeros = col * nonzeros + nonzeros := by ring
                                          omega)]
      exact ⟨_, rfl, _, rfl, by rw [Nat.succ_mul]; omega⟩)
  dsimp only at h1
  rw [Nat.zero_add] at h2
  subst h1
  exact ⟨c, p', e, h2⟩

/-- Sampling the matrix succeeds if there are never `F` consecutive words that mean no number. -/
theorem sampleCode_eq {T : Type} [Scalar T] (H : Tape aes f G cap) (hiFirst new : Bool) {rows cols : Nat} (hr : 0 < rows) (hr' : rows < 2 ^ 64) {F dfuel : Nat} (hd : F ≤ dfuel)
    (hW : 2 * (nonzeros * cols) + nonzeros * cols * F ≤ cap)
    (hF : ∀ p, p + F ≤ 2 * (nonzeros * cols) + nonzeros * cols * F → ∃ k < F, decode new rows (f (p + k)).toNat ≠ none) :
    ∃ c : Sparse T, sampleCode (stdLib hiFirst new dfuel) aes rows cols (G 0) = .ok c := by
  unfold sampleCode
  obtain ⟨l, e, hl⟩ := sampleElems_eq (T := T) H (stdLib hiFirst new dfuel) (nonzeros * cols) (by omega)
  rw [e, Out.ok_bind]
  dsimp only
  rw [if_neg (by omega)]
  obtain ⟨⟨cs, g2⟩, e2, -⟩ := loop_inv (Inv := fun i (s : List (List (Nat × T)) × RNG.Gen) => ∃ p, s.2 = G p ∧ p ≤ 2 * (nonzeros * cols) + i * (nonzeros * F)) (lo := 0) (n := cols)
    (f := fun col (s : List (List (Nat × T)) × RNG.Gen) => do
      let (c, g) ← sampleCol (stdLib hiFirst new dfuel) aes rows l col s.2
      .ok (s.1 ++ [c], g)) (s := ([], G (2 * (nonzeros * cols)))) (h0 := ⟨_, rfl, by omega⟩) (hstep := by
      rintro i ⟨cs, g⟩ _ hi ⟨p, h1, h2⟩
      dsimp only at h1 ⊢
      subst h1
      have h3 : (i + 1) * (nonzeros * F) ≤ cols * (nonzeros * F) := Nat.mul_le_mul_right _ (by omega)
      have h4 : cols * (nonzeros * F) = nonzeros * cols * F := by ring
      rw [Nat.succ_mul] at h3
      obtain ⟨c, p', e, h5⟩ := sampleCol_eq H hiFirst new hr hr' hd l i (by rw [hl, Nat.mul_comm]; exact Nat.mul_le_mul_left _ (by omega)) (p := p)
        (W := 2 * (nonzeros * cols) + nonzeros * cols * F) (by omega) hW hF
      rw [e]
      exact ⟨_, rfl, _, rfl, by have e : (i + 1) * (nonzeros * F) = i * (nonzeros * F) + nonzeros * F := Nat.succ_mul _ _
                                omega⟩)
  rw [e2]
  exact ⟨_, rfl⟩

end
end DVO.Dist
