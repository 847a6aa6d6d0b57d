/-
Vector OLE: consequences for reachable states, and an environment in which nothing goes wrong.
-/
import Verif.Proofs.VOLE7
import Verif.Model.ScalarTypes
import Verif.Proofs.RNG
import Mathlib.Tactic.Linarith

namespace DVO.Net
variable {M S S' α β : Type} {P : Out Unit → Prop}

/-- The outcome of a pair in any interleaving that cannot be continued. -/
theorem Pair.stopped {p : Proc M (Out α × S)} {q : Proc M (Out β × S')} {Post : α → S → β → S' → Prop} (h : Pair P p q Post)
    {n : Nat} {st : Net M (Out α × S) (Out β × S')} (hst : Steps n (init p q) st) (hno : ∀ t, ¬ Step st t) :
    (∃ a s b t, st.p = .ret (.ok a, s) ∧ st.q = .ret (.ok b, t) ∧ Post a s b t) ∨
    (∃ o s, st.p = .ret (o, s) ∧ Bad P o) ∨ (∃ o s, st.q = .ret (o, s) ∧ Bad P o) := by
  rcases h with ⟨a, s1, b, t1, va1, vb1, ⟨k, h1⟩, h2⟩ | ⟨k, s1, h1, h2⟩
  · obtain ⟨-, h3⟩ := normal_form hno hst h1
    have := steps_final h3
    left
    refine ⟨a, s1, b, t1, ?_, ?_, h2⟩ <;> rw [this] <;> rfl
  · obtain ⟨-, h3⟩ := normal_form hno hst h1
    right
    rcases h2 with ⟨o1, t1, e, hb⟩ | ⟨o1, t1, e, hb⟩
    · exact .inl ⟨o1, t1, steps_ret_left h3 e, hb⟩
    · exact .inr ⟨o1, t1, steps_ret_right' h3 e, hb⟩

theorem Pair.false {p : Proc M (Out α × S)} {q : Proc M (Out β × S')} {Post : α → S → β → S' → Prop}
    (h : Pair (fun _ => False) p q Post) : ∃ a s b t va vb, Computes p q (.ok a, s) (.ok b, t) va vb ∧ Post a s b t := by
  rcases h with ⟨a, s1, b, t1, va1, vb1, h1, h2⟩ | ⟨k, s1, h1, h2⟩
  · exact ⟨a, s1, b, t1, va1, vb1, h1.computes, h2⟩
  · rcases h2 with ⟨o, t, -, hb⟩ | ⟨o, t, -, hb⟩ <;> cases o <;> exact absurd hb id

end DVO.Net

namespace DVO.VOLE
open Net MPFSS

/-! ### An environment in which nothing goes wrong -/

/-- A "library" whose numbers are consecutive; it counts in the generator's counter. -/
def toyLib : Lib where
  hiFirst := true
  unif _ g lo hi := .ok (lo + (-g.counter) % (hi - lo + 1), { g with counter := g.counter - 1 })

/-- A cipher. -/
def toyAes : Cipher := fun k p => k ^^^ (p * 5 + 1)

def toyEnv (lower : Bool) (salt fuel : Nat) : Env (BitVec 64) where
  aes := toyAes
  fl := fun _ _ => 31
  c := ⟨0, 1, 2⟩
  sec := some (2 ^ 40)
  lib := toyLib
  thr := fun n => [n / 2, n - n / 2]
  lower := lower
  rand := fun pos => {
    elems := fun i => BitVec.ofNat 64 (salt * 1000003 + pos * 1009 + i * i + 17)
    byte := fun i => BitVec.ofNat 8 (salt + pos * 7 + i)
    junk := ⟨[], 0, 0, 0, 0⟩
    order := List.reverse
    key := fun i => BitVec.ofNat 128 (salt + 3 * pos + i)
    seed := fun i => BitVec.ofNat 128 (salt + 5 * pos + i)
    m0 := fun i => BitVec.ofNat 128 (salt + 11 * pos + i)
    rnd := fun i => [BitVec.ofNat 64 (salt + i)] }
  fuel := fuel

/-- A hasher with 2000 buckets in which the first hash of a small number is that number. -/
def toyHasher : Cuckoo.Hasher := ⟨fun _ => 0, 3, fun _ _ => false, fun _ => 2000⟩

theorem toyLib_conforms (aes : Cipher) : toyLib.Conforms aes := by
  intro g lo hi hg hle
  show lo ≤ lo + _ ∧ lo + _ ≤ hi ∧ Usable _
  have h1 := Int.emod_nonneg (-g.counter) (b := hi - lo + 1) (by omega)
  have h2 := Int.emod_lt_of_pos (-g.counter) (b := hi - lo + 1) (by omega)
  refine ⟨by omega, by omega, ⟨hg.1, hg.2, hg.3, hg.4, ?_⟩⟩
  have := hg.counter
  show g.counter - 1 ≤ _
  omega

theorem toy_together (x y fx fy : Nat) : Together toyHasher (toyEnv true x fx) (toyEnv false y fy) where
  aes := rfl
  fl := rfl
  chans := rfl
  sec := rfl
  lib := rfl
  ids := rfl
  threadsA := fun n => by show (n / 2 + (n - n / 2 + 0)) = n; omega
  threadsB := fun n => by show (n / 2 + (n - n / 2 + 0)) = n; omega
  orderA := fun i l => List.reverse_perm l
  orderB := fun i l => List.reverse_perm l
  conforms := toyLib_conforms _
  numHash := rfl
  buckets_pos := fun n _ => by show (0 : Int) < 2000; omega
  buckets_lt := fun n _ => by show (2000 : Int) < _; omega
  trees := fun n hn => ⟨by omega, fun _ => by show n ≤ 2 ^ 31; omega, fun _ => by show 31 ≤ 64; omega⟩

theorem toy_sampleIndices {o t : Nat} (aes : Cipher) (hle : t ≤ o) : ∀ (f k : Nat) (g : RNG.Gen), k ≤ t → t - k < f → g.counter = -(k : Int) →
    sampleIndices toyLib aes o t f g ((List.range k).map (fun (i : Nat) => (i : Int))) = .ok ((List.range t).map (fun (i : Nat) => (i : Int))) := by
  intro f
  induction f with
  | zero => intro k g _ h; omega
  | succ f ih =>
    intro k g hk hf hg
    unfold sampleIndices
    by_cases h : k < t
    · rw [if_pos (by simpa using h)]
      show sampleIndices toyLib aes o t f { g with counter := g.counter - 1 } _ = _
      have e : (0 : Int) + -g.counter % ((o : Int) - 1 - 0 + 1) = k := by
        rw [hg, neg_neg, Int.emod_eq_of_lt (by omega) (by omega)]; omega
      rw [e, if_neg (by simp)]
      have := ih (k + 1) { g with counter := g.counter - 1 } (by omega) (by omega) (by show g.counter - 1 = _; omega)
      rw [List.range_succ, List.map_append] at this
      exact this
    · rw [if_neg (by simpa using h)]
      have : k = t := by omega
      rw [this]

/-- While not too many words have been drawn. -/
structure Budget (g : RNG.Gen) (L k : Int) : Prop where
  len : g.buffer.length = L
  size : 2 ≤ L
  pos : 0 ≤ g.used
  le : g.used ≤ L
  counter : 2 * g.counter ≤ k + (L - g.used)

theorem Budget.next {g : RNG.Gen} {L k : Int} (aes : Cipher) (H : Budget g L k) (hL : L ≤ 2 ^ 40) (hk : k ≤ 2 ^ 40) :
    ∃ w g', word aes g = .ok (w, g') ∧ Budget g' L (k + 1) := by
  have h1 := H.len
  have h2 := H.size
  have h3 := H.pos
  have h4 := H.le
  have h5 := H.counter
  have key : ∀ g' : RNG.Gen, Budget g' L k → g'.used < L → ∃ w, RNG.take g' = (.ok w, { g' with used := g'.used + 1 }) ∧
      Budget { g' with used := g'.used + 1 } L (k + 1) := by
    intro g' H' hu
    have e1 := H'.len
    have e3 := H'.pos
    have e5 := H'.counter
    obtain ⟨w, hw⟩ : ∃ w, g'.buffer[g'.used.toNat]? = some w := by
      refine ⟨g'.buffer[g'.used.toNat]'(by omega), List.getElem?_eq_getElem _⟩
    refine ⟨w, ?_, ⟨e1, h2, by show 0 ≤ g'.used + 1; omega, by show g'.used + 1 ≤ L; omega, by show 2 * g'.counter ≤ k + 1 + (L - (g'.used + 1)); omega⟩⟩
    unfold RNG.take rdI
    rw [if_neg (by omega)]
    unfold rd
    rw [hw]
  unfold word RNG.next
  by_cases hu : g.used < L
  · rw [if_neg (by omega)]
    obtain ⟨w, e, H'⟩ := key g H hu
    rw [e]
    exact ⟨w, _, rfl, H'⟩
  · rw [if_pos (by omega), RNG.refill_eq aes g (by omega)]
    dsimp only
    rw [if_neg (by unfold RNG.reseedInterval; omega)]
    obtain ⟨w, e, H'⟩ := key { g with
      buffer := RNG.filled aes g.key g.nonce g.buffer, nonce := g.nonce + BitVec.ofNat 128 (g.buffer.length / 2), used := 0, counter := g.counter + (g.buffer.length / 2 : Nat) }
      ⟨by simpa using h1, h2, by simp, by show 0 ≤ L; omega, by show 2 * (g.counter + (g.buffer.length / 2 : Nat)) ≤ k + (L - 0); omega⟩ (by show 0 < L; omega)
    rw [e]
    exact ⟨w, _, rfl, H'⟩

theorem Budget.create {junk : RNG.Gen} {seed : List (BitVec 8)} {b : Int} {g : RNG.Gen} (h : RNG.create junk seed b = .ok g) (hb : 2 ≤ b) :
    Budget g b 0 ∧ g.counter = 0 := by
  unfold RNG.create RNG.seed at h
  dsimp only at h
  by_cases hs : seed.length < RNG.stateSize
  · rw [if_pos hs] at h; cases h
  · rw [if_neg hs, if_neg (by omega)] at h
    cases h
    refine ⟨⟨?_, hb, ?_, ?_, ?_⟩, rfl⟩ <;> simp only [RNG.ctor, List.length_replicate] <;> omega

theorem toy_elems {T : Type} [Scalar T] (aes : Cipher) {L : Int} (hL : L ≤ 2 ^ 40) (n : Nat) (hn : (n : Int) ≤ 2 ^ 38) {g : RNG.Gen} (H : Budget g L 0) :
    ∃ l g', sampleElems (T := T) toyLib aes n g = .ok (l, g') ∧ l.length = n := by
  obtain ⟨⟨l, g'⟩, e, h1, -⟩ := loop_inv (Inv := fun i (s : List T × RNG.Gen) => s.1.length = i ∧ Budget s.2 L (2 * i)) (lo := 0) (n := n)
    (f := fun _ (s : List T × RNG.Gen) => do
      let (r, g) ← word128 toyLib aes s.2
      .ok (s.1 ++ [Scalar.ofU128 r], g)) (s := ([], g)) (h0 := ⟨rfl, by simpa using H⟩) (hstep := by
      rintro i ⟨l, g⟩ _ hi ⟨h1, h2⟩
      obtain ⟨w, g1, e1, H1⟩ := h2.next aes hL (by omega)
      obtain ⟨w', g2, e2, H2⟩ := H1.next aes hL (by omega)
      dsimp only at e1 h1 ⊢
      unfold word128
      rw [e1, Out.ok_bind]
      dsimp only
      rw [e2, Out.ok_bind]
      refine ⟨_, rfl, by simp [h1], ?_⟩
      have : (2 * ((i + 1 : Nat) : Int)) = 2 * (i : Int) + 1 + 1 := by push_cast; ring
      rw [this]
      exact H2)
  exact ⟨l, g', e, by simpa using h1⟩

theorem toy_col {T : Type} (aes : Cipher) {rows : Nat} (hr : 1 ≤ rows) (elems : List T) (col : Nat) (he : (col + 1) * nonzeros ≤ elems.length)
    (g : RNG.Gen) : ∃ r, sampleCol toyLib aes rows elems col g = .ok r := by
  obtain ⟨r, e, -⟩ := loop_inv (Inv := fun _ (_ : List (Nat × T) × RNG.Gen) => True) (lo := 0) (n := nonzeros)
    (f := fun i (s : List (Nat × T) × RNG.Gen) => do
      let (row, g) ← toyLib.unif aes s.2 0 (rows - 1)
      if row < 0 ∨ row ≥ rows then .ub "Eigen: coeffRef" else
      let x ← rd elems (col * nonzeros + i)
      .ok (setEntry s.1 row.toNat x, g)) (s := ([], g)) (h0 := trivial) (hstep := by
      rintro i ⟨l, g⟩ _ hi -
      have h1 := Int.emod_nonneg (-g.counter) (b := (rows : Int) - 1 - 0 + 1) (by omega)
      have h2 := Int.emod_lt_of_pos (-g.counter) (b := (rows : Int) - 1 - 0 + 1) (by omega)
      show ∃ s', (if 0 + -g.counter % ((rows : Int) - 1 - 0 + 1) < 0 ∨ 0 + -g.counter % ((rows : Int) - 1 - 0 + 1) ≥ rows then _ else _) = Out.ok s' ∧ True
      rw [if_neg (by omega), rd_of_lt (by have : (col + 1) * nonzeros = col * nonzeros + nonzeros := by ring
                                          omega)]
      exact ⟨_, rfl, trivial⟩)
  exact ⟨r, e⟩

theorem toy_sampleCode {T : Type} [Scalar T] (aes : Cipher) (junk : RNG.Gen) (seed : List (BitVec 8)) (rows cols : Nat) (g : RNG.Gen)
    (hr : 1 ≤ rows) (hc : cols ≤ 10616092) (hg : RNG.create junk seed (nonzeros * cols) = .ok g) :
    ∃ c : Sparse T, sampleCode toyLib aes rows cols g = .ok c := by
  have hz : nonzeros = 10 := rfl
  unfold sampleCode
  rcases Nat.eq_zero_or_pos cols with h0 | hpos
  · subst h0
    refine ⟨⟨rows, []⟩, ?_⟩
    show (do let (elems, g) ← Out.ok (([] : List T), g); _) = _
    rw [Out.ok_bind]
    dsimp only
    rw [if_neg (by omega)]
    rfl
  · obtain ⟨H, -⟩ := Budget.create hg (by rw [hz]; omega)
    obtain ⟨l, g', e, hl⟩ := toy_elems (T := T) aes (L := nonzeros * cols) (by rw [hz]; omega) (nonzeros * cols) (by rw [hz]; push_cast; omega) (by simpa using H)
    rw [e, Out.ok_bind]
    dsimp only
    rw [if_neg (by omega)]
    obtain ⟨⟨cs, g2⟩, e2, -⟩ := loop_inv (Inv := fun _ (_ : List (List (Nat × T)) × RNG.Gen) => True) (lo := 0) (n := cols)
      (f := fun col (s : List (List (Nat × T)) × RNG.Gen) => do
        let (c, g) ← sampleCol toyLib aes rows l col s.2
        .ok (s.1 ++ [c], g)) (s := ([], g')) (h0 := trivial) (hstep := by
        rintro i ⟨cs, g⟩ _ hi -
        obtain ⟨⟨c, g2⟩, e⟩ := toy_col aes hr l i (by rw [hl, Nat.mul_comm]; exact Nat.mul_le_mul_left _ (by omega)) g
        dsimp only
        rw [e]
        exact ⟨_, rfl, trivial⟩)
    rw [e2]
    exact ⟨_, rfl⟩

theorem toy_hash {t : Nat} (ht : t ≤ 1324) {l' : List Int} (h : l'.Perm ((List.range t).map (fun (i : Nat) => (i : Int)))) :
    ∃ hashed, Cuckoo.hashCuckoo toyHasher (l'.map MPFSS.indexBlock) 2000 = .ok hashed := by
  refine Cuckoo.hashCuckoo_distinct toyHasher (by show 2 ≤ 3; omega) (by omega) (by omega) _ (by
    rw [List.length_map, h.length_eq]; simp; omega) rfl ?_
  have h2 := (h.map MPFSS.indexBlock).map (fun x => Cuckoo.bucketOf toyHasher.enc (2000 : Int).toNat x 0)
  rw [h2.nodup_iff, List.map_map, List.map_map]
  refine (List.nodup_map_iff_inj_on List.nodup_range).2 ?_
  intro i hi j hj hij
  rw [List.mem_range] at hi hj
  have key : ∀ k : Nat, k < 2000 → Cuckoo.bucketOf toyHasher.enc (2000 : Int).toNat (MPFSS.indexBlock (k : Int)) 0 = k := by
    decide +kernel
  have e1 := key i (by omega)
  have e2 := key j (by omega)
  simp only [Function.comp] at hij
  rw [e1, e2] at hij
  exact hij

theorem toy_smooth (b : Bool) (x f : Nat) (hf : 1325 ≤ f) : Smooth toyHasher (toyEnv b x f) where
  bits := fun _ _ _ _ => rfl
  trees := fun _ _ => rfl
  elements := fun _ _ => rfl
  sampling := fun junk seed rows cols g h1 h2 h3 => toy_sampleCode _ junk seed rows cols g h1 h2 h3
  indices := fun junk seed t o g ht hle ho hg => by
    have h1 := noise_le ht
    have h2 := noise_pos ht
    refine ⟨_, toy_sampleIndices (t := t) toyAes hle f 0 g (by omega) (by omega) ?_, fun l' hl => toy_hash h1 hl⟩
    have : ∀ t : Nat, (t : Int) ∈ noiseSizes → 2 ≤ t := by intro t ht; simp [noiseSizes] at ht; omega
    exact (Budget.create hg (by have := this t ht; omega)).2

end DVO.VOLE
