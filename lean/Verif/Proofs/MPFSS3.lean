/-
Joint run of the multi-point FSS: the two parties together.
-/
import Verif.Proofs.MPFSS2

namespace DVO.MPFSS
open Cuckoo ROT Net
variable {T : Type} [Scalar T]

/-- The bucket table for `t` indices and output size `m`. -/
def table (h : Hasher) (t m : Nat) : List (List Nat) :=
  (List.range (h.optimal t).toNat).map (simpleBucket h.enc h.numHash (h.optimal t).toNat (allIndices m))

theorem computeBuckets_eq {h : Hasher} {fl : Nat → Nat → Nat} {t m : Nat} (hs : Sized h fl t m)
    {thr : Nat → List Nat} (ht : Threads thr) : computeBuckets thr h m t = .ok (table h t m) := by
  unfold computeBuckets getOptimalNumberOfBuckets
  have := hs.pos
  have hn := hs.numHash
  have h1 := hs.buckets_pos
  have h2 := hs.buckets_lt
  rw [if_neg (by omega), if_neg (by omega), if_neg (by omega), if_pos (by omega), Int.toNat_natCast, Int.toNat_natCast,
    toInt64_ok (by omega) (by omega), Out.ok_bind]
  exact hashSimple_eq h h1 (by omega) _ _ (by rw [ht, allIndices_length]) (by rw [allIndices_length]; exact hs.bits)

theorem table_length (h : Hasher) (t m : Nat) : (table h t m).length = (h.optimal t).toNat := by simp [table]

theorem table_total {h : Hasher} {t m : Nat} (hp : 0 < h.optimal t) : ((table h t m).map List.length).sum = h.numHash * m := by
  have := total_size h.enc h.numHash (n := (h.optimal t).toNat) (by omega) (allIndices m)
  rw [allIndices_length] at this
  exact this

theorem table_mem {h : Hasher} {t m b : Nat} {l : List Nat} (hl : (table h t m)[b]? = some l) :
    l.Pairwise (· ≤ ·) ∧ ∀ k, k ∈ l ↔ k < m ∧ b ∈ bucketsOf h.enc h.numHash (h.optimal t).toNat (BitVec.ofNat 128 k) := by
  have hbn : b < (h.optimal t).toNat := by
    have := (List.getElem?_eq_some_iff.1 hl).1; rwa [table_length] at this
  simp only [table, List.getElem?_map, List.getElem?_range hbn, Option.map_some, Option.some.injEq] at hl
  subst hl
  rw [simpleBucket_range]
  refine ⟨sorted_flatten_replicate _ _, ?_⟩
  intro k
  rw [← List.count_pos_iff, count_flatten_replicate, allIndices_length]
  by_cases hk : k < m
  · rw [if_pos hk, List.count_pos_iff]
    simp [allIndices, hk]
  · rw [if_neg hk]; simp [hk]

theorem le_sum_of_mem {l : List Nat} {x : Nat} (h : x ∈ l) : x ≤ l.sum := by
  induction l with
  | nil => cases h
  | cons a l ih =>
    rw [List.sum_cons]
    rcases List.mem_cons.1 h with e | e
    · omega
    · have := ih e; omega

/-- The outcome of hashing `t` indices, in range or not. -/
structure HashedLen (h : Hasher) (t : Nat) (hashed : List Int) : Prop where
  len : hashed.length = (h.optimal t).toNat
  range : ∀ e ∈ hashed, e = -1 ∨ ∃ i : Nat, e = i ∧ i < t
  count : ∀ k : Nat, hashed.count (k : Int) = if k < t then 1 else 0

/-- The outcome of hashing indices that are in range. -/
structure HashedOk (h : Hasher) (t m : Nat) (indices : List Int) (hashed : List Int) : Prop extends HashedLen h t hashed where
  mem : ∀ (b e : Nat) (l : List Nat), hashed[b]? = some (e : Int) → (table h t m)[b]? = some l →
    ∃ k : Nat, indices[e]? = some (k : Int) ∧ k ∈ l

theorem hashed_placed {h : Hasher} {fl : Nat → Nat → Nat} {t m : Nat} (hs : Sized h fl t m)
    {indices hashed : List Int} (hl : indices.length = t)
    (hok : hashCuckoo h (indices.map indexBlock) (h.optimal t) = .ok hashed) :
    Placed ((indices.map indexBlock).map (bucketsOf h.enc h.numHash (h.optimal t).toNat)) (h.optimal t).toNat hashed ∧
    HashedLen h t hashed := by
  have hn := hs.numHash
  have h1 := hs.buckets_pos
  have h2 := hs.buckets_lt
  have hle : ((indices.map indexBlock).length : Int) ≤ h.optimal t := by
    by_contra hc
    unfold hashCuckoo at hok
    rw [if_neg (by omega), if_neg (by omega), if_pos (by omega)] at hok
    cases hok
  have hb : h.tooManyBits (indices.map indexBlock).length (h.optimal t).toNat = false := by
    by_contra hc
    unfold hashCuckoo at hok
    rw [if_neg (by omega), if_neg (by omega), if_neg (by omega), if_pos (by simpa using hc)] at hok
    cases hok
  rcases hashCuckoo_spec h (by omega) h1 (by omega) _ hle hb with hi | ⟨bk, hbk, hp, hc⟩
  · rw [hi] at hok; cases hok
  rw [hok, Out.ok.injEq] at hbk
  subst hbk
  refine ⟨hp, hp.len, ?_, ?_⟩
  · intro e he
    obtain ⟨b, hb2⟩ := List.mem_iff_getElem?.1 he
    rcases hp.own b e hb2 with h3 | ⟨i, row, h3, h4, -⟩
    · exact Or.inl h3
    · refine Or.inr ⟨i, h3, ?_⟩
      have := (List.getElem?_eq_some_iff.1 h4).1
      simpa [hl] using this
  · intro k
    rw [hc k]; simp [hl]

theorem hashedOk {h : Hasher} {fl : Nat → Nat → Nat} {t m : Nat} (hs : Sized h fl t m)
    {indices hashed : List Int} (hl : indices.length = t) (hr : ∀ i ∈ indices, 0 ≤ i ∧ i < m)
    (hok : hashCuckoo h (indices.map indexBlock) (h.optimal t) = .ok hashed) : HashedOk h t m indices hashed := by
  obtain ⟨hp, H⟩ := hashed_placed hs hl hok
  refine ⟨H, ?_⟩
  intro b e l he hl2
  rcases hp.own b e he with h3 | ⟨i, row, h3, h4, h5⟩
  · omega
  · have : e = i := by omega
    subst this
    have hel : e < indices.length := by simpa using (List.getElem?_eq_some_iff.1 h4).1
    simp only [List.getElem?_map, List.getElem?_eq_getElem hel, Option.map_some, Option.some.injEq] at h4
    obtain ⟨h0, hm⟩ := hr indices[e] (List.getElem_mem _)
    obtain ⟨k, hk⟩ : ∃ k : Nat, indices[e] = k := ⟨indices[e].toNat, by omega⟩
    refine ⟨k, by rw [List.getElem?_eq_getElem hel, hk], ?_⟩
    rw [(table_mem hl2).2 k]
    refine ⟨by omega, ?_⟩
    rw [← h4, hk, indexBlock, BitVec.ofInt_natCast] at h5
    exact h5

/-- The positions passed to the SPFSS. -/
def poss (h : Hasher) (t m : Nat) (indices hashed : List Int) : List Nat := hashed.mapIdx (posIn (table h t m) indices)

theorem poss_spec {h : Hasher} {t m : Nat} {indices hashed : List Int} (H : HashedOk h t m indices hashed) {b e k : Nat} {l : List Nat}
    (he : hashed[b]? = some (e : Int)) (hl : (table h t m)[b]? = some l) (hk : indices[e]? = some (k : Int)) :
    ∃ p, (poss h t m indices hashed)[b]? = some p ∧ l[p]? = some k := by
  obtain ⟨k', hk', hkl⟩ := H.mem b e l he hl
  have : k' = k := by rw [hk, Option.some.injEq] at hk'; omega
  subst this
  refine ⟨posIn (table h t m) indices b e, by simp [poss, he], ?_⟩
  have hne : l.length ≠ 0 := by
    intro hz
    rw [List.length_eq_zero_iff] at hz
    rw [hz] at hkl; cases hkl
  have : posIn (table h t m) indices b e = lowerBound l (k' : Int) := by
    unfold posIn
    simp [List.getD_eq_getElem?_getD, hl, hk, hne]
  rw [this]
  exact lowerBound_spec (table_mem hl).1 hkl

theorem poss_idxOk {h : Hasher} {t m : Nat} {indices hashed : List Int} (H : HashedOk h t m indices hashed) :
    IdxOk ((table h t m).map List.length) (poss h t m indices hashed) := by
  refine ⟨by simp [table_length, poss, H.len], ?_⟩
  intro b n p hn hp hpos
  simp only [List.getElem?_map, Option.map_eq_some_iff] at hn
  obtain ⟨l, hl, rfl⟩ := hn
  have hb : b < hashed.length := by
    have := (List.getElem?_eq_some_iff.1 hp).1; simpa [poss] using this
  rcases H.range hashed[b] (List.getElem_mem _) with he | ⟨e, he, het⟩
  · simp only [poss, List.getElem?_mapIdx, List.getElem?_eq_getElem hb, Option.map_some, Option.some.injEq, he] at hp
    rw [← hp]
    simp [posIn, hpos]
  · have he' : hashed[b]? = some (e : Int) := by rw [List.getElem?_eq_getElem hb, he]
    obtain ⟨k, hk, -⟩ := H.mem b e l he' hl
    obtain ⟨p', hp', hlk⟩ := poss_spec H he' hl hk
    rw [hp, Option.some.injEq] at hp'
    subst hp'
    exact (List.getElem?_eq_some_iff.1 hlk).1

/-- The message of the index provider. -/
def yMsg (y u : List T) (hashed : List Int) : List T := List.zipWith (· + ·) (hashed.map (pick y)) u

/-- The value provider's SPFSS shares. -/
def shares (x : T) (msg w : List T) : List T := List.zipWith (fun y w => y * x - w) msg w

def valueResult (T : Type) [Scalar T] (aes : Cipher) (fl : Nat → Nat → Nat) (key seed : Nat → Block) (h : Hasher) (t m : Nat) : List T :=
  vec m (fun k => 0 + scat (table h t m) (SPFSS.valueOut T aes fl key seed ((table h t m).map List.length)) k)

def indexResult (aes : Cipher) (fl : Nat → Nat → Nat) (key seed : Nat → Block) (h : Hasher) (t m : Nat) (a b : List T)
    (ms : List Nat) : List T :=
  vec m (fun k => 0 + scat (table h t m) (SPFSS.indexOut aes fl key seed a b ((table h t m).map List.length) ms) k)

theorem emptyOutputs_eq {B : List (List Nat)} (h : B.length < 2 ^ 31) :
    (emptyOutputs B : List (List T)) = B.map (fun b => List.replicate b.length 0) := by
  unfold emptyOutputs
  rw [toInt32_eq h, Int.toNat_natCast, List.take_length]

theorem joint (aes : Cipher) {fl : Nat → Nat → Nat} (c : Chans) {sec : Sec} (key seed : Nat → Block) {h : Hasher} {t m : Nat}
    (hs : Supported T h fl sec t m) {thrV thrI : Nat → List Nat} (htV : Threads thrV) (htI : Threads thrI) {stV stI : State}
    (hV : Coherent h stV) (hI : Coherent h stI) {x : T} {w outV : List T} {y u v outI : List T} {indices hashed : List Int}
    (hy : y.length = t) (hi : indices.length = t) (hr : ∀ i ∈ indices, i ≤ m) (hoV : outV.length = m) (hoI : outI.length = m)
    (hw : (w.length : Int) = h.optimal t) (hu : (u.length : Int) = h.optimal t) (hv : (v.length : Int) = h.optimal t)
    (hok : hashCuckoo h (indices.map indexBlock) (h.optimal t) = .ok hashed) (H : HashedLen h t hashed)
    (hidx : IdxOk ((table h t m).map List.length) (poss h t m indices hashed)) :
    Joint (runValueProviderVectorOLE aes fl c sec key seed thrV stV x t w outV)
      (runIndexProviderVectorOLE aes fl c thrI stI y indices u v outI)
      ⟨.ok (), valueResult T aes fl key seed h t m, ⟨h, table h t m, some m, some t⟩⟩
      ⟨.ok (), indexResult aes fl key seed h t m (shares x (yMsg y u hashed) w) v (poss h t m indices hashed),
        ⟨h, table h t m, some m, some t⟩⟩
      (.rcvd c.main (.elems (yMsg y u hashed)) :: (senderView T aes fl c key seed ((table h t m).map List.length) ++
        [.sent c.main (.elems (SPFSS.sumsMsg aes fl key seed (shares x (yMsg y u hashed) w) ((table h t m).map List.length)))]))
      (.sent c.main (.elems (yMsg y u hashed)) :: (receiverView T aes fl c key seed ((table h t m).map List.length) (poss h t m indices hashed) ++
        [.rcvd c.main (.elems (SPFSS.sumsMsg aes fl key seed (shares x (yMsg y u hashed) w) ((table h t m).map List.length)))])) := by
  have hpos := hs.pos
  have hle := hs.le
  have hb1 := hs.buckets_pos
  have hb2 := hs.buckets_lt
  have hnum := hs.numHash
  have hsz := hs.size
  have hm : m < 2 ^ 31 := by rcases hnum with e | e <;> rw [e] at hsz <;> omega
  have ht31 : t < 2 ^ 31 := by omega
  have hTl : (table h t m).length < 2 ^ 31 := by rw [table_length]; omega
  have hTi : toInt32 (table h t m).length = h.optimal t := by rw [toInt32_eq hTl, table_length]; omega
  unfold runValueProviderVectorOLE runIndexProviderVectorOLE
  rw [if_neg (by omega), hoV, updateBuckets_ok htV hV (computeBuckets_eq hs.toSized htV)]
  rw [if_neg (by omega), if_neg (by omega), if_neg (by omega), if_neg (by
    rw [List.any_eq_true]
    rintro ⟨i, hi1, hi2⟩
    have := hr i (List.mem_of_mem_take hi1)
    simp only [decide_eq_true_eq] at hi2
    omega), hoI, hy, toInt32_eq ht31, updateBuckets_ok htI hI (computeBuckets_eq hs.toSized htI)]
  have hmy : maskedY ⟨h, table h t m, some m, some t⟩ y indices u = .ok (hashed, yMsg y u hashed) := by
    unfold maskedY
    dsimp only
    rw [hTi]
    have e1 : hashIndices h indices (h.optimal t) = .ok hashed := by
      unfold hashIndices
      rw [hok]
    have e2 := permuteY_eq (y := y) (hashed := hashed) (by rw [hy]; exact H.range)
    rw [show ((hashed.length : Nat) : Int) = h.optimal t by rw [H.len]; omega] at e2
    rw [e1, Out.ok_bind, e2, Out.ok_bind]
    unfold addMask
    rw [if_neg (by simp [H.len]; omega)]
    rfl
  dsimp only
  rw [hmy]
  dsimp only
  have hiib := indexInBucket_eq (B := table h t m) (indices := indices) (hashed := hashed) (by rw [table_length, H.len]) (by rw [hi]; exact H.range)
  rw [show ((hashed.length : Nat) : Int) = toInt32 (table h t m).length by rw [H.len, hTi]; omega] at hiib
  rw [hiib]
  refine Joint.recvSend ?_
  have hshare : (PM.unElems (.elems (yMsg y u hashed)) >>= fun yMasked => valueShares x yMasked w) = .ok (shares x (yMsg y u hashed) w) := by
    unfold PM.unElems valueShares
    rw [Out.ok_bind, if_neg (by simp [yMsg, H.len]; omega)]
    rfl
  rw [hshare]
  dsimp only
  rw [emptyOutputs_eq hTl]
  have hlens : ((table h t m).map (fun b => List.replicate b.length (0 : T))).map List.length = (table h t m).map List.length := by
    simp
  have htot := table_total (m := m) hb1
  have hlt : ∀ b ∈ table h t m, ∀ k ∈ b, k < m := by
    intro b hb k hk
    obtain ⟨j, hj⟩ := List.mem_iff_getElem?.1 hb
    exact (((table_mem hj).2 k).1 hk).1
  have J := SPFSS.joint (T := T) aes (fl := fl) c (sec := sec) key seed (So := (table h t m).map (fun b => List.replicate b.length 0))
    (Ro := (table h t m).map (fun b => List.replicate b.length 0)) (ms := poss h t m indices hashed) rfl
    (by rw [hlens]; exact hidx)
    (by
      rw [hlens]
      intro n hn
      refine hs.trees n ?_
      rw [← htot]
      exact le_sum_of_mem hn)
    (by
      rw [hlens, accumulateInt_eq _ (by rw [htot]; exact hsz), htot]
      exact hs.canHash)
    (a := shares x (yMsg y u hashed) w) (b := v)
    (by simp [shares, yMsg, H.len, table_length]; omega)
    (by simp [table_length]; omega)
  rw [hlens] at J
  rw [show ∀ (a : Event (Msg T)) l, a :: l = [a] ++ l from fun _ _ => rfl]
  have hfin1 : finish ⟨h, table h t m, some m, some t⟩ m (.ok (SPFSS.valueOut T aes fl key seed ((table h t m).map List.length))) =
      ⟨.ok (), valueResult T aes fl key seed h t m, ⟨h, table h t m, some m, some t⟩⟩ := by
    unfold finish
    dsimp only
    rw [vec_zero, scatter_eq hTl (by
      apply List.ext_getElem?
      intro i
      simp only [SPFSS.valueOut, List.getElem?_map, List.getElem?_mapIdx, Option.map_map]
      cases (table h t m)[i]? <;> simp) hlt]
    rfl
  have hfin2 : finish ⟨h, table h t m, some m, some t⟩ m (.ok (SPFSS.indexOut aes fl key seed (shares x (yMsg y u hashed) w) v ((table h t m).map List.length) (poss h t m indices hashed))) =
      ⟨.ok (), indexResult aes fl key seed h t m (shares x (yMsg y u hashed) w) v (poss h t m indices hashed), ⟨h, table h t m, some m, some t⟩⟩ := by
    unfold finish
    dsimp only
    rw [vec_zero, scatter_eq hTl (by
      apply List.ext_getElem?
      intro i
      simp only [SPFSS.indexOut, List.getElem?_map, List.getElem?_mapIdx, Option.map_map]
      cases (table h t m)[i]? <;> simp) hlt]
    rfl
  have := Joint.bind J (f := fun r => .ret (finish ⟨h, table h t m, some m, some t⟩ m r))
    (g := fun r => .ret (finish ⟨h, table h t m, some m, some t⟩ m r)) (Joint.ret _ _)
  rw [hfin1, hfin2, List.append_nil, List.append_nil] at this
  exact this

/-! ### The outputs are shares -/

theorem scat_add (B : List (List Nat)) (V W : List (List T)) (k : Nat) :
    scat B V k + scat B W k = ∑ i ∈ Finset.range B.length, ∑ j ∈ Finset.range (B.getD i []).length,
      if (B.getD i []).getD j 0 = k then (V.getD i []).getD j 0 + (W.getD i []).getD j 0 else 0 := by
  unfold scat
  rw [← Finset.sum_add_distrib]
  apply Finset.sum_congr rfl
  intro i _
  rw [← Finset.sum_add_distrib]
  apply Finset.sum_congr rfl
  intro j _
  split
  · rfl
  · rw [add_zero]

theorem sum_range_list (f : Int → T) (l : List Int) : ∑ i ∈ Finset.range l.length, f (l.getD i (-1)) = (l.map f).sum := by
  have e : l.map f = (List.range l.length).map (fun i => f (l.getD i (-1))) := by
    apply List.ext_getElem?
    intro i
    by_cases hi : i < l.length <;> simp [hi]
  rw [e, SPFSS.sum_map_range]

theorem sum_zip (x : T) (k : Nat) (idx : List Int) (y : List T) (hl : y.length = idx.length) :
    ((idx.zip y).map (fun p => if p.1 = (k : Int) then x * p.2 else 0)).sum =
      ∑ e ∈ Finset.range idx.length, if idx.getD e (-1) = (k : Int) then x * y.getD e 0 else 0 := by
  have e : (idx.zip y).map (fun p => if p.1 = (k : Int) then x * p.2 else 0) =
      (List.range idx.length).map (fun e => if idx.getD e (-1) = (k : Int) then x * y.getD e 0 else 0) := by
    apply List.ext_getElem?
    intro i
    by_cases hi : i < idx.length
    · have : i < y.length := by omega
      simp [List.getElem?_zip_eq_some, hi, this, List.zip]
    · simp [hi]
  rw [e, SPFSS.sum_map_range]

/-- What bucket `i` contributes to position `k` of the shared vector. -/
def contribution (h : Hasher) (t m : Nat) (x : T) (y : List T) (indices : List Int) (k i : Nat) (e : Int) : T :=
  if e = -1 then 0 else
  if ((table h t m).getD i [])[posIn (table h t m) indices i e]? = some k then x * pick y e else 0

theorem results_general (aes : Cipher) (fl : Nat → Nat → Nat) (key seed : Nat → Block) {h : Hasher} {t m : Nat}
    (hp : 0 < h.optimal t)
    {x : T} {w : List T} {y u v : List T} {indices hashed : List Int} (H : HashedLen h t hashed)
    (hidx : IdxOk ((table h t m).map List.length) (poss h t m indices hashed))
    (hw : (w.length : Int) = h.optimal t) (hu : (u.length : Int) = h.optimal t) (hv : (v.length : Int) = h.optimal t)
    (hcorr : ∀ (j : Nat) (uj vj wj : T), u[j]? = some uj → v[j]? = some vj → w[j]? = some wj → wj = uj * x + vj) (k : Nat) :
    scat (table h t m) (SPFSS.valueOut T aes fl key seed ((table h t m).map List.length)) k +
      scat (table h t m) (SPFSS.indexOut aes fl key seed (shares x (yMsg y u hashed) w) v ((table h t m).map List.length)
        (poss h t m indices hashed)) k =
    ∑ i ∈ Finset.range hashed.length, contribution h t m x y indices k i (hashed.getD i (-1)) := by
  have hlen : (table h t m).length = hashed.length := by rw [table_length, H.len]
  rw [scat_add, ← hlen]
  apply Finset.sum_congr rfl
  intro i hi2
  rw [Finset.mem_range] at hi2
  have hTl := table_length h t m
  have hih : i < hashed.length := by omega
  have hiu : i < u.length := by omega
  have hiv : i < v.length := by omega
  have hiw : i < w.length := by omega
  obtain ⟨l, hl⟩ : ∃ l, (table h t m)[i]? = some l := ⟨_, List.getElem?_eq_getElem hi2⟩
  have hlD : (table h t m).getD i [] = l := by simp [List.getD_eq_getElem?_getD, hl]
  have hgh : hashed.getD i (-1) = hashed[i] := by simp [hih]
  have hpos : (poss h t m indices hashed)[i]? = some (posIn (table h t m) indices i hashed[i]) := by
    simp [poss, hih]
  -- the shares of bucket i
  have hshare : ((shares x (yMsg y u hashed) w)[i]?).getD 0 + (v[i]?).getD 0 = pick y hashed[i] * x := by
    have := hcorr i u[i] v[i] w[i] (by simp [hiu]) (by simp [hiv]) (by simp [hiw])
    simp only [shares, yMsg, List.getElem?_zipWith, List.getElem?_map, List.getElem?_eq_getElem, hih, hiu, hiv, hiw,
      Option.map_some, Option.getD_some]
    rw [this]
    ring
  have hterm : ∀ j ∈ Finset.range l.length, (if l.getD j 0 = k then
      ((SPFSS.valueOut T aes fl key seed ((table h t m).map List.length)).getD i []).getD j 0 +
      ((SPFSS.indexOut aes fl key seed (shares x (yMsg y u hashed) w) v ((table h t m).map List.length)
        (poss h t m indices hashed)).getD i []).getD j 0 else 0) =
      if j = posIn (table h t m) indices i hashed[i] then (if l.getD j 0 = k then pick y hashed[i] * x else 0) else 0 := by
    intro j hj
    rw [Finset.mem_range] at hj
    have e1 : ((SPFSS.valueOut T aes fl key seed ((table h t m).map List.length)).getD i []).getD j 0 = - leafVal T aes fl key seed i l.length j := by
      simp [SPFSS.valueOut, hl, hj]
    have e2 : ((SPFSS.indexOut aes fl key seed (shares x (yMsg y u hashed) w) v ((table h t m).map List.length)
        (poss h t m indices hashed)).getD i []).getD j 0 =
        if j = posIn (table h t m) indices i hashed[i] then pick y hashed[i] * x + leafVal T aes fl key seed i l.length j
        else leafVal T aes fl key seed i l.length j := by
      rw [← hshare]
      simp only [SPFSS.indexOut, List.getD_eq_getElem?_getD, List.getElem?_mapIdx, List.getElem?_map, hl, hpos,
        Option.map_some, Option.getD_some, List.getElem?_range hj]
    rw [e1, e2]
    by_cases ej : j = posIn (table h t m) indices i hashed[i]
    · rw [if_pos ej, if_pos ej]
      split
      · ring
      · rfl
    · rw [if_neg ej, if_neg ej]
      simp
  rw [hlD, Finset.sum_congr rfl hterm, hgh]
  unfold contribution
  rw [hlD]
  by_cases he : hashed[i] = -1
  · rw [if_pos he]
    apply Finset.sum_eq_zero
    intro j _
    rw [he]
    simp [pick]
  · rw [if_neg he, Finset.sum_ite_eq']
    by_cases hpl : posIn (table h t m) indices i hashed[i] < l.length
    · rw [if_pos (Finset.mem_range.2 hpl)]
      simp only [List.getD_eq_getElem?_getD, List.getElem?_eq_getElem hpl, Option.getD_some, Option.some.injEq, mul_comm]
    · rw [if_neg (by simpa using hpl), List.getElem?_eq_none (by omega)]
      simp

theorem results_add (aes : Cipher) (fl : Nat → Nat → Nat) (key seed : Nat → Block) {h : Hasher} {t m : Nat}
    (hp : 0 < h.optimal t)
    {x : T} {w : List T} {y u v : List T} {indices hashed : List Int} (H : HashedOk h t m indices hashed)
    (hy : y.length = t) (hi : indices.length = t)
    (hw : (w.length : Int) = h.optimal t) (hu : (u.length : Int) = h.optimal t) (hv : (v.length : Int) = h.optimal t)
    (hcorr : ∀ (j : Nat) (uj vj wj : T), u[j]? = some uj → v[j]? = some vj → w[j]? = some wj → wj = uj * x + vj) (k : Nat) :
    scat (table h t m) (SPFSS.valueOut T aes fl key seed ((table h t m).map List.length)) k +
      scat (table h t m) (SPFSS.indexOut aes fl key seed (shares x (yMsg y u hashed) w) v ((table h t m).map List.length)
        (poss h t m indices hashed)) k =
    ((indices.zip y).map (fun p => if p.1 = (k : Int) then x * p.2 else 0)).sum := by
  rw [results_general aes fl key seed hp H.toHashedLen (poss_idxOk H) hw hu hv hcorr, sum_zip x k indices y (by omega)]
  -- every bucket contributes according to its hashed index
  have key2 : ∀ i ∈ Finset.range hashed.length, contribution h t m x y indices k i (hashed.getD i (-1)) =
      (fun e : Int => if e = -1 then 0 else if indices.getD e.toNat (-1) = (k : Int) then x * y.getD e.toNat 0 else 0)
        (hashed.getD i (-1)) := by
    intro i hih
    rw [Finset.mem_range] at hih
    have hgh : hashed.getD i (-1) = hashed[i] := by simp [hih]
    obtain ⟨l, hl⟩ : ∃ l, (table h t m)[i]? = some l := ⟨_, List.getElem?_eq_getElem (by rw [table_length, ← H.len]; exact hih)⟩
    have hlD : (table h t m).getD i [] = l := by simp [List.getD_eq_getElem?_getD, hl]
    rw [hgh]
    unfold contribution
    dsimp only
    by_cases he0 : hashed[i] = -1
    · rw [if_pos he0, if_pos he0]
    rw [if_neg he0, if_neg he0, hlD]
    rcases H.range hashed[i] (List.getElem_mem _) with he | ⟨e, he, het⟩
    · exact absurd he he0
    · have he' : hashed[i]? = some (e : Int) := by rw [List.getElem?_eq_getElem hih, he]
      obtain ⟨ix, hix, -⟩ := H.mem i e l he' hl
      obtain ⟨p, hp1, hp2⟩ := poss_spec H he' hl hix
      have hpe : posIn (table h t m) indices i hashed[i] = p := by
        simp only [poss, List.getElem?_mapIdx, List.getElem?_eq_getElem hih, Option.map_some, Option.some.injEq] at hp1
        exact hp1
      rw [hpe, hp2, he]
      have g2 : indices.getD ((e : Int).toNat) (-1) = ix := by simp [List.getD_eq_getElem?_getD, hix]
      rw [g2]
      simp only [Int.natCast_inj, Option.some.injEq, pick]
      rw [if_neg (show ¬ (e : Int) = -1 by omega)]
  rw [Finset.sum_congr rfl key2]
  rw [sum_range_list (fun e : Int => if e = -1 then 0 else if indices.getD e.toNat (-1) = (k : Int) then x * y.getD e.toNat 0 else 0),
    sum_hashed _ (by simp) t _ H.range, hi]
  apply Finset.sum_congr rfl
  intro e he
  rw [Finset.mem_range] at he
  rw [H.count e, if_pos he, one_nsmul, if_neg (by omega)]
  rfl

end DVO.MPFSS
