/-
Properties C18-C22: multi-point function secret sharing with known indices (Vector OLE variant).
-/
import Verif.Proofs.MPFSS3
import Verif.Props.Cuckoo
import Verif.Props.SPFSS
import Mathlib.Data.Set.Function

namespace DVO.MPFSS
open Cuckoo ROT Net
variable {T : Type} [Scalar T]

/-- Example data: three hash functions, ten buckets per index. -/
def exH : Hasher := ⟨exHasher.enc, 3, fun _ _ => false, fun n => if n < 100 then 10 * n else 1000⟩
/-- Example data: six levels suffice for up to 64 leaves. -/
def exFl6 : Nat → Nat → Nat := fun _ _ => 6
/-- Example data: the inputs go to two threads. -/
def exThr : Nat → List Nat := fun n => [n / 2, n - n / 2]

theorem exThr_threads : Threads exThr := by intro n; simp [exThr]; omega

theorem exH_supported {t m : Nat} (h1 : 0 < t) (h2 : t ≤ m) (h3 : m ≤ 20) (sec : Sec) : Supported (BitVec 64) exH exFl6 sec t m where
  numHash := Or.inr rfl
  pos := h1
  le := h2
  buckets_pos := by show 0 < (if t < 100 then 10 * t else 1000 : Int); split <;> omega
  buckets_lt := by show (if t < 100 then 10 * t else 1000 : Int) < 2 ^ 31; split <;> omega
  bits := rfl
  size := by show 3 * m < _; omega
  trees := by
    intro n hn
    have : n ≤ 3 * m := hn
    exact ⟨by omega, fun _ => by show n ≤ 2 ^ 6; omega, fun _ => by show 6 ≤ 64; omega⟩
  canHash := rfl

/-! ### C18 -/

theorem results_shares (aes : Cipher) (fl : Nat → Nat → Nat) (key seed : Nat → Block) {h : Hasher} {t m : Nat}
    (hp : 0 < h.optimal t) {x : T} {w outV y : List T} {indices : List Int} {u v outI : List T} {hashed : List Int}
    (H : HashedOk h t m indices hashed) (A : Args h t m x w outV y indices u v outI) :
    SharesOf m (valueResult T aes fl key seed h t m)
      (indexResult aes fl key seed h t m (shares x (yMsg y u hashed) w) v (poss h t m indices hashed))
      (pointSum x y indices) := by
  refine ⟨vec_length _ _, vec_length _ _, ?_⟩
  intro k hk
  refine ⟨_, _, vec_get _ hk, vec_get _ hk, ?_⟩
  rw [zero_add, zero_add]
  exact results_add aes fl key seed hp H A.len_y A.len_indices A.len_w A.len_u A.len_v A.corr k

/-- If cuckoo hashing does not succeed, the index provider returns the error without having sent
    anything. -/
theorem index_fails {aes : Cipher} {fl : Nat → Nat → Nat} {c : Chans} {h : Hasher} {t m : Nat} (hs : Sized h fl t m)
    {thr : Nat → List Nat} (ht : Threads thr) {st : State} (hI : Coherent h st) {y u v out : List T} {indices : List Int}
    (hy : y.length = t) (hi : indices.length = t) (hr : ∀ i ∈ indices, i ≤ m) (ho : out.length = m)
    (hbad : ¬ ∃ hashed, hashCuckoo h (indices.map indexBlock) (h.optimal t) = .ok hashed) :
    ∃ r : Res T, runIndexProviderVectorOLE aes fl c thr st y indices u v out = .ret r ∧
      (r.status = (hashIndices h indices (h.optimal t)) >>= fun _ => .ok ()) ∧ (∀ a, r.status ≠ .ok a) ∧ r.output = out := by
  have hpos := hs.pos
  have hle := hs.le
  have hb1 := hs.buckets_pos
  have hb2 := hs.buckets_lt
  have hnum := hs.numHash
  have hsz := hs.size
  have hm : m < 2 ^ 31 := by rcases hnum with e | e <;> rw [e] at hsz <;> omega
  have ht31 : t < 2 ^ 31 := by omega
  have hTl : (table h t m).length < 2 ^ 31 := by rw [table_length]; omega
  have hTi : toInt32 (table h t m).length = h.optimal t := by rw [toInt32_eq hTl, table_length]; omega
  unfold runIndexProviderVectorOLE
  rw [if_neg (by omega), if_neg (by omega), if_neg (by omega), if_neg (by
    rw [List.any_eq_true]
    rintro ⟨i, hi1, hi2⟩
    have := hr i (List.mem_of_mem_take hi1)
    simp only [decide_eq_true_eq] at hi2
    omega), ho, hy, toInt32_eq ht31, updateBuckets_ok ht hI (computeBuckets_eq hs ht)]
  have hno : ∀ l, hashIndices h indices (h.optimal t) ≠ .ok l := by
    intro l hl
    unfold hashIndices at hl
    split at hl
    · split at hl <;> cases hl
    · exact hbad ⟨l, hl⟩
  dsimp only
  unfold maskedY
  dsimp only
  rw [hTi]
  cases hh : hashIndices h indices (h.optimal t) with
  | ok l => exact absurd hh (hno l)
  | err cd msg => refine ⟨_, rfl, rfl, ?_, rfl⟩; rintro a ⟨⟩
  | throws msg => refine ⟨_, rfl, rfl, ?_, rfl⟩; rintro a ⟨⟩
  | ub msg => refine ⟨_, rfl, rfl, ?_, rfl⟩; rintro a ⟨⟩
  | diverge => refine ⟨_, rfl, rfl, ?_, rfl⟩; rintro a ⟨⟩

theorem steps_ret_right {M α β : Type} {n : Nat} {s s' : Net M α β} (hs : Steps n s s') {r : β} (hq : s.q = .ret r) : s'.q = .ret r := by
  induction hs with
  | zero => exact hq
  | succ h1 _ ih => apply ih; cases h1 <;> simp_all

theorem joint_ret_right {M α β : Type} {p : Proc M α} {r : β} {a : α} {b : β} {va vb} (h : Joint p (.ret r) a b va vb) : b = r := by
  obtain ⟨n, hn⟩ := h
  have := steps_ret_right hn (r := r) rfl
  simpa [final] using this

/-- C18: whatever was done with the two objects before, if cuckoo hashing of the indices succeeds then
    every interleaving ends with OK on both sides and with additive shares of the multi-point
    function. -/
theorem C18_shares (aes : Cipher) (fl : Nat → Nat → Nat) (c : Chans) (sec : Sec) (key seed : Nat → Block) (h : Hasher)
    (t m : Nat) (hs : Supported T h fl sec t m) (thrV thrI : Nat → List Nat) (htV : Threads thrV)
    (htI : Threads thrI) (stV stI : State) (hV : Reached T h stV) (hI : Reached T h stI) (x : T) (w outV y : List T)
    (indices : List Int) (u v outI : List T) (A : Args h t m x w outV y indices u v outI) (hr : InRange m indices)
    (hok : ∃ hashed, hashCuckoo h (indices.map indexBlock) (h.optimal t) = .ok hashed) :
    ∃ r0 r1 va vb, Computes (runValueProviderVectorOLE aes fl c sec key seed thrV stV x t w outV)
        (runIndexProviderVectorOLE aes fl c thrI stI y indices u v outI) r0 r1 va vb ∧
      r0.status = .ok () ∧ r1.status = .ok () ∧ SharesOf m r0.output r1.output (pointSum x y indices) := by
  obtain ⟨hashed, hok⟩ := hok
  have H := hashedOk hs.toSized A.len_indices hr hok
  refine ⟨_, _, _, _, (joint aes c key seed hs htV htI (hV.coherent) (hI.coherent) A.len_y A.len_indices
    (fun i hi => le_of_lt (hr i hi).2) A.len_outV A.len_outI A.len_w A.len_u A.len_v hok H.toHashedLen (poss_idxOk H)).computes, rfl, rfl, ?_⟩
  exact results_shares aes fl key seed hs.buckets_pos H A

/-- For distinct indices the multi-point function is `x * y[i]` at `indices[i]` and 0 elsewhere. -/
theorem C18_pointSum_distinct (x : T) (y : List T) (indices : List Int) (hn : indices.Nodup) (k : Nat) :
    (∀ (i : Nat) (yi : T), indices[i]? = some (k : Int) → y[i]? = some yi → pointSum x y indices k = x * yi) ∧
    ((k : Int) ∉ indices → pointSum x y indices k = 0) := by
  have zero : ∀ (l : List Int) (y : List T), (k : Int) ∉ l → pointSum x y l k = 0 := by
    intro l
    induction l with
    | nil => intro y _; simp [pointSum]
    | cons a l ih =>
      intro y hk
      cases y with
      | nil => simp [pointSum]
      | cons b y =>
        have h1 : a ≠ (k : Int) := by intro e; exact hk (by simp [e])
        have h2 := ih y (fun e => hk (List.mem_cons_of_mem _ e))
        unfold pointSum at h2 ⊢
        simp only [List.zip_cons_cons, List.map_cons, List.sum_cons, h2, if_neg h1, add_zero]
  refine ⟨?_, zero indices y⟩
  induction indices generalizing y with
  | nil => intro i yi h; simp at h
  | cons a l ih =>
    intro i yi hi hy
    cases y with
    | nil => simp at hy
    | cons b y =>
      obtain ⟨ha, hl⟩ := List.nodup_cons.1 hn
      cases i with
      | zero =>
        simp only [List.getElem?_cons_zero, Option.some.injEq] at hi hy
        subst hi; subst hy
        have := zero l y ha
        unfold pointSum at this ⊢
        simp only [List.zip_cons_cons, List.map_cons, List.sum_cons, this, if_true, add_zero]
      | succ i =>
        simp only [List.getElem?_cons_succ] at hi hy
        have h1 : a ≠ (k : Int) := by
          intro e; subst e
          exact ha (List.mem_iff_getElem?.2 ⟨i, hi⟩)
        have := ih y hl i yi hi hy
        unfold pointSum at this ⊢
        simp only [List.zip_cons_cons, List.map_cons, List.sum_cons, this, if_neg h1, zero_add]

/-- C18: any run on distinct indices in range in which both parties return OK gives additive shares
    of the vector that is `x * y[i]` at position `indices[i]` and 0 everywhere else; no assumption on
    the outcome of cuckoo hashing is needed. -/
theorem C18_whenever_ok (aes : Cipher) (fl : Nat → Nat → Nat) (c : Chans) (sec : Sec) (key seed : Nat → Block) (h : Hasher)
    (t m : Nat) (hs : Supported T h fl sec t m) (thrV thrI : Nat → List Nat) (htV : Threads thrV)
    (htI : Threads thrI) (stV stI : State) (hV : Reached T h stV) (hI : Reached T h stI) (x : T) (w outV y : List T)
    (indices : List Int) (u v outI : List T) (A : Args h t m x w outV y indices u v outI) (hr : InRange m indices)
    (hn : indices.Nodup) (r0 r1 : Res T) (va vb : List (Event (Msg T)))
    (hrun : Joint (runValueProviderVectorOLE aes fl c sec key seed thrV stV x t w outV)
        (runIndexProviderVectorOLE aes fl c thrI stI y indices u v outI) r0 r1 va vb)
    (hok : r1.status = .ok ()) :
    r0.status = .ok () ∧ r0.output.length = m ∧ r1.output.length = m ∧ ∀ k < m, ∃ a b, r0.output[k]? = some a ∧ r1.output[k]? = some b ∧
      (∀ (i : Nat) (yi : T), indices[i]? = some (k : Int) → y[i]? = some yi → a + b = x * yi) ∧
      ((k : Int) ∉ indices → a + b = 0) := by
  by_cases hc : ∃ hashed, hashCuckoo h (indices.map indexBlock) (h.optimal t) = .ok hashed
  · obtain ⟨r0', r1', va', vb', h1, h2, h3, h4, h5, h6⟩ := C18_shares aes fl c sec key seed h t m hs thrV thrI htV htI stV stI hV hI
      x w outV y indices u v outI A hr hc
    obtain ⟨rfl, rfl, -, -⟩ := hrun.unique h1.joint
    refine ⟨h2, h4, h5, ?_⟩
    intro k hk
    obtain ⟨a, b, ha, hb, hab⟩ := h6 k hk
    refine ⟨a, b, ha, hb, ?_⟩
    rw [hab]
    exact C18_pointSum_distinct x y indices hn k
  · obtain ⟨r, h1, -, h2, -⟩ := index_fails (aes := aes) (c := c) (u := u) (v := v) hs.toSized htI (hI.coherent) A.len_y A.len_indices
      (fun i hi => le_of_lt (hr i hi).2) A.len_outI hc
    rw [h1] at hrun
    have := joint_ret_right hrun
    subst this
    exact absurd hok (h2 _)

/-- Example data: a correlation of the given length. -/
def exU (n : Nat) : List (BitVec 64) := (List.range n).map (fun i => BitVec.ofNat 64 (i * i + 3))
def exV (n : Nat) : List (BitVec 64) := (List.range n).map (fun i => BitVec.ofNat 64 (1000 - i))
def exW (n : Nat) (x : BitVec 64) : List (BitVec 64) := List.zipWith (fun u v => u * x + v) (exU n) (exV n)

theorem exArgs {t m : Nat} (ht : t < 100) (x : BitVec 64) {y : List (BitVec 64)} {indices : List Int} (hy : y.length = t)
    (hi : indices.length = t) :
    Args exH t m x (exW (10 * t) x) (List.replicate m 9) y indices (exU (10 * t)) (exV (10 * t)) (List.replicate m 8) where
  len_y := hy
  len_indices := hi
  len_outV := by simp
  len_outI := by simp
  len_w := by show _ = (if t < 100 then 10 * t else 1000 : Int); simp [exW, exU, exV]; omega
  len_u := by show _ = (if t < 100 then 10 * t else 1000 : Int); simp [exU]; omega
  len_v := by show _ = (if t < 100 then 10 * t else 1000 : Int); simp [exV]; omega
  corr := by
    intro j uj vj wj hu hv hw
    simp only [exW, List.getElem?_zipWith, hu, hv, Option.some.injEq] at hw
    exact hw.symm

/-- A case that meets the hypotheses: indices 5, 3, 8 into an output of size 12. -/
example : ∃ r0 r1 va vb, Computes
      (runValueProviderVectorOLE exCipher exFl6 ⟨0, 1, 2⟩ none (fun j => j) (fun i => i + 7) exThr (State.new exH)
        (77 : BitVec 64) (3 : Nat) (exW 30 77) (List.replicate 12 9))
      (runIndexProviderVectorOLE exCipher exFl6 ⟨0, 1, 2⟩ exThr (State.new exH) [10, 20, 30] [5, 3, 8] (exU 30) (exV 30)
        (List.replicate 12 8)) r0 r1 va vb ∧
      r0.status = .ok () ∧ r1.status = .ok () ∧ SharesOf 12 r0.output r1.output (pointSum 77 [10, 20, 30] [5, 3, 8]) :=
  C18_shares exCipher exFl6 ⟨0, 1, 2⟩ none (fun j => j) (fun i => i + 7) exH 3 12 (exH_supported (by omega) (by omega) (by omega) _)
    exThr exThr exThr_threads exThr_threads _ _ .new .new 77 _ _ [10, 20, 30] [5, 3, 8] _ _ _
    (exArgs (t := 3) (by omega) 77 rfl rfl) (by intro i hi; simp at hi; omega)
    ⟨[-1, -1, -1, 2, -1, -1, -1, -1, -1, -1, -1, 1, -1, -1, -1, -1, -1, 0, -1, -1, -1, -1, -1, -1, -1, -1, -1, -1, -1, -1],
      by decide +kernel⟩

/-! ### C19 -/

/-- What the caller and the peer see of a call. -/
def visible (p : Proc (Msg T) (Res T)) : Proc (Msg T) (Out Unit × List T) := Proc.bind p (fun r => .ret r.visible)

/-- C19: after any history, `UpdateBuckets` returns what it returns on a new object and, if it
    succeeds, leaves the object in the state the new object would have. -/
theorem C19_updateBuckets (h : Hasher) (st : State) (hst : Reached T h st) (thr : Nat → List Nat)
    (ht : Threads thr) (o n : Int) :
    (updateBuckets thr st o n).1 = (updateBuckets thr (State.new h) o n).1 ∧
    ((updateBuckets thr st o n).1 = .ok () → (updateBuckets thr st o n).2 = (updateBuckets thr (State.new h) o n).2) :=
  updateBuckets_coherent ht (hst.coherent) o n

/-- C19: after any history, the value provider behaves exactly like the one of a new object: same
    messages, same OTs, same status, same output. -/
theorem C19_value_provider (h : Hasher) (st : State) (hst : Reached T h st) (thr : Nat → List Nat)
    (ht : Threads thr) (aes : Cipher) (fl : Nat → Nat → Nat) (c : Chans) (sec : Sec) (key seed : Nat → Block) (x : T) (yLen : Int)
    (w output : List T) :
    visible (runValueProviderVectorOLE aes fl c sec key seed thr st x yLen w output) =
    visible (runValueProviderVectorOLE aes fl c sec key seed thr (State.new h) x yLen w output) := by
  obtain ⟨h1, h2⟩ := C19_updateBuckets h st hst thr ht output.length yLen
  unfold runValueProviderVectorOLE
  split
  · rfl
  · revert h1 h2
    generalize updateBuckets thr st output.length yLen = a
    generalize updateBuckets thr (State.new h) output.length yLen = b
    obtain ⟨a1, a2⟩ := a
    obtain ⟨b1, b2⟩ := b
    intro h1 h2
    dsimp only at h1 h2
    subst h1
    cases a1 with
    | ok r => rw [h2 rfl]
    | err c m => rfl
    | throws m => rfl
    | ub m => rfl
    | diverge => rfl

/-- C19: after any history, the index provider behaves exactly like the one of a new object. -/
theorem C19_index_provider (h : Hasher) (st : State) (hst : Reached T h st) (thr : Nat → List Nat)
    (ht : Threads thr) (aes : Cipher) (fl : Nat → Nat → Nat) (c : Chans) (y : List T) (indices : List Int) (u v output : List T) :
    visible (runIndexProviderVectorOLE aes fl c thr st y indices u v output) =
    visible (runIndexProviderVectorOLE aes fl c thr (State.new h) y indices u v output) := by
  obtain ⟨h1, h2⟩ := C19_updateBuckets h st hst thr ht output.length (toInt32 y.length)
  unfold runIndexProviderVectorOLE
  split
  · rfl
  split
  · rfl
  split
  · rfl
  split
  · rfl
  · revert h1 h2
    generalize updateBuckets thr st output.length (toInt32 y.length) = a
    generalize updateBuckets thr (State.new h) output.length (toInt32 y.length) = b
    obtain ⟨a1, a2⟩ := a
    obtain ⟨b1, b2⟩ := b
    intro h1 h2
    dsimp only at h1 h2
    subst h1
    cases a1 with
    | ok r => rw [h2 rfl]
    | err c m => rfl
    | throws m => rfl
    | ub m => rfl
    | diverge => rfl

/-- A reached state that is not new: after a successful and a failing `UpdateBuckets`. -/
example : Reached (BitVec 64) exH (updateBuckets exThr (updateBuckets exThr (State.new exH) 3 1).2 (-1) 4).2 ∧
    (updateBuckets exThr (updateBuckets exThr (State.new exH) 3 1).2 (-1) 4).2.buckets =
      [[], [1, 1], [], [0, 0], [], [0, 1, 2], [], [2, 2], [], []] :=
  ⟨.update _ _ _ exThr_threads (.update _ _ _ exThr_threads .new), by decide +kernel⟩

/-! ### C20 -/

/-- C20 is false for the code at `indices[i] = output.size()`: with index 1 into an output of size 1,
    which hashes to an empty bucket, both parties return OK and the value is silently dropped. -/
theorem C20_negation_boundary (aes : Cipher) (c : Chans) (sec : Sec) (key seed : Nat → Block) (x y : BitVec 64)
    (w outV u v outI : List (BitVec 64)) (A : Args exH 1 1 x w outV [y] [1] u v outI) :
    ∃ r0 r1 va vb, Computes
        (runValueProviderVectorOLE aes exFl6 c sec key seed exThr (State.new exH) x (1 : Nat) w outV)
        (runIndexProviderVectorOLE aes exFl6 c exThr (State.new exH) [y] [1] u v outI) r0 r1 va vb ∧
      r0.status = .ok () ∧ r1.status = .ok () ∧ SharesOf 1 r0.output r1.output (fun _ => 0) := by
  have hs := exH_supported (t := 1) (m := 1) (by omega) (by omega) (by omega) sec
  have hok : hashCuckoo exH ([1].map indexBlock) (exH.optimal (1 : Nat)) = .ok [-1, 0, -1, -1, -1, -1, -1, -1, -1, -1] := by
    decide +kernel
  have H := (hashed_placed hs.toSized (indices := [1]) rfl hok).2
  have hT : table exH 1 1 = [[], [], [], [0, 0], [], [0], [], [], [], []] := by decide +kernel
  have hP : poss exH 1 1 [1] [-1, 0, -1, -1, -1, -1, -1, -1, -1, -1] = [0, 0, 0, 0, 0, 0, 0, 0, 0, 0] := by decide +kernel
  have hidx : IdxOk ((table exH 1 1).map List.length) (poss exH 1 1 [1] [-1, 0, -1, -1, -1, -1, -1, -1, -1, -1]) := by
    rw [hT, hP]
    refine ⟨rfl, ?_⟩
    intro i n m' hn hm hpos
    have : m' = 0 := by
      have := List.mem_iff_getElem?.2 ⟨i, hm⟩
      simpa using this
    omega
  refine ⟨_, _, _, _, (joint aes c key seed hs exThr_threads exThr_threads (.new _) (.new _) A.len_y A.len_indices
    (by intro i hi; simp at hi; omega) A.len_outV A.len_outI A.len_w A.len_u A.len_v hok H hidx).computes, rfl, rfl,
    vec_length _ _, vec_length _ _, ?_⟩
  intro k hk
  refine ⟨_, _, vec_get _ hk, vec_get _ hk, ?_⟩
  rw [zero_add, zero_add, results_general aes exFl6 key seed hs.buckets_pos H hidx A.len_w A.len_u A.len_v A.corr]
  unfold contribution
  rw [hT]
  simp [Finset.sum_range_succ]

/-- C20 is false for negative indices: index -3 into an output of size 3 is accepted, both parties
    return OK, and the value ends up at position 0. -/
theorem C20_negation_negative (aes : Cipher) (c : Chans) (sec : Sec) (key seed : Nat → Block) (x y : BitVec 64)
    (w outV u v outI : List (BitVec 64)) (A : Args exH 1 3 x w outV [y] [-3] u v outI) :
    ∃ r0 r1 va vb, Computes
        (runValueProviderVectorOLE aes exFl6 c sec key seed exThr (State.new exH) x (1 : Nat) w outV)
        (runIndexProviderVectorOLE aes exFl6 c exThr (State.new exH) [y] [-3] u v outI) r0 r1 va vb ∧
      r0.status = .ok () ∧ r1.status = .ok () ∧ SharesOf 3 r0.output r1.output (fun k => if k = 0 then x * y else 0) := by
  have hs := exH_supported (t := 1) (m := 3) (by omega) (by omega) (by omega) sec
  have hok : hashCuckoo exH ([-3].map indexBlock) (exH.optimal (1 : Nat)) = .ok [-1, -1, -1, -1, -1, 0, -1, -1, -1, -1] := by
    decide +kernel
  have H := (hashed_placed hs.toSized (indices := [-3]) rfl hok).2
  have hT : table exH 1 3 = [[], [1, 1], [], [0, 0], [], [0, 1, 2], [], [2, 2], [], []] := by decide +kernel
  have hP : poss exH 1 3 [-3] [-1, -1, -1, -1, -1, 0, -1, -1, -1, -1] = [0, 0, 0, 0, 0, 0, 0, 0, 0, 0] := by decide +kernel
  have hidx : IdxOk ((table exH 1 3).map List.length) (poss exH 1 3 [-3] [-1, -1, -1, -1, -1, 0, -1, -1, -1, -1]) := by
    rw [hT, hP]
    refine ⟨rfl, ?_⟩
    intro i n m' hn hm hpos
    have : m' = 0 := by
      have := List.mem_iff_getElem?.2 ⟨i, hm⟩
      simpa using this
    omega
  refine ⟨_, _, _, _, (joint aes c key seed hs exThr_threads exThr_threads (.new _) (.new _) A.len_y A.len_indices
    (by intro i hi; simp at hi; omega) A.len_outV A.len_outI A.len_w A.len_u A.len_v hok H hidx).computes, rfl, rfl,
    vec_length _ _, vec_length _ _, ?_⟩
  intro k hk
  refine ⟨_, _, vec_get _ hk, vec_get _ hk, ?_⟩
  rw [zero_add, zero_add, results_general aes exFl6 key seed hs.buckets_pos H hidx A.len_w A.len_u A.len_v A.corr]
  unfold contribution
  have hpos5 : posIn (table exH 1 3) [-3] 5 0 = 0 := by decide +kernel
  simp only [List.length_cons, List.length_nil, Finset.sum_range_succ, Finset.sum_range_zero]
  simp [hT, pick, posIn, lowerBound, eq_comm]

/-- The hypotheses of both witnesses are met by concrete data. -/
example : Args exH 1 1 7 (exW 10 7) (List.replicate 1 9) [5] [1] (exU 10) (exV 10) (List.replicate 1 8) ∧
    Args exH 1 3 7 (exW 10 7) (List.replicate 3 9) [5] [-3] (exU 10) (exV 10) (List.replicate 3 8) :=
  ⟨exArgs (t := 1) (by omega) 7 rfl rfl, exArgs (t := 1) (by omega) 7 rfl rfl⟩

/-- C20, the part that holds: some index above `output.size()` is rejected immediately, with nothing
    sent and the output untouched. Missing: `indices[i] = output.size()` and negative indices (see
    the negations above). -/
theorem C20_above_size_partial (aes : Cipher) (fl : Nat → Nat → Nat) (c : Chans) (thr : Nat → List Nat) (st : State) (y : List T)
    (indices : List Int) (u v output : List T) (hlen : indices.length < 2 ^ 31)
    (hbad : ∃ i ∈ indices, (output.length : Int) < i) :
    ∃ msg, runIndexProviderVectorOLE aes fl c thr st y indices u v output = .ret ⟨.err .invalidArgument msg, output, st⟩ := by
  unfold runIndexProviderVectorOLE
  split
  · exact ⟨_, rfl⟩
  split
  · exact ⟨_, rfl⟩
  split
  · exact ⟨_, rfl⟩
  obtain ⟨i, hi, hlt⟩ := hbad
  rw [if_pos]
  · exact ⟨_, rfl⟩
  · rw [toInt32_eq hlen, Int.toNat_natCast, List.take_length, List.any_eq_true]
    exact ⟨i, hi, by simpa using hlt⟩

example : ∃ msg, runIndexProviderVectorOLE exCipher exFl6 ⟨0, 1, 2⟩ exThr (State.new exH) [5, 6] [0, 4] [] [] [1, 2, (3 : BitVec 64)] =
    .ret ⟨.err .invalidArgument msg, [1, 2, 3], State.new exH⟩ :=
  C20_above_size_partial _ _ _ _ _ _ _ _ _ _ (by simp) ⟨4, by simp, by simp⟩

/-! ### C63 -/

/-- C63: `RunValueProviderVectorOLE` rejects `y_len < 1`, without communication and with its output and buckets untouched. -/
theorem C63_value_provider (aes : Cipher) (fl : Nat → Nat → Nat) (c : Chans) (sec : Sec) (key seed : Nat → Block) (thr : Nat → List Nat)
    (st : State) (x : T) (yLen : Int) (w output : List T) (h : yLen < 1) :
    ∃ msg, runValueProviderVectorOLE aes fl c sec key seed thr st x yLen w output = .ret ⟨.err .invalidArgument msg, output, st⟩ := by
  unfold runValueProviderVectorOLE
  rw [if_pos h]
  exact ⟨_, rfl⟩

/-- C63: `RunIndexProviderVectorOLE` rejects in the same way `y` and `indices` of different lengths or empty, and an output that
    is shorter than `indices`. -/
theorem C63_index_provider (aes : Cipher) (fl : Nat → Nat → Nat) (c : Chans) (thr : Nat → List Nat) (st : State) (y : List T)
    (indices : List Int) (u v output : List T) (h : y.length ≠ indices.length ∨ y = [] ∨ output.length < indices.length) :
    ∃ msg, runIndexProviderVectorOLE aes fl c thr st y indices u v output = .ret ⟨.err .invalidArgument msg, output, st⟩ := by
  unfold runIndexProviderVectorOLE
  by_cases h1 : y.length ≠ indices.length
  · rw [if_pos h1]; exact ⟨_, rfl⟩
  · rw [if_neg h1]
    by_cases h2 : output.length < indices.length
    · rw [if_pos h2]; exact ⟨_, rfl⟩
    · rw [if_neg h2]
      have h3 : y = [] := by rcases h with h | h | h; exacts [absurd h h1, h, absurd h h2]
      rw [if_pos (by simp [h3])]
      exact ⟨_, rfl⟩

example (key seed : Nat → Block) : ∃ msg, runValueProviderVectorOLE exCipher exFl6 ⟨0, 1, 2⟩ none key seed exThr (State.new exH) 5 0 []
    [(3 : BitVec 64)] = .ret ⟨.err .invalidArgument msg, [3], State.new exH⟩ :=
  C63_value_provider _ _ _ _ _ _ _ _ _ _ _ _ (by omega)

/-- Two indices for an output of length 1. -/
example : ∃ msg, runIndexProviderVectorOLE exCipher exFl6 ⟨0, 1, 2⟩ exThr (State.new exH) [5, 6] [0, 1] [] [] [(3 : BitVec 64)] =
    .ret ⟨.err .invalidArgument msg, [3], State.new exH⟩ :=
  C63_index_provider _ _ _ _ _ _ _ _ _ _ (by simp)

/-! ### C21 -/

/-- C21, second half: on in-range indices, repeated or not, a run in which the index provider
    returns OK shares the vector whose position `k` is the sum of all `x * y[i]` with
    `indices[i] = k`. -/
theorem C21_repeated_indices_add (aes : Cipher) (fl : Nat → Nat → Nat) (c : Chans) (sec : Sec) (key seed : Nat → Block) (h : Hasher)
    (t m : Nat) (hs : Supported T h fl sec t m) (thrV thrI : Nat → List Nat) (htV : Threads thrV)
    (htI : Threads thrI) (stV stI : State) (hV : Reached T h stV) (hI : Reached T h stI) (x : T) (w outV y : List T)
    (indices : List Int) (u v outI : List T) (A : Args h t m x w outV y indices u v outI) (hr : InRange m indices)
    (r0 r1 : Res T) (va vb : List (Event (Msg T)))
    (hrun : Joint (runValueProviderVectorOLE aes fl c sec key seed thrV stV x t w outV)
        (runIndexProviderVectorOLE aes fl c thrI stI y indices u v outI) r0 r1 va vb)
    (hok : r1.status = .ok ()) :
    r0.status = .ok () ∧ SharesOf m r0.output r1.output (pointSum x y indices) := by
  by_cases hc : ∃ hashed, hashCuckoo h (indices.map indexBlock) (h.optimal t) = .ok hashed
  · obtain ⟨r0', r1', va', vb', h1, h2, h3, h4⟩ := C18_shares aes fl c sec key seed h t m hs thrV thrI htV htI stV stI hV hI
      x w outV y indices u v outI A hr hc
    obtain ⟨rfl, rfl, -, -⟩ := hrun.unique h1.joint
    exact ⟨h2, h4⟩
  · obtain ⟨r, h1, -, h2, -⟩ := index_fails (aes := aes) (c := c) (u := u) (v := v) hs.toSized htI (hI.coherent) A.len_y A.len_indices
      (fun i hi => le_of_lt (hr i hi).2) A.len_outI hc
    rw [h1] at hrun
    have := joint_ret_right hrun
    subst this
    exact absurd hok (h2 _)

/-- C21, first half, is false for the code: with indices 5, 5, 6 both parties return OK, and position
    5 is shared as `x * y[0] + x * y[1]`. -/
theorem C21_negation_repeated_accepted (aes : Cipher) (c : Chans) (sec : Sec) (key seed : Nat → Block) (x y0 y1 y2 : BitVec 64)
    (w outV u v outI : List (BitVec 64)) (A : Args exH 3 7 x w outV [y0, y1, y2] [5, 5, 6] u v outI) :
    ∃ r0 r1 va vb, Computes
        (runValueProviderVectorOLE aes exFl6 c sec key seed exThr (State.new exH) x (3 : Nat) w outV)
        (runIndexProviderVectorOLE aes exFl6 c exThr (State.new exH) [y0, y1, y2] [5, 5, 6] u v outI) r0 r1 va vb ∧
      r0.status = .ok () ∧ r1.status = .ok () ∧
      SharesOf 7 r0.output r1.output (fun k => if k = 5 then x * y0 + x * y1 else if k = 6 then x * y2 else 0) := by
  obtain ⟨r0, r1, va, vb, h1, h2, h3, h4, h5, h6⟩ := C18_shares aes exFl6 c sec key seed exH 3 7
    (exH_supported (by omega) (by omega) (by omega) sec) exThr exThr exThr_threads exThr_threads _ _ .new .new x w outV
    [y0, y1, y2] [5, 5, 6] u v outI A (by intro i hi; simp at hi; omega)
    ⟨[-1, -1, -1, 1, -1, -1, -1, -1, -1, -1, -1, -1, -1, -1, -1, -1, -1, 0, -1, -1, -1, 2, -1, -1, -1, -1, -1, -1, -1, -1],
      by decide +kernel⟩
  refine ⟨r0, r1, va, vb, h1, h2, h3, h4, h5, ?_⟩
  intro k hk
  obtain ⟨a, b, ha, hb, hab⟩ := h6 k hk
  refine ⟨a, b, ha, hb, ?_⟩
  rw [hab]
  interval_cases k <;> simp [pointSum]

example : Args exH 3 7 7 (exW 30 7) (List.replicate 7 9) [1, 2, 3] [5, 5, 6] (exU 30) (exV 30) (List.replicate 7 8) :=
  exArgs (t := 3) (by omega) 7 rfl rfl

/-- C21, the part of the first half that holds: repeated indices are rejected with this message, with
    nothing sent and the output untouched, if cuckoo hashing fails. Missing: the case that cuckoo
    hashing succeeds (see the negation above). -/
theorem C21_rejected_if_hashing_fails_partial (aes : Cipher) (fl : Nat → Nat → Nat) (c : Chans) (sec : Sec) (h : Hasher)
    (t m : Nat) (hs : Supported T h fl sec t m) (thr : Nat → List Nat) (ht : Threads thr)
    (st : State) (hst : Reached T h st) (y : List T) (indices : List Int) (u v out : List T)
    (hy : y.length = t) (hi : indices.length = t) (hout : out.length = m) (hr : InRange m indices) (hdup : ¬ indices.Nodup)
    (hbad : ¬ ∃ hashed, hashCuckoo h (indices.map indexBlock) (h.optimal t) = .ok hashed)
    (hbits : h.tooManyBits t (h.optimal t).toNat = false) (hfew : (t : Int) ≤ h.optimal t) :
    ∃ r : Res T, runIndexProviderVectorOLE aes fl c thr st y indices u v out = .ret r ∧
      r.status = .err .invalidArgument "All `indices` must be unique" ∧ r.output = out := by
  obtain ⟨r, h1, h2, -, h3⟩ := index_fails (aes := aes) (c := c) (u := u) (v := v) hs.toSized ht (hst.coherent) hy hi
    (fun i hi => le_of_lt (hr i hi).2) hout hbad
  refine ⟨r, h1, ?_, h3⟩
  have hp := hs.buckets_pos
  have hlt := hs.buckets_lt
  have hn := hs.numHash
  have hfail : hashCuckoo h (indices.map indexBlock) (h.optimal t) =
      .err .internal "Failed to insert element, maximum number of tries exhausted" := by
    rcases hashCuckoo_spec h (by omega) hp (by omega) (indices.map indexBlock) (by simp [hi, hfew]) (by simpa [hi] using hbits) with e | ⟨b, hb, -⟩
    · exact e
    · exact absurd ⟨b, hb⟩ hbad
  rw [h2]
  unfold hashIndices
  rw [hfail]
  show (if _ then _ else _ : Out (List Int)) >>= _ = _
  rw [if_pos]
  · rfl
  · intro e
    apply hdup
    exact List.dedup_eq_self.1 ((List.dedup_sublist indices).eq_of_length e)

/-- A case that meets the hypotheses: two equal indices. -/
example : ∃ r, runIndexProviderVectorOLE exCipher exFl6 ⟨0, 1, 2⟩ exThr (State.new exH) [5, 6] [2, 2] (exU 20) (exV 20) [1, 2, (3 : BitVec 64)] =
    .ret r ∧ r.status = .err .invalidArgument "All `indices` must be unique" ∧ r.output = [1, 2, 3] :=
  C21_rejected_if_hashing_fails_partial _ _ _ none exH 2 3 (exH_supported (by omega) (by omega) (by omega) _) exThr exThr_threads
    _ .new _ _ _ _ _ rfl rfl rfl (by intro i hi; simp at hi; omega) (by decide)
    (by
      have : hashCuckoo exH ([2, 2].map indexBlock) (exH.optimal (2 : Nat)) =
        .err .internal "Failed to insert element, maximum number of tries exhausted" := by decide +kernel
      rw [this]; rintro ⟨_, h⟩; cases h) rfl (by decide)

/-! ### C22 -/

/-- The messages a party has sent on channel `ch` outside the OT. -/
def sentOn (ch : Nat) (v : List (Event (Msg T))) : List (Msg T) :=
  v.filterMap (fun e => match e with | .sent c m => if c = ch then some m else none | _ => none)

omit [Scalar T] in
theorem sentOn_receiverView (aes : Cipher) (fl : Nat → Nat → Nat) (c : Chans) (key seed : Nat → Block) (ns ms : List Nat) (ch : Nat) :
    sentOn ch (receiverView T aes fl c key seed ns ms) = [] := by
  unfold sentOn receiverView
  simp

/-- C22: the index provider sends exactly one message outside the OT: `u` plus a vector that is
    determined by `y` and the indices. -/
theorem C22_single_masked_message (aes : Cipher) (fl : Nat → Nat → Nat) (c : Chans) (sec : Sec) (key seed : Nat → Block) (h : Hasher)
    (t m : Nat) (hs : Supported T h fl sec t m) (thrV thrI : Nat → List Nat) (htV : Threads thrV)
    (htI : Threads thrI) (stV stI : State) (hV : Reached T h stV) (hI : Reached T h stI) (y : List T) (indices : List Int)
    (hr : InRange m indices) (hok : ∃ hashed, hashCuckoo h (indices.map indexBlock) (h.optimal t) = .ok hashed) :
    ∃ P : List T, ∀ (x : T) (w outV u v outI : List T), Args h t m x w outV y indices u v outI →
      ∃ r0 r1 va vb, Computes (runValueProviderVectorOLE aes fl c sec key seed thrV stV x t w outV)
          (runIndexProviderVectorOLE aes fl c thrI stI y indices u v outI) r0 r1 va vb ∧
        ∀ ch, sentOn ch vb = if ch = c.main then [.elems (List.zipWith (· + ·) P u)] else [] := by
  obtain ⟨hashed, hok⟩ := hok
  refine ⟨hashed.map (pick y), ?_⟩
  intro x w outV u v outI A
  have H := hashedOk hs.toSized A.len_indices hr hok
  refine ⟨_, _, _, _, (joint aes c key seed hs htV htI (hV.coherent) (hI.coherent) A.len_y A.len_indices
    (fun i hi => le_of_lt (hr i hi).2) A.len_outV A.len_outI A.len_w A.len_u A.len_v hok H.toHashedLen (poss_idxOk H)).computes, ?_⟩
  intro ch
  have := sentOn_receiverView (T := T) aes fl c key seed ((table h t m).map List.length) (poss h t m indices hashed) ch
  unfold sentOn at this ⊢
  rw [List.filterMap_cons, List.filterMap_append, this]
  by_cases e : ch = c.main
  · subst e; simp [yMsg]
  · simp [e, Ne.symm e]

/-- C22: for any two inputs of the index provider that are accepted with the same sizes there is a
    bijection of the masks `u` under which everything the value provider sees coincides: its
    messages received and sent, its OTs, and its result. -/
theorem C22_perfectly_hiding (aes : Cipher) (fl : Nat → Nat → Nat) (c : Chans) (sec : Sec) (key seed : Nat → Block) (h : Hasher)
    (t m : Nat) (hs : Supported T h fl sec t m) (thrV thrI : Nat → List Nat) (htV : Threads thrV)
    (htI : Threads thrI) (stV stI : State) (hV : Reached T h stV) (hI : Reached T h stI)
    (y y' : List T) (indices indices' : List Int) (hy : y.length = t) (hy' : y'.length = t)
    (hi : indices.length = t) (hi' : indices'.length = t) (hr : InRange m indices) (hr' : InRange m indices')
    (hok : ∃ hashed, hashCuckoo h (indices.map indexBlock) (h.optimal t) = .ok hashed)
    (hok' : ∃ hashed, hashCuckoo h (indices'.map indexBlock) (h.optimal t) = .ok hashed) :
    ∃ f : List T → List T,
      Set.BijOn f {u | (u.length : Int) = h.optimal t} {u | (u.length : Int) = h.optimal t} ∧
      ∀ (x : T) (w outV u v v' outI outI' : List T), outV.length = m → outI.length = m → outI'.length = m →
        (w.length : Int) = h.optimal t → (u.length : Int) = h.optimal t → (v.length : Int) = h.optimal t →
        (v'.length : Int) = h.optimal t →
        ∃ r0 r1 r1' va vb vb',
          Computes (runValueProviderVectorOLE aes fl c sec key seed thrV stV x t w outV)
            (runIndexProviderVectorOLE aes fl c thrI stI y indices u v outI) r0 r1 va vb ∧
          Computes (runValueProviderVectorOLE aes fl c sec key seed thrV stV x t w outV)
            (runIndexProviderVectorOLE aes fl c thrI stI y' indices' (f u) v' outI') r0 r1' va vb' := by
  obtain ⟨hashed, hok⟩ := hok
  obtain ⟨hashed', hok'⟩ := hok'
  have H := hashedOk hs.toSized hi hr hok
  have H' := hashedOk hs.toSized hi' hr' hok'
  have hl := H.len
  have hl' := H'.len
  have hp := hs.buckets_pos
  let P := hashed.map (pick y)
  let P' := hashed'.map (pick y')
  let f : List T → List T := fun u => List.zipWith (· + ·) u (List.zipWith (· - ·) P P')
  let g : List T → List T := fun u => List.zipWith (· + ·) u (List.zipWith (· - ·) P' P)
  have hPl : P.length = (h.optimal t).toNat := by simp [P, hl]
  have hPl' : P'.length = (h.optimal t).toNat := by simp [P', hl']
  have hf : ∀ u : List T, (u.length : Int) = h.optimal t → ((f u).length : Int) = h.optimal t := by
    intro u hu
    simp only [f, List.length_zipWith, hPl, hPl']; omega
  have hg : ∀ u : List T, (u.length : Int) = h.optimal t → ((g u).length : Int) = h.optimal t := by
    intro u hu
    simp only [g, List.length_zipWith, hPl, hPl']; omega
  have inv : ∀ (A B u : List T), A.length = u.length → B.length = u.length →
      List.zipWith (· + ·) (List.zipWith (· + ·) u (List.zipWith (· - ·) A B)) (List.zipWith (· - ·) B A) = u := by
    intro A B u hA hB
    apply List.ext_getElem
    · simp; omega
    · intro i h1 h2
      simp only [List.getElem_zipWith]
      ring
  have hinv : Set.InvOn g f {u | (u.length : Int) = h.optimal t} {u | (u.length : Int) = h.optimal t} := by
    constructor
    · intro u hu
      have hu : (u.length : Int) = h.optimal t := hu
      exact inv P P' u (by omega) (by omega)
    · intro u hu
      have hu : (u.length : Int) = h.optimal t := hu
      exact inv P' P u (by omega) (by omega)
  have hmsg : ∀ u : List T, (u.length : Int) = h.optimal t → yMsg y' (f u) hashed' = yMsg y u hashed := by
    intro u hu
    show List.zipWith (· + ·) P' (f u) = List.zipWith (· + ·) P u
    apply List.ext_getElem
    · simp [f]; omega
    · intro i h1 h2
      simp only [f, List.getElem_zipWith]
      ring
  refine ⟨f, hinv.bijOn (fun u hu => hf u hu) (fun u hu => hg u hu), ?_⟩
  intro x w outV u v v' outI outI' hoV hoI hoI' hw hu hv hv'
  have J := joint aes c key seed hs htV htI (hV.coherent) (hI.coherent) (x := x) hy hi
    (fun i hi => le_of_lt (hr i hi).2) hoV hoI hw hu hv hok H.toHashedLen (poss_idxOk H)
  have J' := joint aes c key seed hs htV htI (hV.coherent) (hI.coherent) (x := x) hy' hi'
    (fun i hi => le_of_lt (hr' i hi).2) hoV hoI' hw (hf u hu) hv' hok' H'.toHashedLen (poss_idxOk H')
  rw [hmsg u hu] at J'
  exact ⟨_, _, _, _, _, _, J.computes, J'.computes⟩

/-- A case that meets the hypotheses of both C22 theorems. -/
example : InRange 12 [5, 3, 8] ∧ InRange 12 [4, 10, 11] ∧
    (∃ hashed, hashCuckoo exH ([5, 3, 8].map indexBlock) (exH.optimal (3 : Nat)) = .ok hashed) ∧
    (∃ hashed, hashCuckoo exH ([4, 10, 11].map indexBlock) (exH.optimal (3 : Nat)) = .ok hashed) ∧
    Supported (BitVec 64) exH exFl6 none 3 12 ∧
    Args exH 3 12 7 (exW 30 7) (List.replicate 12 9) [1, 2, 3] [5, 3, 8] (exU 30) (exV 30) (List.replicate 12 8) := by
  refine ⟨by intro i hi; simp at hi; omega, by intro i hi; simp at hi; omega, ?_, ?_,
    exH_supported (by omega) (by omega) (by omega) _, exArgs (t := 3) (by omega) 7 rfl rfl⟩
  · exact ⟨[-1, -1, -1, 2, -1, -1, -1, -1, -1, -1, -1, 1, -1, -1, -1, -1, -1, 0, -1, -1, -1, -1, -1, -1, -1, -1, -1, -1, -1, -1],
      by decide +kernel⟩
  · exact ⟨[-1, -1, -1, -1, -1, -1, -1, -1, -1, 0, -1, -1, -1, -1, -1, -1, -1, -1, -1, 2, -1, -1, -1, -1, -1, -1, -1, -1, -1, 1],
      by decide +kernel⟩

end DVO.MPFSS
