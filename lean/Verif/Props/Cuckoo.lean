/-
Properties C13-C17 and C55: the cuckoo hasher.
-/
import Verif.Proofs.Cuckoo
import Mathlib.Algebra.BigOperators.Group.Finset.Basic
import Mathlib.Algebra.BigOperators.Intervals
import Mathlib.Algebra.Order.BigOperators.Group.Finset
import Mathlib.Tactic.NormNum

namespace DVO.Cuckoo

/-- Example data: a hasher with three hash functions and an invertible, non-linear "cipher". -/
def exHasher : Hasher := ⟨fun x => x * 0xa5a5a5a5a5a5a5a5a5a5a5a5a5a5a5a5 + 12345, 3, fun _ _ => false, fun n => 2 * n⟩

/-! ### C13 -/

/-- C13: one row per input; the row depends only on the hasher, the input and the number of
    buckets, has one entry per hash function, and its entries are below `num_buckets`. -/
theorem C13_hash (h : Hasher) (inputs : List Block) (n : Int) (h0 : 0 < n) (h1 : n < 2 ^ 63) :
    ∃ rows, hash h inputs n = .ok rows ∧ rows = inputs.map (bucketsOf h.enc h.numHash n.toNat) ∧
      ∀ row ∈ rows, row.length = h.numHash ∧ ∀ b ∈ row, (b : Int) < n := by
  refine ⟨_, hash_eq h h0 h1 inputs, rfl, ?_⟩
  intro row hr
  refine ⟨rows_length h _ inputs row hr, ?_⟩
  intro b hb
  have := rows_lt h (N := n.toNat) (by omega) inputs row hr b hb
  omega

/-- C13: equal elements get equal rows, whatever the rest of the two inputs is. -/
theorem C13_hash_local (h : Hasher) (inputs inputs' : List Block) (n : Int) (h1 : n < 2 ^ 63) (i i' : Nat) (x : Block)
    (rows rows' : List (List Nat)) (hi : inputs[i]? = some x) (hi' : inputs'[i']? = some x)
    (hr : hash h inputs n = .ok rows) (hr' : hash h inputs' n = .ok rows') :
    ∃ row, rows[i]? = some row ∧ rows'[i']? = some row := by
  by_cases h0 : 0 < n
  · rw [hash_eq h h0 h1, Out.ok.injEq] at hr hr'
    subst hr; subst hr'
    exact ⟨bucketsOf h.enc h.numHash n.toNat x, by simp [hi], by simp [hi']⟩
  · unfold hash at hr
    rw [if_pos (by omega)] at hr
    cases hr

/-- C13: a non-positive number of buckets is rejected. -/
theorem C13_hash_invalid (h : Hasher) (inputs : List Block) (n : Int) (h1 : n < 2 ^ 63) :
    (∃ m, hash h inputs n = .err .invalidArgument m) ↔ n ≤ 0 := by
  constructor
  · rintro ⟨m, hm⟩
    by_contra hc
    rw [hash_eq h (by omega) h1] at hm
    cases hm
  · intro hn
    exact ⟨_, by unfold hash; rw [if_pos hn]⟩

example : hash exHasher [5, 6, 5] 10 = .ok [[7, 3, 3], [1, 3, 5], [7, 3, 3]] := by decide +kernel

/-! ### C14 -/

/-- C14: `HashSimple` succeeds for a positive number of buckets (unless the size check fails); bucket
    `b` is sorted and contains index `i` exactly as often as `b` occurs among the buckets that `Hash`
    assigns to input `i`, and nothing else. -/
theorem C14_hashSimple (h : Hasher) (inputs : List Block) (n : Int) (chunks : List Nat) (h0 : 0 < n) (h1 : n < 2 ^ 63)
    (hc : chunks.sum = inputs.length) (hb : h.tooManyBits inputs.length n.toNat = false) :
    ∃ rows buckets, hash h inputs n = .ok rows ∧ hashSimple h chunks inputs n = .ok buckets ∧
      (buckets.length : Int) = n ∧
      ∀ (b : Nat) (l : List Nat), buckets[b]? = some l →
        l.Pairwise (· ≤ ·) ∧ (∀ i ∈ l, i < inputs.length) ∧
        ∀ (i : Nat) (row : List Nat), rows[i]? = some row → l.count i = row.count b := by
  refine ⟨_, _, hash_eq h h0 h1 inputs, hashSimple_eq h h0 h1 inputs chunks hc hb, by simp; omega, ?_⟩
  intro b l hl
  have hbn : b < n.toNat := by simpa using (List.getElem?_eq_some_iff.1 hl).1
  simp only [List.getElem?_map, List.getElem?_range hbn, Option.map_some, Option.some.injEq] at hl
  subst hl
  rw [simpleBucket_range]
  refine ⟨sorted_flatten_replicate _ _, ?_, ?_⟩
  · intro i hi
    by_contra hc
    have := List.count_pos_iff.2 hi
    rw [count_flatten_replicate, if_neg hc] at this
    omega
  · intro i row hrow
    have hi : i < inputs.length := by simpa using (List.getElem?_eq_some_iff.1 hrow).1
    rw [count_flatten_replicate, if_pos hi]
    simp only [List.getElem?_map, List.getElem?_eq_getElem hi, Option.map_some, Option.some.injEq] at hrow
    subst hrow
    simp [hi]

/-- C14: the bucket sizes sum to `num_hash_functions * inputs.size()`. -/
theorem C14_total_size (h : Hasher) (inputs : List Block) (n : Int) (chunks : List Nat) (h1 : n < 2 ^ 63)
    (hc : chunks.sum = inputs.length) (buckets : List (List Nat)) (hs : hashSimple h chunks inputs n = .ok buckets) :
    (buckets.map List.length).sum = h.numHash * inputs.length := by
  by_cases h0 : 0 < n
  · by_cases hb : h.tooManyBits inputs.length n.toNat = true
    · unfold hashSimple at hs
      rw [if_neg (by omega), if_pos hb] at hs
      cases hs
    · rw [hashSimple_eq h h0 h1 inputs chunks hc (by simpa using hb), Out.ok.injEq] at hs
      subst hs
      exact total_size h.enc h.numHash (by omega) inputs
  · unfold hashSimple at hs
    rw [if_pos (by omega)] at hs
    cases hs

example : hashSimple exHasher [2, 0, 1] [5, 6, 5] 10 =
    .ok [[], [1], [], [0, 0, 1, 2, 2], [], [1], [], [0, 2], [], []] := by decide +kernel

/-! ### C15 -/

/-- C15: the result of `HashSimple` is the same for every number of threads and every way of cutting
    the inputs into consecutive chunks. -/
theorem C15_threads (h : Hasher) (inputs : List Block) (n : Int) (h1 : n < 2 ^ 63) (chunks chunks' : List Nat)
    (hc : chunks.sum = inputs.length) (hc' : chunks'.sum = inputs.length) :
    hashSimple h chunks inputs n = hashSimple h chunks' inputs n := by
  by_cases h0 : 0 < n
  · by_cases hb : h.tooManyBits inputs.length n.toNat = true
    · unfold hashSimple
      rw [if_pos hb, if_pos hb]
    · rw [hashSimple_eq h h0 h1 inputs chunks hc (by simpa using hb), hashSimple_eq h h0 h1 inputs chunks' hc' (by simpa using hb)]
  · unfold hashSimple
    rw [if_pos (by omega), if_pos (by omega)]

example : ([2, 0, 1] : List Nat).sum = [5, 6, (5 : Block)].length ∧ ([3] : List Nat).sum = [5, 6, (5 : Block)].length := by decide

/-! ### C16 -/

/-- C16: on success the result has one entry per bucket, each entry is -1 or the index of an input,
    every index occurs exactly once, and it sits in a bucket that `Hash` assigns to its input. -/
theorem C16_hashCuckoo (h : Hasher) (hh : 0 < h.numHash) (inputs : List Block) (n : Int) (h1 : n < 2 ^ 63)
    (buckets : List Int) (hok : hashCuckoo h inputs n = .ok buckets) :
    ∃ rows, hash h inputs n = .ok rows ∧ (buckets.length : Int) = n ∧
      (∀ (b : Nat) (e : Int), buckets[b]? = some e → e = -1 ∨
        ∃ (i : Nat) (row : List Nat), e = i ∧ rows[i]? = some row ∧ b ∈ row) ∧
      ∀ i : Nat, i < inputs.length → ∃! b : Nat, buckets[b]? = some (i : Int) := by
  by_cases hk : h.numHash = 1
  · unfold hashCuckoo at hok; rw [if_pos hk] at hok; cases hok
  by_cases h0 : n ≤ 0
  · unfold hashCuckoo at hok; rw [if_neg hk, if_pos h0] at hok; cases hok
  by_cases hl : (inputs.length : Int) > n
  · unfold hashCuckoo at hok; rw [if_neg hk, if_neg h0, if_pos hl] at hok; cases hok
  by_cases hb : h.tooManyBits inputs.length n.toNat = true
  · unfold hashCuckoo at hok; rw [if_neg hk, if_neg h0, if_neg hl, if_pos hb] at hok; cases hok
  rcases hashCuckoo_spec h (by omega) (by omega) h1 inputs (by omega) (by simpa using hb) with hi | ⟨bk, hbk, hp, hc⟩
  · rw [hi] at hok; cases hok
  · rw [hok, Out.ok.injEq] at hbk
    subst hbk
    refine ⟨_, hash_eq h (by omega) h1 inputs, by rw [hp.len]; omega, hp.own, ?_⟩
    intro i hi
    have hci := hc i
    rw [if_pos hi] at hci
    have hm : (i : Int) ∈ buckets := List.count_pos_iff.1 (by omega)
    obtain ⟨b, hb1, hb2⟩ := List.mem_iff_getElem.1 hm
    refine ⟨b, by simp [hb1, hb2], ?_⟩
    intro b' hb'
    obtain ⟨hl', he'⟩ := List.getElem?_eq_some_iff.1 hb'
    by_contra hne
    have h2 : List.Duplicate (i : Int) buckets := by
      rw [List.duplicate_iff_exists_distinct_get]
      rcases Nat.lt_or_gt_of_ne hne with hlt | hlt
      · exact ⟨⟨b', hl'⟩, ⟨b, hb1⟩, hlt, by simpa using he'.symm, by simpa using hb2.symm⟩
      · exact ⟨⟨b, hb1⟩, ⟨b', hl'⟩, hlt, by simpa using hb2.symm, by simpa using he'.symm⟩
    have := List.duplicate_iff_two_le_count.1 h2
    omega

/-- Four inputs into ten buckets, with evictions. -/
example : hashCuckoo exHasher [5, 6, 7, 8] 10 = .ok [-1, 1, -1, 3, -1, 2, -1, 0, -1, -1] := by decide +kernel

/-! ### C17 -/

/-- C17: `HashCuckoo` returns, without undefined behaviour or exception: INVALID_ARGUMENT exactly in
    the four documented cases, otherwise OK or INTERNAL. -/
theorem C17_outcomes (h : Hasher) (hh : 0 < h.numHash) (inputs : List Block) (n : Int) (h1 : n < 2 ^ 63) :
    ((∃ m, hashCuckoo h inputs n = .err .invalidArgument m) ↔
      (h.numHash = 1 ∨ n ≤ 0 ∨ (inputs.length : Int) > n ∨ h.tooManyBits inputs.length n.toNat = true)) ∧
    ((∃ buckets, hashCuckoo h inputs n = .ok buckets) ∨ (∃ m, hashCuckoo h inputs n = .err .invalidArgument m) ∨
      hashCuckoo h inputs n = .err .internal "Failed to insert element, maximum number of tries exhausted") := by
  by_cases hk : h.numHash = 1
  · have : ∃ m, hashCuckoo h inputs n = .err .invalidArgument m := ⟨_, by unfold hashCuckoo; rw [if_pos hk]⟩
    exact ⟨⟨fun _ => Or.inl hk, fun _ => this⟩, Or.inr (Or.inl this)⟩
  by_cases h0 : n ≤ 0
  · have : ∃ m, hashCuckoo h inputs n = .err .invalidArgument m := ⟨_, by unfold hashCuckoo; rw [if_neg hk, if_pos h0]⟩
    exact ⟨⟨fun _ => Or.inr (Or.inl h0), fun _ => this⟩, Or.inr (Or.inl this)⟩
  by_cases hl : (inputs.length : Int) > n
  · have : ∃ m, hashCuckoo h inputs n = .err .invalidArgument m :=
      ⟨_, by unfold hashCuckoo; rw [if_neg hk, if_neg h0, if_pos hl]⟩
    exact ⟨⟨fun _ => Or.inr (Or.inr (Or.inl hl)), fun _ => this⟩, Or.inr (Or.inl this)⟩
  by_cases hb : h.tooManyBits inputs.length n.toNat = true
  · have : ∃ m, hashCuckoo h inputs n = .err .invalidArgument m :=
      ⟨_, by unfold hashCuckoo; rw [if_neg hk, if_neg h0, if_neg hl, if_pos hb]⟩
    exact ⟨⟨fun _ => Or.inr (Or.inr (Or.inr hb)), fun _ => this⟩, Or.inr (Or.inl this)⟩
  rcases hashCuckoo_spec h (by omega) (by omega) h1 inputs (by omega) (by simpa using hb) with hi | ⟨bk, hbk, -⟩
  · refine ⟨⟨?_, ?_⟩, Or.inr (Or.inr hi)⟩
    · rintro ⟨m, hm⟩; rw [hi] at hm; cases hm
    · intro hx; exact absurd hx (by simp [hk, h0, hb]; omega)
  · refine ⟨⟨?_, ?_⟩, Or.inl ⟨bk, hbk⟩⟩
    · rintro ⟨m, hm⟩; rw [hbk] at hm; cases hm
    · intro hx; exact absurd hx (by simp [hk, h0, hb]; omega)

/-- C17: if the first-choice buckets of all inputs are distinct, `HashCuckoo` succeeds. -/
theorem C17_distinct_first_choices (h : Hasher) (hh : 2 ≤ h.numHash) (inputs : List Block) (n : Int) (h0 : 0 < n) (h1 : n < 2 ^ 63)
    (hl : (inputs.length : Int) ≤ n) (hb : h.tooManyBits inputs.length n.toNat = false)
    (hd : (inputs.map (fun x => bucketOf h.enc n.toNat x 0)).Nodup) :
    ∃ buckets, hashCuckoo h inputs n = .ok buckets :=
  hashCuckoo_distinct h hh h0 h1 inputs hl hb hd

example : ([5, 6, 7].map (fun x => bucketOf exHasher.enc 10 x 0)).Nodup := by decide +kernel

/-! ### C55 -/

/-- C55 is false: two inputs whose *first* buckets coincide are never inserted, whatever their other
    buckets are and however many buckets there are. The evicted element is retried with the hash
    function that already put it there (`next_hash_function` is not advanced by a plain insertion),
    which costs one of the two tries. -/
theorem C55_negation_two_inputs (h : Hasher) (hh : 2 ≤ h.numHash) (x y : Block) (n : Int) (h1 : n < 2 ^ 63) (hn : 2 ≤ n)
    (hb : h.tooManyBits 2 n.toNat = false) (hc : bucketOf h.enc n.toNat x 0 = bucketOf h.enc n.toNat y 0) :
    hashCuckoo h [x, y] n = .err .internal "Failed to insert element, maximum number of tries exhausted" :=
  hashCuckoo_two h hh h1 x y hn hb hc

/-- A concrete instance: 100 buckets, the inputs' other buckets are all different. -/
example : bucketsOf exHasher.enc 3 100 12 = [37, 41, 47] ∧ bucketsOf exHasher.enc 3 100 14 = [37, 29, 91] ∧
    ¬ (hashCuckoo exHasher [12, 14] 100).isOk := by decide +kernel

/-! ### C62 -/

/-- C62: `Create` succeeds exactly for a positive number of hash functions, and then the hasher has this number of
    functions and encrypts with the seed. -/
theorem C62_create (aes : Cipher) (bits : Nat → Nat → Nat → Bool) (optimal : Nat → Nat → Int) (seed : Block) (k : Int) :
    (k ≤ 0 → ∃ m, create aes bits optimal seed k = .err .invalidArgument m) ∧
    (0 < k → ∃ h, create aes bits optimal seed k = .ok h ∧ (h.numHash : Int) = k ∧ h.enc = aes seed) := by
  unfold create
  refine ⟨fun h => ⟨_, if_pos h⟩, fun h => ⟨_, if_neg (by omega), ?_, rfl⟩⟩
  exact Int.toNat_of_nonneg (by omega)

/-- Three hash functions are accepted, none or minus one are not. -/
example (aes : Cipher) : (create aes (fun _ _ _ => false) (fun _ _ => 1) 7 3).isOk ∧
    ¬ (create aes (fun _ _ _ => false) (fun _ _ => 1) 7 0).isOk ∧ ¬ (create aes (fun _ _ _ => false) (fun _ _ => 1) 7 (-1)).isOk := by
  simp [create, Out.isOk]

/-- C62: `GetOptimalNumberOfBuckets` rejects negative sizes, returns 1 (not 0) for an empty input, and an estimate for 2 or 3
    hash functions only. -/
theorem C62_buckets (h : Hasher) (n : Int) :
    (n < 0 → ∃ m, getOptimalNumberOfBuckets h n = .err .invalidArgument m) ∧
    (n = 0 → getOptimalNumberOfBuckets h n = .ok 1) ∧
    (0 < n → h.numHash = 2 ∨ h.numHash = 3 → -2 ^ 63 ≤ h.optimal n.toNat → h.optimal n.toNat < 2 ^ 63 →
      getOptimalNumberOfBuckets h n = .ok (h.optimal n.toNat)) ∧
    (0 < n → h.numHash ≠ 2 → h.numHash ≠ 3 → ∃ m, getOptimalNumberOfBuckets h n = .err .unimplemented m) := by
  unfold getOptimalNumberOfBuckets
  refine ⟨fun h1 => ⟨_, if_pos h1⟩, ?_, ?_, ?_⟩
  · rintro rfl; rfl
  · intro h1 h2 h3 h4
    rw [if_neg (by omega), if_neg (by omega), if_pos h2.symm]
    exact if_pos ⟨h3, h4⟩
  · intro h1 h2 h3
    exact ⟨_, by rw [if_neg (by omega), if_neg (by omega), if_neg (by omega)]⟩

/-- So hashing an empty input into the estimated number of buckets is possible. -/
theorem C62_empty (h : Hasher) (hk : h.numHash ≠ 1) (hb : h.tooManyBits 0 1 = false) :
    ∃ n, getOptimalNumberOfBuckets h 0 = .ok n ∧ hashCuckoo h [] n = .ok [-1] := by
  refine ⟨1, (C62_buckets h 0).2.1 rfl, ?_⟩
  unfold hashCuckoo
  have hb' : h.tooManyBits ([] : List Block).length (1 : Int).toNat = false := hb
  rw [if_neg hk, if_neg (by omega), if_neg (by simp), hb']
  rfl

example : getOptimalNumberOfBuckets exHasher 0 = .ok 1 ∧ hashCuckoo exHasher [] 1 = .ok [-1] := by decide +kernel

end DVO.Cuckoo
