/-
Properties C40–C43 of `AESUniformBitGenerator`.
-/
import Verif.Proofs.RNG

namespace DVO.RNG

/-- A cipher and a seed for the examples. -/
def exAes : Cipher := fun k p => k ^^^ (p * 5 + 1)
def exSeed : List (BitVec 8) := tab 32 (fun i => BitVec.ofNat 8 (7 * i + 3))
def exJunk : Gen := ⟨[], 99, 1, 2, 3⟩

/-- The bytes of a loaded block are the bytes of memory, least significant first. -/
theorem load128_byte (p : List (BitVec 8)) (i : Nat) (hi : i < 16) (hp : 16 ≤ p.length) :
    some ((load128 p >>> (8 * i)).setWidth 8) = p[i]? := by
  have key : ∀ (l : List (BitVec 8)) (i : Nat), i < l.length →
      some (BitVec.ofNat 8 ((l.foldr (fun b acc => b.toNat + 256 * acc) 0) / 2 ^ (8 * i))) = l[i]? := by
    intro l
    induction l with
    | nil => intro i hi; simp at hi
    | cons b l ih =>
      intro i hi
      rw [List.foldr_cons]
      cases i with
      | zero =>
        simp only [Nat.mul_zero, pow_zero, Nat.div_one, List.getElem?_cons_zero, Option.some.injEq]
        apply BitVec.eq_of_toNat_eq
        rw [BitVec.toNat_ofNat]
        have := b.isLt
        omega
      | succ i =>
        rw [List.getElem?_cons_succ, ← ih i (by simpa using hi)]
        congr 2
        rw [show 8 * (i + 1) = 8 + 8 * i by ring, pow_add, ← Nat.div_div_eq_div_mul]
        congr 1
        have := b.isLt
        omega
  have lt : ∀ l : List (BitVec 8), l.foldr (fun b acc => b.toNat + 256 * acc) 0 < 2 ^ (8 * l.length) := by
    intro l
    induction l with
    | nil => simp
    | cons b l ih =>
      rw [List.foldr_cons, List.length_cons, show 8 * (l.length + 1) = 8 * l.length + 8 by ring, pow_add]
      have := b.isLt
      omega
  have h1 := key (p.take 16) i (by rw [List.length_take]; omega)
  have h2 := lt (p.take 16)
  rw [List.length_take, Nat.min_eq_left hp] at h2
  rw [List.getElem?_take, if_pos hi] at h1
  rw [← h1]
  congr 1
  apply BitVec.eq_of_toNat_eq
  rw [BitVec.toNat_setWidth, BitVec.toNat_ushiftRight, load128, BitVec.toNat_ofNat, BitVec.toNat_ofNat,
    Nat.mod_eq_of_lt h2, Nat.shiftRight_eq_div_pow]

/-- A block is determined by its 16 bytes, so `load128_byte` pins `load128` down. -/
example : (load128 exSeed >>> 8).setWidth 8 = (10 : BitVec 8) := by decide +kernel

/-- **C40**: with an even buffer size (or a size below 2, which becomes 2), call number `n` after
    `Create` returns word `n mod 2` of `AES(key, nonce + n / 2)`. The number of words before the
    exception is `size * ⌊2^48 / (size / 2)⌋`, see C42. -/
theorem C40_counter_mode (aes : Cipher) (junk : Gen) (s : List (BitVec 8)) (b : Int) (hs : 32 ≤ s.length)
    (he : size b % 2 = 0) : ∃ g, create junk s b = .ok g ∧
      ∀ n, n < size b * (2 ^ 48 / (size b / 2)) → call aes g n = .ok (stream aes (load128 s) (load128 (s.drop 16)) n) := by
  obtain ⟨g, h1, h2, hB⟩ := create_at aes junk s b hs
  refine ⟨g, h1, fun n hn => ?_⟩
  rw [call_eq hB h2 n hn]
  unfold bufWord
  have h3 := Nat.mod_lt n (show 0 < size b by omega)
  have h4 : 2 * (size b / 2) = size b := by omega
  rw [h4, if_pos h3, Nat.mul_comm, Nat.div_add_mod]

/-- C40 in the form used for reseeding: the same holds after any history of calls and reseedings. -/
theorem C40_after_seed (aes : Cipher) (junk : Gen) (s0 s : List (BitVec 8)) (b : Int) (hs0 : 32 ≤ s0.length) (hs : 32 ≤ s.length)
    (he : size b % 2 = 0) : ∃ g, create junk s0 b = .ok g ∧ ∀ ops n, n < size b * (2 ^ 48 / (size b / 2)) →
      call aes (seed (history aes g ops) s).2 n = .ok (stream aes (load128 s) (load128 (s.drop 16)) n) := by
  obtain ⟨g, h1, h2, hB⟩ := create_at aes junk s0 b hs0
  refine ⟨g, h1, fun ops n hn => ?_⟩
  obtain ⟨k', n', q, u, hG⟩ := Good.history hB ops g _ _ 0 _ ⟨h2, le_rfl, fun _ => rfl, by simp⟩
  obtain ⟨-, h3⟩ := seed_at aes (history aes g ops) s hs 0 (by rw [hG.at_.len_]; exact hG.at_.last_)
  rw [hG.at_.len_] at h3
  rw [call_eq hB h3 n hn]
  unfold bufWord
  have h4 := Nat.mod_lt n (show 0 < size b by omega)
  have h5 : 2 * (size b / 2) = size b := by omega
  rw [h5, if_pos h4, Nat.mul_comm, Nat.div_add_mod]

/-- The hypotheses are met by the default buffer size, and the streams are not constant. -/
example : size (2 ^ 20 / 8) % 2 = 0 ∧ size (2 ^ 20 / 8) * (2 ^ 48 / (size (2 ^ 20 / 8) / 2)) = 2 ^ 49 ∧ exSeed.length = 32 := by
  decide +kernel
example : (create exJunk exSeed 4).bind (fun g => .ok ((List.range 9).map (fun n => call exAes g n))) =
    .ok ((List.range 9).map (fun n => .ok (stream exAes (load128 exSeed) (load128 (exSeed.drop 16)) n))) := by decide +kernel
example : stream exAes (load128 exSeed) (load128 (exSeed.drop 16)) 4 ≠ stream exAes (load128 exSeed) (load128 (exSeed.drop 16)) 6 := by
  decide +kernel

/-- **C41, restricted to even buffer sizes**: the stream does not depend on the buffer size. For odd
    sizes it is false, see `C41_negation`. -/
theorem C41_even_sizes_partial (aes : Cipher) (junk junk' : Gen) (s : List (BitVec 8)) (b b' : Int) (hs : 32 ≤ s.length)
    (he : size b % 2 = 0) (he' : size b' % 2 = 0) : ∃ g g', create junk s b = .ok g ∧ create junk' s b' = .ok g' ∧
      ∀ n, n < size b * (2 ^ 48 / (size b / 2)) → n < size b' * (2 ^ 48 / (size b' / 2)) → call aes g n = call aes g' n := by
  obtain ⟨g, h1, h2⟩ := C40_counter_mode aes junk s b hs he
  obtain ⟨g', h1', h2'⟩ := C40_counter_mode aes junk' s b' hs he'
  exact ⟨g, g', h1, h1', fun n hn hn' => by rw [h2 n hn, h2' n hn']⟩

/-- All buffer sizes that the library passes (the default, and the numbers of noise indices) are
    even. -/
example : ∀ b ∈ [(2 ^ 20 / 8 : Int), 98, 198, 382, 1254, 1324], size b % 2 = 0 := by decide +kernel

/-- What an odd buffer size does: every `size`-th word is the constant 0 that the buffer was
    initialised with, and the others are the stream with those gaps. -/
theorem C41_odd_sizes (aes : Cipher) (junk : Gen) (s : List (BitVec 8)) (b : Int) (hs : 32 ≤ s.length)
    (ho : size b % 2 = 1) : ∃ g, create junk s b = .ok g ∧
      ∀ n, n < size b * (2 ^ 48 / (size b / 2)) → call aes g n = .ok (if n % size b = size b - 1 then 0 else
        stream aes (load128 s) (load128 (s.drop 16)) (n / size b * (size b - 1) + n % size b)) := by
  obtain ⟨g, h1, h2, hB⟩ := create_at aes junk s b hs
  refine ⟨g, h1, fun n hn => ?_⟩
  rw [call_eq hB h2 n hn]
  unfold bufWord
  have h3 := Nat.mod_lt n (show 0 < size b by omega)
  have h4 : 2 * (size b / 2) = size b - 1 := by omega
  rw [h4]
  congr 1
  by_cases h5 : n % size b = size b - 1
  · rw [if_neg (by omega), if_pos h5]
  · rw [if_pos (by omega), if_neg h5]

/-- **C41 is false**: with the buffer sizes 3 and 4 the third words differ, for every seed for which
    the low word of `AES(nonce + 1)` is not 0. -/
theorem C41_negation : ∃ (aes : Cipher) (s : List (BitVec 8)) (g g' : Gen), 32 ≤ s.length ∧
    create exJunk s 3 = .ok g ∧ create exJunk s 4 = .ok g' ∧ call aes g 2 = .ok 0 ∧ call aes g' 2 ≠ .ok 0 := by
  refine ⟨exAes, exSeed, ?_⟩
  obtain ⟨g, h1, h2⟩ := C41_odd_sizes exAes exJunk exSeed 3 (by decide +kernel) (by decide +kernel)
  obtain ⟨g', h1', h2'⟩ := C40_counter_mode exAes exJunk exSeed 4 (by decide +kernel) (by decide +kernel)
  refine ⟨g, g', by decide +kernel, h1, h1', ?_, ?_⟩
  · rw [h2 2 (by decide +kernel), if_pos (by decide +kernel)]
  · rw [h2' 2 (by decide +kernel)]
    decide +kernel

/-- **C42, up to the first exception**: the calls before number `size * ⌊2^48 / (size / 2)⌋` return
    words, and that call throws. For even sizes this is at most `2 * 2^48` words. What is missing is
    that calls after the exception throw as well, which is false, see `C42_negation`. -/
theorem C42_first_throw_partial (aes : Cipher) (junk : Gen) (s : List (BitVec 8)) (b : Int) (hs : 32 ≤ s.length) (hb : size b < 2 ^ 62) :
    ∃ g, create junk s b = .ok g ∧ (∀ n, n < size b * (2 ^ 48 / (size b / 2)) → ∃ w, call aes g n = .ok w) ∧
      (∃ m, call aes g (size b * (2 ^ 48 / (size b / 2))) = .throws m) ∧
      (size b % 2 = 0 → size b * (2 ^ 48 / (size b / 2)) ≤ 2 * 2 ^ 48) := by
  obtain ⟨g, h1, h2, hB⟩ := create_at aes junk s b hs
  refine ⟨g, h1, fun n hn => ⟨_, call_eq hB h2 n hn⟩, ?_, ?_⟩
  · obtain ⟨q, u, h3, h4, h5, h6⟩ := After.at hB h2 _ le_rfl
    have hqu : u = size b ∧ q = 2 ^ 48 / (size b / 2) := by
      generalize 2 ^ 48 / (size b / 2) = K at *
      generalize size b = B at *
      have e : (K + 1) * B = q * B + u := by rw [← h4]; ring
      have hq1 : q < K + 1 := by
        by_contra hc
        have : (K + 1) * B ≤ q * B := Nat.mul_le_mul_right _ (by omega)
        omega
      have hq2 : K + 1 ≤ q + 1 := by
        by_contra hc
        have : (q + 1 + 1) * B ≤ (K + 1) * B := Nat.mul_le_mul_right _ (by omega)
        rw [Nat.add_mul, Nat.add_mul] at this
        omega
      have hq3 : q = K := by omega
      subst hq3
      rw [Nat.add_mul] at e
      exact ⟨by omega, rfl⟩
    obtain ⟨hu, hq⟩ := hqu
    rw [hu] at h3
    obtain ⟨m, g', h7, -⟩ := h3.next_throw (by
      rw [hq]
      exact Nat.lt_mul_of_div_lt (Nat.lt_succ_self _) (by omega)) (by
      rw [hq, Nat.add_mul]
      have := Nat.div_mul_le_self (2 ^ 48) (size b / 2)
      omega)
    exact ⟨m, by unfold call; rw [h7]⟩
  · intro he
    have h4 : size b = 2 * (size b / 2) := by omega
    have := Nat.mul_div_le (2 ^ 48) (size b / 2)
    calc size b * (2 ^ 48 / (size b / 2)) = 2 * (size b / 2 * (2 ^ 48 / (size b / 2))) := by
          conv_lhs => rw [h4]
          rw [Nat.mul_div_cancel_left _ (by norm_num)]; ring
      _ ≤ _ := by omega

/-- What happens after the exception: the next `size` calls return words, which continue the stream. -/
theorem C42_after_throw (aes : Cipher) (junk : Gen) (s : List (BitVec 8)) (b : Int) (hs : 32 ≤ s.length)
    (hb : size b < 2 ^ 62) (he : size b % 2 = 0) : ∃ g, create junk s b = .ok g ∧
      ∀ r, r < size b → call aes g (size b * (2 ^ 48 / (size b / 2)) + 1 + r) =
        .ok (stream aes (load128 s) (load128 (s.drop 16)) (size b * (2 ^ 48 / (size b / 2)) + r)) := by
  obtain ⟨g, h1, h2, hB⟩ := create_at aes junk s b hs
  refine ⟨g, h1, ?_⟩
  obtain ⟨g2, h1', -, ⟨m0, h8⟩, -⟩ := C42_first_throw_partial aes junk s b hs hb
  rw [h1] at h1'
  cases h1'
  obtain ⟨q, u, h3, h4, h5, h6⟩ := After.at hB h2 _ le_rfl
  have hu : u = size b := by
    by_contra hc
    cases q with
    | zero => omega
    | succ q =>
      obtain ⟨g', h9, -⟩ := h3.next_mid (by omega)
      unfold call at h8
      rw [h9] at h8
      exact absurd h8 (by simp)
  rw [hu] at h3 h4
  have hq : q = 2 ^ 48 / (size b / 2) := by
    have e : q * size b = 2 ^ 48 / (size b / 2) * size b := by
      rw [Nat.mul_comm (2 ^ 48 / (size b / 2))]; omega
    exact Nat.eq_of_mul_eq_mul_right (by omega) e
  obtain ⟨m, g', h7, h9⟩ := h3.next_throw (by
    rw [hq]
    exact Nat.lt_mul_of_div_lt (Nat.lt_succ_self _) (by omega)) (by
    rw [hq, Nat.add_mul]
    have := Nat.div_mul_le_self (2 ^ 48) (size b / 2)
    omega)
  generalize hK : size b * (2 ^ 48 / (size b / 2)) = K at *
  have hstart : after aes g (K + 1) = g' := by
    show (next aes (after aes g K)).2 = g'
    rw [h7]
  have hst : ∀ r, r ≤ size b → At aes (size b) (load128 s) (load128 (s.drop 16)) 0 (after aes g (K + 1 + r)) (q + 1) r := by
    intro r
    induction r with
    | zero => intro _; rw [Nat.add_zero, hstart]; exact h9
    | succ r ih =>
      intro hr
      obtain ⟨g3, h10, h11⟩ := (ih (by omega)).next_mid (by omega)
      show At _ _ _ _ _ (next aes (after aes g (K + 1 + r))).2 _ _
      rw [h10]
      exact h11
  intro r hr
  obtain ⟨g3, h10, -⟩ := (hst r (by omega)).next_mid hr
  unfold call
  rw [h10]
  unfold bufWord
  rw [show 2 * (size b / 2) = size b by omega, if_pos hr, show q * size b = K by omega]

/-- **C42 is false**: with the default buffer size, `2^49` words are returned, the next call throws,
    and the call after that returns word number `2^49 + 1`. -/
theorem C42_negation (aes : Cipher) (junk : Gen) (s : List (BitVec 8)) (hs : 32 ≤ s.length) :
    ∃ g, create junk s (2 ^ 20 / 8) = .ok g ∧ (∀ n, n < 2 * 2 ^ 48 → ∃ w, call aes g n = .ok w) ∧
      (∃ m, call aes g (2 * 2 ^ 48) = .throws m) ∧ ∃ w, call aes g (2 * 2 ^ 48 + 1) = .ok w := by
  have e : size (2 ^ 20 / 8) * (2 ^ 48 / (size (2 ^ 20 / 8) / 2)) = 2 * 2 ^ 48 := by decide +kernel
  obtain ⟨g, h1, h2, h3, -⟩ := C42_first_throw_partial aes junk s (2 ^ 20 / 8) hs (by decide +kernel)
  obtain ⟨g', h1', h4⟩ := C42_after_throw aes junk s (2 ^ 20 / 8) hs (by decide +kernel) (by decide +kernel)
  rw [h1] at h1'
  cases h1'
  rw [e] at h2 h3 h4
  exact ⟨g, h1, h2, h3, _, h4 0 (by decide +kernel)⟩

/-- With an odd buffer size more than `2 * 2^48` words are returned even before the first exception. -/
theorem C42_negation_odd (aes : Cipher) (junk : Gen) (s : List (BitVec 8)) (hs : 32 ≤ s.length) :
    ∃ g, create junk s 3 = .ok g ∧ ∀ n, n < 3 * 2 ^ 48 → ∃ w, call aes g n = .ok w := by
  obtain ⟨g, h1, h2, -⟩ := C42_first_throw_partial aes junk s 3 hs (by decide +kernel)
  have e : size 3 * (2 ^ 48 / (size 3 / 2)) = 3 * 2 ^ 48 := by decide +kernel
  rw [e] at h2
  exact ⟨g, h1, h2⟩

/-- **C43, no repetition**: between two seedings no AES input is used twice, whatever number of calls
    is made (including calls after an exception), for every history before the last seeding. -/
theorem C43_no_repetition (aes : Cipher) (junk : Gen) (s0 s : List (BitVec 8)) (b : Int) (hs0 : 32 ≤ s0.length)
    (hs : 32 ≤ s.length) : ∃ g, create junk s0 b = .ok g ∧ (∀ n, (inputs aes g n).Nodup) ∧
      ∀ ops n, (inputs aes (seed (history aes g ops) s).2 n).Nodup := by
  obtain ⟨g, h1, h2, hB⟩ := create_at aes junk s0 b hs0
  have key : ∀ (g : Gen) (k n0 : Block) (n : Nat), At aes (size b) k n0 0 g 0 (size b) → (inputs aes g n).Nodup := by
    intro g k n0 n h
    obtain ⟨q, u, h3, h4⟩ := Good.after hB h n
    rw [h4]
    exact fresh_nodup _ _ (by have := h3.fit_; omega)
  refine ⟨g, h1, fun n => key g _ _ n h2, fun ops n => ?_⟩
  obtain ⟨k', n', q, u, hG⟩ := Good.history hB ops g _ _ 0 _ ⟨h2, le_rfl, fun _ => rfl, by simp⟩
  obtain ⟨-, h3⟩ := seed_at aes (history aes g ops) s hs 0 (by rw [hG.at_.len_]; exact hG.at_.last_)
  rw [hG.at_.len_] at h3
  exact key _ _ _ n h3

/-- Eight calls with buffer size 4 use the four counter blocks `nonce, …, nonce + 3`. -/
example : (create exJunk exSeed 4).bind (fun g => .ok (inputs exAes g 8)) =
    .ok ((List.range 4).map (fun i => load128 (exSeed.drop 16) + BitVec.ofNat 128 i)) := by decide +kernel

/-- **C43, reseeding**: after any history of calls and seedings, `seed(s)` makes the generator behave
    like a fresh one. -/
theorem C43_reseed (aes : Cipher) (junk junk' : Gen) (s0 s : List (BitVec 8)) (b : Int) (hs0 : 32 ≤ s0.length)
    (hs : 32 ≤ s.length) : ∃ g g', create junk s0 b = .ok g ∧ create junk' s b = .ok g' ∧
      ∀ ops, (seed (history aes g ops) s).1 = .ok () ∧ ∀ n, call aes (seed (history aes g ops) s).2 n = call aes g' n := by
  obtain ⟨g, h1, h2, hB⟩ := create_at aes junk s0 b hs0
  obtain ⟨g', h1', h2', -⟩ := create_at aes junk' s b hs
  refine ⟨g, g', h1, h1', fun ops => ?_⟩
  obtain ⟨k', n', q, u, hG⟩ := Good.history hB ops g _ _ 0 _ ⟨h2, le_rfl, fun _ => rfl, by simp⟩
  obtain ⟨h4, h3⟩ := seed_at aes (history aes g ops) s hs 0 (by rw [hG.at_.len_]; exact hG.at_.last_)
  rw [hG.at_.len_] at h3
  exact ⟨h4, fun n => call_congr h3 h2' n⟩

/-- A history with calls, a good and a bad seeding, ending in the middle of the buffer. -/
example : (create exJunk exSeed 3).bind (fun g =>
      .ok ((List.range 7).map (fun n => call exAes (seed (history exAes g [.call, .call, .seed (List.replicate 40 9), .call, .seed [1], .call]) exSeed).2 n))) =
    (create exJunk exSeed 3).bind (fun g => .ok ((List.range 7).map (fun n => call exAes g n))) := by decide +kernel

/-- **C43, short seeds** are rejected and leave the generator unchanged; `Create` rejects them too. -/
theorem C43_short_seed (g junk : Gen) (s : List (BitVec 8)) (b : Int) (hs : s.length < 32) :
    (∃ m, (seed g s).1 = .err .invalidArgument m) ∧ (seed g s).2 = g ∧ ∃ m, create junk s b = .err .invalidArgument m := by
  have e : ∀ g : Gen, seed g s = (.err .invalidArgument "`seed` must be at least 32 bytes long", g) := by
    intro g
    unfold seed stateSize
    rw [if_pos hs]
  refine ⟨⟨_, by rw [e]⟩, by rw [e], ?_⟩
  unfold create
  simp only [e]
  exact ⟨_, rfl⟩

example : ([1, 2, 3] : List (BitVec 8)).length < 32 := by decide

end DVO.RNG
