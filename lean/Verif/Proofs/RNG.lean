/-
The states of the random generator.
-/
import Verif.Spec.RNG
import Verif.Proofs.Gilboa

namespace DVO.RNG

/-- The buffer after a refill that starts at counter value `c`: all words are new, except the last
    one if the size is odd. -/
def filled (aes : Cipher) (key c : Block) (b : List (BitVec 64)) : List (BitVec 64) :=
  tab b.length (fun r => if r < 2 * (b.length / 2) then stream aes key c r else b.getD r 0)

@[simp] theorem filled_length (aes : Cipher) (key c : Block) (b : List (BitVec 64)) : (filled aes key c b).length = b.length := by
  simp [filled]

/-- The AES inputs of a refill. -/
def fresh (c : Block) (m : Nat) : List Block := tab m (fun i => c + BitVec.ofNat 128 i)

theorem stream_even (aes : Cipher) (key c : Block) (i : Nat) :
    stream aes key c (2 * i) = (aes key (c + BitVec.ofNat 128 i)).setWidth 64 := by
  unfold stream
  rw [Nat.mul_div_cancel_left _ (by norm_num), Nat.mul_mod_right]
  rfl

theorem stream_odd (aes : Cipher) (key c : Block) (i : Nat) :
    stream aes key c (2 * i + 1) = (aes key (c + BitVec.ofNat 128 i) >>> 64).setWidth 64 := by
  unfold stream
  rw [show (2 * i + 1) / 2 = i by omega, show (2 * i + 1) % 2 = 1 by omega]
  rfl

theorem refill_eq' (aes : Cipher) (g : Gen) :
    refill aes g = if g.counter + (g.buffer.length / 2 : Nat) ≥ 2 ^ 63 then .ub "signed overflow" else
      .ok (fresh g.nonce (g.buffer.length / 2),
      { g with buffer := filled aes g.key g.nonce g.buffer, nonce := g.nonce + BitVec.ofNat 128 (g.buffer.length / 2), used := 0,
               counter := g.counter + (g.buffer.length / 2 : Nat) }) := by
  unfold refill
  generalize hm : g.buffer.length / 2 = m at *
  have h1 : loop (fun i (s : List Block × Block) => do
      let nonces ← wr s.1 i s.2
      .ok (nonces, s.2 + 1)) 0 m (List.replicate m 0, g.nonce) =
      .ok (fresh g.nonce m, g.nonce + BitVec.ofNat 128 m) := by
    refine loop_eq (fun i s => s = (tab m (fun k => if k < i then g.nonce + BitVec.ofNat 128 k else 0), g.nonce + BitVec.ofNat 128 i)) ?_ ?_ ?_
    · rw [tab_const]; simp
    · rintro i s _ hi rfl
      refine ⟨_, by dsimp only; rw [wr_tab _ (by omega)]; rfl, ?_⟩
      refine Prod.ext ?_ ?_
      · apply tab_congr
        intro k hk
        rcases Nat.lt_trichotomy k i with h | h | h
        · simp [h, show k ≠ i by omega, show k < i + 1 by omega]
        · subst h; simp
        · simp [show k ≠ i by omega, show ¬ k < i by omega, show ¬ k < i + 1 by omega]
      · show g.nonce + BitVec.ofNat 128 i + 1 = g.nonce + BitVec.ofNat 128 (i + 1)
        rw [BitVec.ofNat_add, BitVec.add_assoc]
        rfl
    · rintro s rfl
      refine Prod.ext ?_ (by simp)
      apply tab_congr
      intro k hk
      rw [if_pos (by omega)]
  have h2 : loop (fun i b => do
      let x ← rd (fresh g.nonce m) i
      let c := aes g.key x
      let b ← wr b (2 * i) (c.setWidth 64)
      wr b (2 * i + 1) ((c >>> 64).setWidth 64)) 0 m g.buffer = .ok (filled aes g.key g.nonce g.buffer) := by
    refine loop_eq (fun i s => s = tab g.buffer.length (fun r => if r < 2 * i then stream aes g.key g.nonce r else g.buffer.getD r 0)) ?_ ?_ ?_
    · conv_lhs => rw [tab_self g.buffer 0]
      simp
    · rintro i s _ hi rfl
      refine ⟨_, by
        unfold fresh
        rw [rd_tab _ (by omega), Out.ok_bind]
        dsimp only
        rw [wr_tab _ (by omega), Out.ok_bind, wr_tab _ (by omega)], ?_⟩
      apply tab_congr
      intro r hr
      by_cases h1 : r = 2 * i + 1
      · subst h1; simp [stream_odd, show 2 * i + 1 < 2 * (i + 1) by omega]
      · by_cases h2 : r = 2 * i
        · subst h2; simp [stream_even, show 2 * i < 2 * (i + 1) by omega]
        · simp only [h1, h2, if_false]
          by_cases h3 : r < 2 * i
          · simp [h3, show r < 2 * (i + 1) by omega]
          · simp [h3, show ¬ r < 2 * (i + 1) by omega]
    · rintro s rfl
      unfold filled
      rw [hm, Nat.zero_add]
  simp only [h1, Out.ok_bind, h2]

theorem refill_eq (aes : Cipher) (g : Gen) (h : g.counter + (g.buffer.length / 2 : Nat) < 2 ^ 63) :
    refill aes g = .ok (fresh g.nonce (g.buffer.length / 2),
      { g with buffer := filled aes g.key g.nonce g.buffer, nonce := g.nonce + BitVec.ofNat 128 (g.buffer.length / 2), used := 0,
               counter := g.counter + (g.buffer.length / 2 : Nat) }) := by
  rw [refill_eq', if_neg (by omega)]

/-- The state of a generator with buffer size `B` that has been seeded with `key` and `nonce` and has
    used `q` refills; the position in the buffer is `u`. `last` is the word that is never
    overwritten if the size is odd. -/
structure At (aes : Cipher) (B : Nat) (key nonce : Block) (last : BitVec 64) (g : Gen) (q u : Nat) : Prop where
  len_ : g.buffer.length = B
  key_ : g.key = key
  nonce_ : g.nonce = nonce + BitVec.ofNat 128 (q * (B / 2))
  counter_ : g.counter = (q * (B / 2) : Nat)
  used_ : g.used = (u : Int)
  last_ : B % 2 = 1 → g.buffer[B - 1]? = some last
  words_ : ∀ r, u ≤ r → r < 2 * (B / 2) → 0 < q → g.buffer[r]? = some (stream aes key nonce ((q - 1) * (2 * (B / 2)) + r))

theorem stream_add (aes : Cipher) (key nonce : Block) (a r : Nat) :
    stream aes key (nonce + BitVec.ofNat 128 a) r = stream aes key nonce (2 * a + r) := by
  unfold stream
  rw [show (2 * a + r) / 2 = a + r / 2 by omega, show (2 * a + r) % 2 = r % 2 by omega, BitVec.add_assoc, ← BitVec.ofNat_add]

/-- Refilling. -/
theorem At.refill {aes : Cipher} {B : Nat} {key nonce : Block} {last : BitVec 64} {g : Gen} {q u : Nat}
    (h : At aes B key nonce last g q u) (hc : (q + 1) * (B / 2) < 2 ^ 63) :
    ∃ xs g', RNG.refill aes g = .ok (xs, g') ∧ At aes B key nonce last g' (q + 1) 0 ∧
      xs = fresh (nonce + BitVec.ofNat 128 (q * (B / 2))) (B / 2) := by
  have e : (q + 1) * (B / 2) = q * (B / 2) + B / 2 := by ring
  refine ⟨_, _, refill_eq aes g (by rw [h.counter_, h.len_]; omega), ?_, by rw [h.nonce_, h.len_]⟩
  constructor
  · simp [h.len_]
  · exact h.key_
  · simp only
    rw [h.nonce_, h.len_, BitVec.add_assoc, ← BitVec.ofNat_add, e]
  · simp only
    rw [h.counter_, h.len_, e]
    push_cast
    ring
  · rfl
  · intro hodd
    have h1 := h.last_ hodd
    simp only [filled]
    rw [tab_get _ (by rw [h.len_]; omega), h.len_, if_neg (by omega)]
    rw [List.getD_eq_getElem?_getD, h1]
    rfl
  · intro r _ hr _
    simp only [filled]
    rw [tab_get _ (by rw [h.len_]; omega), h.len_, if_pos hr, h.nonce_, h.key_, stream_add]
    rw [Nat.add_sub_cancel]
    congr 2
    ring

/-- What is at position `r` of the buffer after `q + 1` refills. -/
def bufWord (aes : Cipher) (B : Nat) (key nonce : Block) (last : BitVec 64) (q r : Nat) : BitVec 64 :=
  if r < 2 * (B / 2) then stream aes key nonce (q * (2 * (B / 2)) + r) else last

/-- Taking a word. -/
theorem At.take {aes : Cipher} {B : Nat} {key nonce : Block} {last : BitVec 64} {g : Gen} {q u : Nat}
    (h : At aes B key nonce last g (q + 1) u) (hu : u < B) :
    ∃ g', RNG.take g = (.ok (bufWord aes B key nonce last q u), g') ∧ At aes B key nonce last g' (q + 1) (u + 1) := by
  have hw : g.buffer[u]? = some (bufWord aes B key nonce last q u) := by
    unfold bufWord
    by_cases hr : u < 2 * (B / 2)
    · rw [if_pos hr, h.words_ u le_rfl hr (by omega), Nat.add_sub_cancel]
    · rw [if_neg hr]
      have : u = B - 1 := by omega
      rw [this]
      exact h.last_ (by omega)
  have e : rdI g.buffer g.used = .ok (bufWord aes B key nonce last q u) := by
    unfold rdI
    rw [h.used_, if_neg (by omega), Int.toNat_natCast]
    exact rd_eq_ok.2 hw
  refine ⟨{ g with used := g.used + 1 }, by unfold RNG.take; rw [e], ?_⟩
  exact ⟨h.len_, h.key_, h.nonce_, h.counter_, by simp only; rw [h.used_]; push_cast; rfl, h.last_,
    fun r hr => h.words_ r (by omega)⟩

/-- A call in the middle of the buffer. -/
theorem At.next_mid {aes : Cipher} {B : Nat} {key nonce : Block} {last : BitVec 64} {g : Gen} {q u : Nat}
    (h : At aes B key nonce last g (q + 1) u) (hu : u < B) :
    ∃ g', next aes g = (.ok (bufWord aes B key nonce last q u), g') ∧ At aes B key nonce last g' (q + 1) (u + 1) := by
  unfold next
  rw [if_neg (by rw [h.used_, h.len_]; omega)]
  exact h.take hu

/-- A call at the end of the buffer, within the reseed interval. -/
theorem At.next_end {aes : Cipher} {B : Nat} {key nonce : Block} {last : BitVec 64} {g : Gen} {q : Nat} (hB : 2 ≤ B)
    (h : At aes B key nonce last g q B) (hq : (q + 1) * (B / 2) ≤ 2 ^ 48) :
    ∃ g', next aes g = (.ok (bufWord aes B key nonce last q 0), g') ∧ At aes B key nonce last g' (q + 1) 1 := by
  obtain ⟨xs, g1, h1, h2, -⟩ := h.refill (by omega)
  unfold next
  rw [if_pos (by rw [h.used_, h.len_]), h1]
  dsimp only
  rw [if_neg (by rw [h2.counter_]; unfold reseedInterval; omega)]
  exact h2.take (by omega)

/-- A call at the end of the buffer that exceeds the reseed interval throws, and leaves a full
    buffer behind. -/
theorem At.next_throw {aes : Cipher} {B : Nat} {key nonce : Block} {last : BitVec 64} {g : Gen} {q : Nat}
    (h : At aes B key nonce last g q B) (hq : 2 ^ 48 < (q + 1) * (B / 2)) (hq2 : (q + 1) * (B / 2) < 2 ^ 63) :
    ∃ m g', next aes g = (.throws m, g') ∧ At aes B key nonce last g' (q + 1) 0 := by
  obtain ⟨xs, g1, h1, h2, -⟩ := h.refill hq2
  unfold next
  rw [if_pos (by rw [h.used_, h.len_]), h1]
  dsimp only
  rw [if_pos (by rw [h2.counter_]; unfold reseedInterval; omega)]
  exact ⟨_, _, rfl, h2⟩

/-- The state after `n` calls that all stay within the reseed interval. -/
theorem After.at {aes : Cipher} {B : Nat} {key nonce : Block} {last : BitVec 64} {g : Gen} (hB : 2 ≤ B)
    (h : At aes B key nonce last g 0 B) : ∀ n, n ≤ B * (2 ^ 48 / (B / 2)) →
      ∃ q u, At aes B key nonce last (after aes g n) q u ∧ n + B = q * B + u ∧ 0 < u ∧ u ≤ B := by
  intro n
  induction n with
  | zero => intro _; exact ⟨0, B, h, by simp, by omega, le_rfl⟩
  | succ n ih =>
    intro hn
    obtain ⟨q, u, h1, h2, h3, h4⟩ := ih (by omega)
    by_cases hu : u = B
    · subst hu
      have hq : (q + 1) * (u / 2) ≤ 2 ^ 48 := by
        have hlt : q < 2 ^ 48 / (u / 2) := by
          by_contra hc
          have : u * (2 ^ 48 / (u / 2)) ≤ u * q := Nat.mul_le_mul_left _ (by omega)
          have e : q * u = u * q := Nat.mul_comm _ _
          omega
        have := Nat.div_mul_le_self (2 ^ 48) (u / 2)
        have h5 : (q + 1) * (u / 2) ≤ 2 ^ 48 / (u / 2) * (u / 2) := Nat.mul_le_mul_right _ hlt
        omega
      obtain ⟨g', h5, h6⟩ := h1.next_end hB hq
      refine ⟨q + 1, 1, ?_, by rw [Nat.add_mul]; omega, by omega, by omega⟩
      show At aes u key nonce last (next aes (after aes g n)).2 _ _
      rw [h5]
      exact h6
    · cases q with
      | zero => omega
      | succ q =>
        obtain ⟨g', h5, h6⟩ := h1.next_mid (by omega)
        refine ⟨q + 1, u + 1, ?_, by omega, by omega, by omega⟩
        show At aes B key nonce last (next aes (after aes g n)).2 _ _
        rw [h5]
        exact h6

/-- The result of call `n` within the reseed interval. -/
theorem call_eq {aes : Cipher} {B : Nat} {key nonce : Block} {last : BitVec 64} {g : Gen} (hB : 2 ≤ B)
    (h : At aes B key nonce last g 0 B) (n : Nat) (hn : n < B * (2 ^ 48 / (B / 2))) :
    call aes g n = .ok (bufWord aes B key nonce last (n / B) (n % B)) := by
  obtain ⟨q, u, h1, h2, h3, h4⟩ := After.at hB h n (by omega)
  unfold call
  by_cases hu : u = B
  · subst hu
    have hnq : n = u * q := by rw [Nat.mul_comm]; omega
    have hlt : q < 2 ^ 48 / (u / 2) := by
      rw [hnq] at hn
      exact Nat.lt_of_mul_lt_mul_left hn
    have hq : (q + 1) * (u / 2) ≤ 2 ^ 48 := by
      have := Nat.div_mul_le_self (2 ^ 48) (u / 2)
      have h5 : (q + 1) * (u / 2) ≤ 2 ^ 48 / (u / 2) * (u / 2) := Nat.mul_le_mul_right _ hlt
      omega
    obtain ⟨g', h5, -⟩ := h1.next_end hB hq
    rw [h5, hnq, Nat.mul_div_cancel_left _ (by omega), Nat.mul_mod_right]
  · cases q with
    | zero => omega
    | succ q =>
      obtain ⟨g', h5, -⟩ := h1.next_mid (by omega)
      have e : n = B * q + u := by rw [Nat.mul_comm]; rw [Nat.add_mul] at h2; omega
      rw [h5, e, Nat.mul_add_div (by omega), Nat.mul_add_mod, Nat.div_eq_of_lt (by omega), Nat.mod_eq_of_lt (by omega), Nat.add_zero]

/-- A freshly seeded generator. -/
theorem seed_at (aes : Cipher) (g : Gen) (s : List (BitVec 8)) (hs : 32 ≤ s.length) (last : BitVec 64)
    (hl : g.buffer.length % 2 = 1 → g.buffer[g.buffer.length - 1]? = some last) :
    (seed g s).1 = .ok () ∧ At aes g.buffer.length (load128 s) (load128 (s.drop 16)) last (seed g s).2 0 g.buffer.length := by
  unfold seed stateSize
  rw [if_neg (by omega)]
  refine ⟨rfl, ⟨rfl, rfl, by simp, by simp, rfl, hl, by omega⟩⟩

/-- The buffer size that `Create` uses. -/
def size (bufferSize : Int) : Nat := (if bufferSize < 2 then 2 else bufferSize).toNat

theorem create_at (aes : Cipher) (junk : Gen) (s : List (BitVec 8)) (b : Int) (hs : 32 ≤ s.length) :
    ∃ g, create junk s b = .ok g ∧ At aes (size b) (load128 s) (load128 (s.drop 16)) 0 g 0 (size b) ∧ 2 ≤ size b := by
  have hB : 2 ≤ size b := by unfold size; split <;> omega
  have hlen : (ctor junk (if b < 2 then 2 else b)).buffer.length = size b := by simp [ctor, size]
  obtain ⟨h1, h2⟩ := seed_at aes (ctor junk (if b < 2 then 2 else b)) s hs 0 (by
    rw [hlen]
    intro _
    simp only [ctor]
    rw [List.getElem?_replicate, if_pos (by unfold size at *; omega)])
  rw [hlen] at h2
  refine ⟨(seed (ctor junk (if b < 2 then 2 else b)) s).2, ?_, h2, hB⟩
  unfold create
  dsimp only
  have e : seed (ctor junk (if b < 2 then 2 else b)) s = (.ok (), (seed (ctor junk (if b < 2 then 2 else b)) s).2) :=
    Prod.ext h1 rfl
  rw [e]

/-! ### Any number of calls -/

theorem fresh_append (c : Block) (a b : Nat) : fresh c a ++ fresh (c + BitVec.ofNat 128 a) b = fresh c (a + b) := by
  apply List.ext_getElem?
  intro i
  unfold fresh
  by_cases h : i < a
  · rw [List.getElem?_append_left (by simpa using h), tab_get _ h, tab_get _ (by omega)]
  · rw [List.getElem?_append_right (by simpa using Nat.le_of_not_lt h)]
    simp only [tab_length]
    by_cases h2 : i < a + b
    · rw [tab_get _ (by omega), tab_get _ h2, BitVec.add_assoc, ← BitVec.ofNat_add, show a + (i - a) = i by omega]
    · rw [List.getElem?_eq_none (by simp; omega), List.getElem?_eq_none (by simp; omega)]

theorem fresh_nodup (c : Block) (n : Nat) (h : n ≤ 2 ^ 128) : (fresh c n).Nodup := by
  rw [List.nodup_iff_getElem?_ne_getElem?]
  intro i j hij hj
  have hj' : j < n := by simpa [fresh] using hj
  unfold fresh
  rw [tab_get _ (by omega), tab_get _ hj']
  intro he
  have he := Option.some.inj he
  have h2 : BitVec.ofNat 128 i = BitVec.ofNat 128 j := by
    have := congrArg (fun z => z - c) he
    simpa [BitVec.add_comm c] using this
  have h3 := congrArg BitVec.toNat h2
  rw [BitVec.toNat_ofNat, BitVec.toNat_ofNat, Nat.mod_eq_of_lt (by omega), Nat.mod_eq_of_lt (by omega)] at h3
  omega

/-- The invariant of a seeded generator under calls that may throw. -/
structure Good (aes : Cipher) (B : Nat) (key nonce : Block) (last : BitVec 64) (g : Gen) (q u : Nat) : Prop where
  at_ : At aes B key nonce last g q u
  le_ : u ≤ B
  zero_ : q = 0 → u = B
  fit_ : q * (B / 2) < 2 ^ 63

theorem Good.next {aes : Cipher} {B : Nat} {key nonce : Block} {last : BitVec 64} {g : Gen} {q u : Nat} (hB : 2 ≤ B)
    (h : Good aes B key nonce last g q u) : ∃ q' u', Good aes B key nonce last (next aes g).2 q' u' ∧
      fresh nonce (q * (B / 2)) ++ inputs1 aes g = fresh nonce (q' * (B / 2)) := by
  by_cases hu : u = B
  · subst hu
    by_cases hq : (q + 1) * (u / 2) < 2 ^ 63
    · obtain ⟨xs, g', h1, h2, h3⟩ := h.at_.refill hq
      have hin : fresh nonce (q * (u / 2)) ++ inputs1 aes g = fresh nonce ((q + 1) * (u / 2)) := by
        unfold inputs1
        rw [if_pos (by rw [h.at_.used_, h.at_.len_]), h1]
        dsimp only
        rw [h3, fresh_append, Nat.add_mul, Nat.one_mul]
      by_cases hl : (q + 1) * (u / 2) ≤ 2 ^ 48
      · obtain ⟨g'', h4, h5⟩ := h.at_.next_end hB hl
        exact ⟨q + 1, 1, ⟨by rw [h4]; exact h5, by omega, by omega, hq⟩, hin⟩
      · obtain ⟨m, g'', h4, h5⟩ := h.at_.next_throw (by omega) hq
        exact ⟨q + 1, 0, ⟨by rw [h4]; exact h5, by omega, by omega, hq⟩, hin⟩
    · have hub : RNG.refill aes g = .ub "signed overflow" := by
        rw [refill_eq', if_pos]
        rw [h.at_.counter_, h.at_.len_]
        rw [Nat.add_mul, Nat.one_mul] at hq
        omega
      refine ⟨q, u, ?_, ?_⟩
      · unfold RNG.next
        rw [if_pos (by rw [h.at_.used_, h.at_.len_]), hub]
        exact h
      · unfold inputs1
        rw [if_pos (by rw [h.at_.used_, h.at_.len_]), hub]
        simp
  · have hlt : u < B := lt_of_le_of_ne h.le_ hu
    cases q with
    | zero => exact absurd (h.zero_ rfl) hu
    | succ q =>
      obtain ⟨g', h1, h2⟩ := h.at_.next_mid hlt
      refine ⟨q + 1, u + 1, ⟨by rw [h1]; exact h2, by omega, by omega, h.fit_⟩, ?_⟩
      unfold inputs1
      rw [if_neg (by rw [h.at_.used_, h.at_.len_]; omega), List.append_nil]

theorem Good.after {aes : Cipher} {B : Nat} {key nonce : Block} {last : BitVec 64} {g : Gen} (hB : 2 ≤ B)
    (h : At aes B key nonce last g 0 B) (n : Nat) : ∃ q u, Good aes B key nonce last (after aes g n) q u ∧
      inputs aes g n = fresh nonce (q * (B / 2)) := by
  induction n with
  | zero => exact ⟨0, B, ⟨h, le_rfl, fun _ => rfl, by simp⟩, by simp [inputs, fresh, tab]⟩
  | succ n ih =>
    obtain ⟨q, u, h1, h2⟩ := ih
    obtain ⟨q', u', h3, h4⟩ := h1.next hB
    exact ⟨q', u', h3, by rw [inputs, h2, h4]⟩

/-- Every state in the history of a generator. -/
theorem Good.history {aes : Cipher} {B : Nat} {last : BitVec 64} (hB : 2 ≤ B) (ops : List Op) : ∀ (g : Gen) (key nonce : Block) (q u : Nat),
    Good aes B key nonce last g q u → ∃ key nonce q u, Good aes B key nonce last (history aes g ops) q u := by
  induction ops with
  | nil => intro g key nonce q u h; exact ⟨key, nonce, q, u, h⟩
  | cons op ops ih =>
    intro g key nonce q u h
    cases op with
    | call =>
      obtain ⟨q', u', h1, -⟩ := h.next hB
      exact ih _ _ _ _ _ h1
    | seed s =>
      by_cases hs : 32 ≤ s.length
      · obtain ⟨-, h2⟩ := seed_at aes g s hs last (by rw [h.at_.len_]; exact h.at_.last_)
        rw [h.at_.len_] at h2
        exact ih _ _ _ 0 B ⟨h2, le_rfl, fun _ => rfl, by simp⟩
      · refine ih _ key nonce q u ?_
        unfold RNG.seed stateSize
        rw [if_pos (by omega)]
        exact h

/-- Two generators that were just seeded in the same way behave in the same way. -/
theorem filled_congr (aes : Cipher) (key c : Block) (b b' : List (BitVec 64)) (hl : b.length = b'.length)
    (h : b.length % 2 = 1 → b[b.length - 1]? = b'[b.length - 1]?) : filled aes key c b = filled aes key c b' := by
  unfold filled
  rw [← hl]
  apply tab_congr
  intro r hr
  by_cases h1 : r < 2 * (b.length / 2)
  · rw [if_pos h1, if_pos h1]
  · rw [if_neg h1, if_neg h1]
    have : r = b.length - 1 := by omega
    rw [List.getD_eq_getElem?_getD, List.getD_eq_getElem?_getD, this, h (by omega)]

theorem next_congr {aes : Cipher} {B : Nat} {key nonce : Block} {last : BitVec 64} {g g' : Gen}
    (h : At aes B key nonce last g 0 B) (h' : At aes B key nonce last g' 0 B) :
    next aes g = next aes g' ∨ ((next aes g).1 = (next aes g').1 ∧ (next aes g).2 = g ∧ (next aes g').2 = g') := by
  have hb : filled aes g.key g.nonce g.buffer = filled aes g'.key g'.nonce g'.buffer := by
    rw [h.key_, h.nonce_, h'.key_, h'.nonce_]
    exact filled_congr _ _ _ _ _ (by rw [h.len_, h'.len_]) (by rw [h.len_]; intro ho; rw [h.last_ ho, h'.last_ ho])
  by_cases ho : ((B / 2 : Nat) : Int) ≥ 2 ^ 63
  · right
    have e : ∀ x : Gen, At aes B key nonce last x 0 B → next aes x = (.ub "refill", x) := by
      intro x hx
      unfold next
      rw [if_pos (by rw [hx.used_, hx.len_]), refill_eq', if_pos (by rw [hx.counter_, hx.len_]; simpa using ho)]
    rw [e g h, e g' h']
    exact ⟨rfl, rfl, rfl⟩
  · left
    unfold next
    rw [if_pos (by rw [h.used_, h.len_]), if_pos (by rw [h'.used_, h'.len_])]
    rw [refill_eq aes g (by rw [h.counter_, h.len_]; simpa using ho), refill_eq aes g' (by rw [h'.counter_, h'.len_]; simpa using ho)]
    rw [hb]
    simp only [h.nonce_, h'.nonce_, h.len_, h'.len_, h.counter_, h'.counter_, h.key_, h'.key_]

theorem call_congr {aes : Cipher} {B : Nat} {key nonce : Block} {last : BitVec 64} {g g' : Gen}
    (h : At aes B key nonce last g 0 B) (h' : At aes B key nonce last g' 0 B) (n : Nat) : call aes g n = call aes g' n := by
  have key : ∀ n, (after aes g n = g ∧ after aes g' n = g') ∨ after aes g n = after aes g' n := by
    intro n
    induction n with
    | zero => left; exact ⟨rfl, rfl⟩
    | succ n ih =>
      show ((next aes (after aes g n)).2 = g ∧ (next aes (after aes g' n)).2 = g') ∨ (next aes (after aes g n)).2 = (next aes (after aes g' n)).2
      rcases ih with ⟨h1, h2⟩ | h1
      · rw [h1, h2]
        rcases next_congr h h' with h3 | ⟨-, h3, h4⟩
        · right; rw [h3]
        · left; exact ⟨h3, h4⟩
      · right; rw [h1]
  unfold call
  rcases key n with ⟨h1, h2⟩ | h1
  · rw [h1, h2]
    rcases next_congr h h' with h3 | ⟨h3, -, -⟩
    · rw [h3]
    · exact h3
  · rw [h1]

end DVO.RNG
