/-
AES is injective for every key.
-/
import Verif.Spec.AES
import Mathlib.Data.Nat.Bitwise

namespace DVO.AES

/-- All four are bytes. -/
def Column.Bytes (x : Column) : Prop := x.a < 256 ∧ x.b < 256 ∧ x.c < 256 ∧ x.d < 256

/-- All sixteen are bytes. -/
def State.Bytes (s : State) : Prop := s.c0.Bytes ∧ s.c1.Bytes ∧ s.c2.Bytes ∧ s.c3.Bytes

theorem xor_byte {a b : Nat} (ha : a < 256) (hb : b < 256) : a ^^^ b < 256 := Nat.xor_lt_two_pow (n := 8) ha hb

theorem sub_byte (b : Nat) : sub b < 256 := Nat.mod_lt _ (by decide)

theorem xtime_byte : ∀ b < 256, xtime b < 256 := by decide +kernel

/-- The inverse of the S-box. -/
def unsbox : Nat := 0x7d0c2155631469e126d677ba7e042b17619953833cbbebc8b0f52aae4d3be0a0ef9cc9939f7ae52d0d4ab519a97f51605fec8027591012b131c7078833a8dd1ff45acd78fec0db9a2079d2c64b3e56fc1bbe18aa0e62b76f89c5291d711af1476edf751ce837f9e28535ade72274ac9673e6b4f0cecff297eadc674f4111913a6b8a130103bdafc1020f3fca8f1e2cd00645b3b80558e4f70ad3bc8c00abd890849d8da75746155edab9edfd5048706c92b6655dcc5ca4d41698688664f6f87225d18b6d49a25b76b224d92866a12e084ec3fa420b954cee3d23c2a632947b54cbe9dec444438e3487ff2f9b8239e37cfbd7f3819ea340bf38a53630d56a0952

theorem unsub : ∀ a < 256, Nat.shiftRight unsbox (8 * sub a) % 256 = a := by decide +kernel

theorem sub_inj' (a : Nat) (ha : a < 256) (b : Nat) (hb : b < 256) (h : sub a = sub b) : a = b := by
  have h1 := unsub a ha
  rw [h, unsub b hb] at h1
  exact h1.symm

theorem xor_four (p q r s : Nat) : (p ^^^ q) ^^^ (r ^^^ s) = (p ^^^ r) ^^^ (q ^^^ s) := by
  simp only [Nat.xor_assoc, Nat.xor_left_comm q r s]

theorem xtime_xor {a b : Nat} (ha : a < 256) (hb : b < 256) : xtime (a ^^^ b) = xtime a ^^^ xtime b := by
  unfold xtime
  show (2 * (a ^^^ b)) ^^^ ((a ^^^ b) / 128 * 0x11b) = ((2 * a) ^^^ (a / 128 * 0x11b)) ^^^ ((2 * b) ^^^ (b / 128 * 0x11b))
  have h1 : 2 * (a ^^^ b) = 2 * a ^^^ 2 * b := by
    have := Nat.shiftLeft_xor_distrib (a := a) (b := b) (i := 1)
    simpa only [Nat.shiftLeft_eq, pow_one, Nat.mul_comm] using this
  have h2 : (a ^^^ b) / 128 = a / 128 ^^^ b / 128 := by
    have := Nat.shiftRight_xor_distrib (a := a) (b := b) (i := 7)
    simpa only [Nat.shiftRight_eq_div_pow] using this
  have h3 : (a / 128 ^^^ b / 128) * 0x11b = a / 128 * 0x11b ^^^ b / 128 * 0x11b := by
    have ea : a / 128 = 0 ∨ a / 128 = 1 := by omega
    have eb : b / 128 = 0 ∨ b / 128 = 1 := by omega
    rcases ea with ea | ea <;> rcases eb with eb | eb <;> rw [ea, eb] <;> rfl
  rw [h1, h2, h3]
  exact xor_four _ _ _ _

theorem mixByte_eq {a b : Nat} (ha : a < 256) (hb : b < 256) (c d : Nat) : mixByte a b c d = xtime (a ^^^ b) ^^^ (b ^^^ (c ^^^ d)) := by
  rw [xtime_xor ha hb]
  show (xtime a ^^^ (xtime b ^^^ b)) ^^^ (c ^^^ d) = _
  simp only [Nat.xor_assoc]

/-- Cancellation in sums of three. -/
theorem xor_left {a b c : Nat} (h : a ^^^ b = a ^^^ c) : b = c := Nat.xor_right_injective h

theorem mix_inj {x y : Column} (hx : x.Bytes) (hy : y.Bytes) (h : x.mix = y.mix) : x = y := by
  obtain ⟨a, b, c, d⟩ := x
  obtain ⟨a', b', c', d'⟩ := y
  obtain ⟨h1, h2, h3, h4⟩ := hx
  obtain ⟨k1, k2, k3, k4⟩ := hy
  simp only [Column.mix, Column.mk.injEq] at *
  obtain ⟨e1, e2, e3, e4⟩ := h
  rw [mixByte_eq h1 h2, mixByte_eq k1 k2] at e1
  rw [mixByte_eq h2 h3, mixByte_eq k2 k3] at e2
  rw [mixByte_eq h3 h4, mixByte_eq k3 k4] at e3
  rw [mixByte_eq h4 h1, mixByte_eq k4 k1] at e4
  have x1 : ∀ {p q r s : Nat}, p < 256 → q < 256 → r < 256 → s < 256 → xtime (p ^^^ q) ^^^ xtime (r ^^^ s) = xtime ((p ^^^ q) ^^^ (r ^^^ s)) := fun hp hq hr hs =>
    (xtime_xor (xor_byte hp hq) (xor_byte hr hs)).symm
  -- the sum of all four bytes
  have t : a ^^^ b ^^^ c ^^^ d = a' ^^^ b' ^^^ c' ^^^ d' := by
    have := congrArg₂ (· ^^^ ·) (congrArg₂ (· ^^^ ·) e1 e3) (congrArg₂ (· ^^^ ·) e2 e4)
    have key : ∀ {a b c d : Nat}, a < 256 → b < 256 → c < 256 → d < 256 → ((xtime (a ^^^ b) ^^^ (b ^^^ (c ^^^ d))) ^^^ (xtime (c ^^^ d) ^^^ (d ^^^ (a ^^^ b)))) ^^^
        ((xtime (b ^^^ c) ^^^ (c ^^^ (d ^^^ a))) ^^^ (xtime (d ^^^ a) ^^^ (a ^^^ (b ^^^ c)))) = a ^^^ b ^^^ c ^^^ d := by
      intro a b c d h1 h2 h3 h4
      rw [xtime_xor h1 h2, xtime_xor h3 h4, xtime_xor h2 h3, xtime_xor h4 h1]
      refine Nat.eq_of_testBit_eq fun i => ?_
      simp only [Nat.testBit_xor]
      generalize Nat.testBit a i = p
      generalize Nat.testBit b i = q
      generalize Nat.testBit c i = r
      generalize Nat.testBit d i = s
      generalize Nat.testBit (xtime a) i = p'
      generalize Nat.testBit (xtime b) i = q'
      generalize Nat.testBit (xtime c) i = r'
      generalize Nat.testBit (xtime d) i = s'
      revert p q r s p' q' r' s'
      decide
    rwa [key h1 h2 h3 h4, key k1 k2 k3 k4] at this
  -- the sum of the first and the third
  have u : a ^^^ c = a' ^^^ c' := by
    have := congrArg₂ (· ^^^ ·) e1 e3
    have key : ∀ {a b c d : Nat}, a < 256 → b < 256 → c < 256 → d < 256 →
        (xtime (a ^^^ b) ^^^ (b ^^^ (c ^^^ d))) ^^^ (xtime (c ^^^ d) ^^^ (d ^^^ (a ^^^ b))) = xtime (a ^^^ b ^^^ c ^^^ d) ^^^ (a ^^^ c) := by
      intro a b c d h1 h2 h3 h4
      rw [xtime_xor (xor_byte (xor_byte h1 h2) h3) h4, xtime_xor (xor_byte h1 h2) h3, xtime_xor h1 h2, xtime_xor h3 h4]
      refine Nat.eq_of_testBit_eq fun i => ?_
      simp only [Nat.testBit_xor]
      generalize Nat.testBit a i = p
      generalize Nat.testBit b i = q
      generalize Nat.testBit c i = r
      generalize Nat.testBit d i = s
      generalize Nat.testBit (xtime a) i = p'
      generalize Nat.testBit (xtime b) i = q'
      generalize Nat.testBit (xtime c) i = r'
      generalize Nat.testBit (xtime d) i = s'
      revert p q r s p' q' r' s'
      decide
    rw [key h1 h2 h3 h4, key k1 k2 k3 k4, t] at this
    exact xor_left this
  -- of the first and the second
  have v : a ^^^ b = a' ^^^ b' := by
    have := congrArg₂ (· ^^^ ·) e1 e2
    have key : ∀ {a b c d : Nat}, a < 256 → b < 256 → c < 256 → d < 256 →
        (xtime (a ^^^ b) ^^^ (b ^^^ (c ^^^ d))) ^^^ (xtime (b ^^^ c) ^^^ (c ^^^ (d ^^^ a))) = xtime (a ^^^ c) ^^^ (a ^^^ b) := by
      intro a b c d h1 h2 h3 h4
      rw [xtime_xor h1 h2, xtime_xor h2 h3, xtime_xor h1 h3]
      refine Nat.eq_of_testBit_eq fun i => ?_
      simp only [Nat.testBit_xor]
      generalize Nat.testBit a i = p
      generalize Nat.testBit b i = q
      generalize Nat.testBit c i = r
      generalize Nat.testBit d i = s
      generalize Nat.testBit (xtime a) i = p'
      generalize Nat.testBit (xtime b) i = q'
      generalize Nat.testBit (xtime c) i = r'
      revert p q r s p' q' r'
      decide
    rw [key h1 h2 h3 h4, key k1 k2 k3 k4, u] at this
    exact xor_left this
  have w : a = a' := by
    have key : ∀ a b c d : Nat, b ^^^ (c ^^^ d) = (a ^^^ b ^^^ c ^^^ d) ^^^ a := by
      intro a b c d
      refine Nat.eq_of_testBit_eq fun i => ?_
      simp only [Nat.testBit_xor]
      generalize Nat.testBit a i = p
      generalize Nat.testBit b i = q
      generalize Nat.testBit c i = r
      generalize Nat.testBit d i = s
      revert p q r s
      decide
    rw [v, key a b c d, key a' b' c' d', t] at e1
    exact xor_left (xor_left e1)
  subst w
  have hb := xor_left v
  have hc := xor_left u
  subst hb hc
  exact ⟨rfl, rfl, rfl, xor_left t⟩

theorem mix_bytes {x : Column} (hx : x.Bytes) : x.mix.Bytes := by
  obtain ⟨a, b, c, d⟩ := x
  obtain ⟨h1, h2, h3, h4⟩ := hx
  have key : ∀ {a b c d : Nat}, a < 256 → b < 256 → c < 256 → d < 256 → mixByte a b c d < 256 := fun h1 h2 h3 h4 =>
    xor_byte (xor_byte (xtime_byte _ h1) (xor_byte (xtime_byte _ h2) h2)) (xor_byte h3 h4)
  exact ⟨key h1 h2 h3 h4, key h2 h3 h4 h1, key h3 h4 h1 h2, key h4 h1 h2 h3⟩

theorem col_xor_bytes {x y : Column} (hx : x.Bytes) (hy : y.Bytes) : (x.xor y).Bytes :=
  ⟨xor_byte hx.1 hy.1, xor_byte hx.2.1 hy.2.1, xor_byte hx.2.2.1 hy.2.2.1, xor_byte hx.2.2.2 hy.2.2.2⟩

theorem xor_bytes {s k : State} (hs : s.Bytes) (hk : k.Bytes) : (s.xor k).Bytes :=
  ⟨col_xor_bytes hs.1 hk.1, col_xor_bytes hs.2.1 hk.2.1, col_xor_bytes hs.2.2.1 hk.2.2.1, col_xor_bytes hs.2.2.2 hk.2.2.2⟩

theorem col_sub_bytes (x : Column) : (x.map sub).Bytes := ⟨sub_byte _, sub_byte _, sub_byte _, sub_byte _⟩

theorem sub_bytes (s : State) : s.sub.Bytes := ⟨col_sub_bytes _, col_sub_bytes _, col_sub_bytes _, col_sub_bytes _⟩

theorem shift_bytes {s : State} (h : s.Bytes) : s.shift.Bytes := by
  obtain ⟨h0, h1, h2, h3⟩ := h
  exact ⟨⟨h0.1, h1.2.1, h2.2.2.1, h3.2.2.2⟩, ⟨h1.1, h2.2.1, h3.2.2.1, h0.2.2.2⟩, ⟨h2.1, h3.2.1, h0.2.2.1, h1.2.2.2⟩, ⟨h3.1, h0.2.1, h1.2.2.1, h2.2.2.2⟩⟩

theorem mixAll_bytes {s : State} (h : s.Bytes) : (s.map Column.mix).Bytes := ⟨mix_bytes h.1, mix_bytes h.2.1, mix_bytes h.2.2.1, mix_bytes h.2.2.2⟩

theorem col_xor_inj {x y k : Column} (h : x.xor k = y.xor k) : x = y := by
  simp only [Column.xor, Column.mk.injEq] at h
  have key : ∀ {p q r : Nat}, Nat.xor p r = Nat.xor q r → p = q := fun {p q r} h => Nat.xor_left_injective h
  exact Column.ext (key h.1) (key h.2.1) (key h.2.2.1) (key h.2.2.2)

theorem xor_inj {s t k : State} (h : s.xor k = t.xor k) : s = t := by
  simp only [State.xor, State.mk.injEq] at h
  exact State.ext (col_xor_inj h.1) (col_xor_inj h.2.1) (col_xor_inj h.2.2.1) (col_xor_inj h.2.2.2)

theorem col_sub_inj {x y : Column} (hx : x.Bytes) (hy : y.Bytes) (h : x.map sub = y.map sub) : x = y := by
  simp only [Column.map, Column.mk.injEq] at h
  exact Column.ext (sub_inj' _ hx.1 _ hy.1 h.1) (sub_inj' _ hx.2.1 _ hy.2.1 h.2.1) (sub_inj' _ hx.2.2.1 _ hy.2.2.1 h.2.2.1) (sub_inj' _ hx.2.2.2 _ hy.2.2.2 h.2.2.2)

theorem map_inj {f : Column → Column} (hf : ∀ x y : Column, x.Bytes → y.Bytes → f x = f y → x = y) {s t : State} (hs : s.Bytes) (ht : t.Bytes) (h : s.map f = t.map f) : s = t := by
  simp only [State.map, State.mk.injEq] at h
  exact State.ext (hf _ _ hs.1 ht.1 h.1) (hf _ _ hs.2.1 ht.2.1 h.2.1) (hf _ _ hs.2.2.1 ht.2.2.1 h.2.2.1) (hf _ _ hs.2.2.2 ht.2.2.2 h.2.2.2)

theorem shift_inj {s t : State} (h : s.shift = t.shift) : s = t := by
  obtain ⟨⟨_, _, _, _⟩, ⟨_, _, _, _⟩, ⟨_, _, _, _⟩, ⟨_, _, _, _⟩⟩ := s
  obtain ⟨⟨_, _, _, _⟩, ⟨_, _, _, _⟩, ⟨_, _, _, _⟩, ⟨_, _, _, _⟩⟩ := t
  simp only [State.shift, State.mk.injEq, Column.mk.injEq] at h ⊢
  simp only [h, and_self]

theorem rounds_inj : ∀ {keys : List State}, (∀ k ∈ keys, k.Bytes) → ∀ {s t : State}, s.Bytes → t.Bytes → rounds keys s = rounds keys t → s = t
  | [], _, _, _, _, _, h => h
  | [k], _, _, _, hs, ht, h => map_inj (fun _ _ => col_sub_inj) hs ht (shift_inj (xor_inj h))
  | k :: k' :: keys, hk, s, t, hs, ht, h => by
    have hb : ∀ s : State, ((s.sub.shift.map Column.mix).xor k).Bytes := fun s => xor_bytes (mixAll_bytes (shift_bytes (sub_bytes s))) (hk k List.mem_cons_self)
    have := rounds_inj (keys := k' :: keys) (fun q hq => hk q (List.mem_cons_of_mem _ hq)) (hb s) (hb t) (by unfold rounds at h; exact h)
    exact map_inj (fun _ _ => col_sub_inj) hs ht (shift_inj (map_inj (fun _ _ => mix_inj) (shift_bytes (sub_bytes s)) (shift_bytes (sub_bytes t)) (xor_inj this)))

theorem rounds_bytes : ∀ {keys : List State}, (∀ k ∈ keys, k.Bytes) → ∀ {s : State}, s.Bytes → (rounds keys s).Bytes
  | [], _, _, hs => hs
  | [k], hk, s, _ => xor_bytes (shift_bytes (sub_bytes s)) (hk k List.mem_cons_self)
  | k :: k' :: keys, hk, s, _ => by
    unfold rounds
    exact rounds_bytes (keys := k' :: keys) (fun q hq => hk q (List.mem_cons_of_mem _ hq)) (xor_bytes (mixAll_bytes (shift_bytes (sub_bytes s))) (hk k List.mem_cons_self))

theorem next_bytes {rc : Nat} (hr : rc < 256) {k : State} (h : k.Bytes) : (k.next rc).Bytes := by
  have ht : Column.Bytes ⟨Nat.xor (sub k.c3.b) rc, sub k.c3.c, sub k.c3.d, sub k.c3.a⟩ := ⟨xor_byte (sub_byte _) hr, sub_byte _, sub_byte _, sub_byte _⟩
  have h0 := col_xor_bytes h.1 ht
  have h1 := col_xor_bytes h.2.1 h0
  have h2 := col_xor_bytes h.2.2.1 h1
  exact ⟨h0, h1, h2, col_xor_bytes h.2.2.2 h2⟩

theorem expand_bytes {rcs : List Nat} (hr : ∀ rc ∈ rcs, rc < 256) : ∀ {k : State}, k.Bytes → ∀ q ∈ expand rcs k, q.Bytes := by
  induction rcs with
  | nil => intro k _ q hq; cases hq
  | cons rc rcs ih =>
    intro k hk q hq
    have hn := next_bytes (hr rc List.mem_cons_self) hk
    rcases List.mem_cons.1 hq with rfl | hq
    · exact hn
    · exact ih (fun r h => hr r (List.mem_cons_of_mem _ h)) hn q hq

theorem byte_lt (n i : Nat) : byte n i < 256 := Nat.mod_lt _ (by decide)

theorem load_bytes (n : Nat) : (load n).Bytes :=
  ⟨⟨byte_lt _ _, byte_lt _ _, byte_lt _ _, byte_lt _ _⟩, ⟨byte_lt _ _, byte_lt _ _, byte_lt _ _, byte_lt _ _⟩, ⟨byte_lt _ _, byte_lt _ _, byte_lt _ _, byte_lt _ _⟩,
    byte_lt _ _, byte_lt _ _, byte_lt _ _, byte_lt _ _⟩

theorem col_value_lt {x : Column} (h : x.Bytes) : x.value < 2 ^ 32 := by
  obtain ⟨h1, h2, h3, h4⟩ := h
  unfold Column.value
  omega

theorem value_lt {s : State} (h : s.Bytes) : s.value < 2 ^ 128 := by
  have h0 := col_value_lt h.1
  have h1 := col_value_lt h.2.1
  have h2 := col_value_lt h.2.2.1
  have h3 := col_value_lt h.2.2.2
  unfold State.value
  omega

theorem col_value_inj {x y : Column} (hx : x.Bytes) (hy : y.Bytes) (h : x.value = y.value) : x = y := by
  obtain ⟨h1, h2, h3, h4⟩ := hx
  obtain ⟨k1, k2, k3, k4⟩ := hy
  unfold Column.value at h
  have e1 : x.a = y.a := by omega
  have e2 : x.b = y.b := by omega
  have e3 : x.c = y.c := by omega
  exact Column.ext e1 e2 e3 (by omega)

theorem value_inj {s t : State} (hs : s.Bytes) (ht : t.Bytes) (h : s.value = t.value) : s = t := by
  have h0 := col_value_lt hs.1
  have h1 := col_value_lt hs.2.1
  have h2 := col_value_lt hs.2.2.1
  have k0 := col_value_lt ht.1
  have k1 := col_value_lt ht.2.1
  have k2 := col_value_lt ht.2.2.1
  unfold State.value at h
  have e0 : s.c0.value = t.c0.value := by omega
  have e1 : s.c1.value = t.c1.value := by omega
  have e2 : s.c2.value = t.c2.value := by omega
  exact State.ext (col_value_inj hs.1 ht.1 e0) (col_value_inj hs.2.1 ht.2.1 e1) (col_value_inj hs.2.2.1 ht.2.2.1 e2) (col_value_inj hs.2.2.2 ht.2.2.2 (by omega))

theorem col_load (n i : Nat) : Column.value ⟨byte n i, byte n (i + 1), byte n (i + 2), byte n (i + 3)⟩ = n / 2 ^ (8 * i) % 2 ^ 32 := by
  unfold Column.value byte
  show n >>> (8 * i) % 256 + 256 * (n >>> (8 * (i + 1)) % 256 + 256 * (n >>> (8 * (i + 2)) % 256 + 256 * (n >>> (8 * (i + 3)) % 256))) = _
  simp only [Nat.shiftRight_eq_div_pow, Nat.mul_add, Nat.pow_add, ← Nat.div_div_eq_div_mul]
  generalize n / 2 ^ (8 * i) = m
  omega

theorem value_load {n : Nat} (hn : n < 2 ^ 128) : (load n).value = n := by
  unfold State.value load
  dsimp only
  rw [col_load n 0, col_load n 4, col_load n 8, col_load n 12]
  omega

theorem encrypt_inj (key : Block) {x y : Block} (h : encrypt key x = encrypt key y) : x = y := by
  unfold encrypt cipher at h
  have hk := load_bytes key.toNat
  have hks : ∀ q ∈ expand rcons (load key.toNat), q.Bytes := expand_bytes (by decide) hk
  have hx := xor_bytes (load_bytes x.toNat) hk
  have hy := xor_bytes (load_bytes y.toNat) hk
  have h2 := congrArg BitVec.toNat h
  rw [BitVec.toNat_ofNat, BitVec.toNat_ofNat, Nat.mod_eq_of_lt (value_lt (rounds_bytes hks hx)), Nat.mod_eq_of_lt (value_lt (rounds_bytes hks hy))] at h2
  have h3 := xor_inj (rounds_inj hks hx hy (value_inj (rounds_bytes hks hx) (rounds_bytes hks hy) h2))
  have h4 := congrArg State.value h3
  rw [value_load x.isLt, value_load y.isLt] at h4
  exact BitVec.eq_of_toNat_eq h4

end DVO.AES
