/-
C52: signed overflow in the arithmetic on elements.
-/
import Verif.Model.Promotion


namespace DVO.Promotion

theorem unsigned_nat {w : Nat} (n : Nat) (h : 32 ≤ w ∨ n < 2 ^ 31) : unsigned w (n : Int) = .ok (BitVec.ofNat w n) := by
  unfold unsigned
  rw [if_neg (by rintro ⟨h1, h2 | h2⟩ <;> omega)]
  congr 1

/-- C52: the exact condition under which the product of two elements of an unsigned type of `w` bits is
    undefined; otherwise it is the product modulo `2^w`. -/
theorem C52_mul {w : Nat} (a b : BitVec w) :
    (w < 32 ∧ 2 ^ 31 ≤ a.toNat * b.toNat ∧ mul a b = .ub "signed integer overflow") ∨
    ((32 ≤ w ∨ a.toNat * b.toNat < 2 ^ 31) ∧ mul a b = .ok (a * b)) := by
  by_cases h : w < 32 ∧ 2 ^ 31 ≤ a.toNat * b.toNat
  · refine .inl ⟨h.1, h.2, ?_⟩
    unfold mul unsigned
    rw [if_pos ⟨h.1, .inr (by exact_mod_cast h.2)⟩]
  · have h' : 32 ≤ w ∨ a.toNat * b.toNat < 2 ^ 31 := by
      rcases Nat.lt_or_ge w 32 with h1 | h1
      · exact .inr (by by_contra h2; exact h ⟨h1, by omega⟩)
      · exact .inl h1
    refine .inr ⟨h', ?_⟩
    unfold mul
    rw [show (a.toNat : Int) * (b.toNat : Int) = ((a.toNat * b.toNat : Nat) : Int) by push_cast; rfl, unsigned_nat _ h']
    congr 1

/-- C52 is false of `uint16_t`: 65535 * 65535 overflows `int`. -/
theorem C52_false : mul (65535#16) (65535#16) = .ub "signed integer overflow" := by decide +kernel

/-- C52 for all other unsigned types: multiplication is never undefined (types of less than 16 bits, in
    particular `uint8_t`, or of at least 32 bits). -/
theorem C52_other_types_partial {w : Nat} (h : w < 16 ∨ 32 ≤ w) (a b : BitVec w) : mul a b = .ok (a * b) := by
  rcases C52_mul a b with ⟨h1, h2, _⟩ | h'
  · have ha := a.isLt
    have hb := b.isLt
    have hw : 2 ^ w ≤ 2 ^ 15 := Nat.pow_le_pow_right (by omega) (by omega)
    have : a.toNat * b.toNat < 2 ^ 15 * 2 ^ 15 := Nat.mul_lt_mul'' (by omega) (by omega)
    omega
  · exact h'.2

/-- C52: addition and subtraction are never undefined, for `uint16_t` as for the others. -/
theorem C52_add_sub {w : Nat} (h : w ≤ 30 ∨ 32 ≤ w) (a b : BitVec w) : add a b = .ok (a + b) ∧ sub a b = .ok (a - b) := by
  have ha := a.isLt
  have hb := b.isLt
  have hw : w ≤ 30 → 2 ^ w ≤ 2 ^ 30 := fun h => Nat.pow_le_pow_right (by omega) h
  constructor
  · unfold add
    rw [show (a.toNat : Int) + (b.toNat : Int) = ((a.toNat + b.toNat : Nat) : Int) by push_cast; rfl, unsigned_nat]
    · congr 1
    · rcases h with h | h
      · have := hw h; exact .inr (by omega)
      · exact .inl h
  · unfold sub unsigned
    rw [if_neg]
    · congr 1
      rw [sub_eq_add_neg, BitVec.ofInt_add, BitVec.ofInt_neg, BitVec.ofInt_natCast, BitVec.ofInt_natCast]
      simp [sub_eq_add_neg]
    · rintro ⟨h1, h2⟩
      have := hw (by omega)
      omega

/-- C52 for signed types, which the library also accepts: both operations can overflow. -/
theorem C52_signed_false : smul (65536#32) (65536#32) = .ub "signed integer overflow" ∧
    sadd (2147483647#32) (1#32) = .ub "signed integer overflow" := by decide +kernel

/-- C52: the exact conditions for signed types: the result is undefined if it does not fit in the promoted type (of
    `max w 32` bits), otherwise it is that modulo `2^w`. -/
theorem C52_signed {w : Nat} (a b : BitVec w) :
    ((-2 ^ (max w 32 - 1) ≤ a.toInt * b.toInt ∧ a.toInt * b.toInt < 2 ^ (max w 32 - 1) → smul a b = .ok (a * b)) ∧
      (¬ (-2 ^ (max w 32 - 1) ≤ a.toInt * b.toInt ∧ a.toInt * b.toInt < 2 ^ (max w 32 - 1)) → smul a b = .ub "signed integer overflow")) ∧
    ((-2 ^ (max w 32 - 1) ≤ a.toInt + b.toInt ∧ a.toInt + b.toInt < 2 ^ (max w 32 - 1) → sadd a b = .ok (a + b)) ∧
      (¬ (-2 ^ (max w 32 - 1) ≤ a.toInt + b.toInt ∧ a.toInt + b.toInt < 2 ^ (max w 32 - 1)) → sadd a b = .ub "signed integer overflow")) := by
  refine ⟨⟨fun h => ?_, fun h => ?_⟩, ⟨fun h => ?_, fun h => ?_⟩⟩
  · unfold smul signed
    rw [if_neg (by omega), BitVec.ofInt_mul, BitVec.ofInt_toInt, BitVec.ofInt_toInt]
  · unfold smul signed
    rw [if_pos (by omega)]
  · unfold sadd signed
    rw [if_neg (by omega), BitVec.ofInt_add, BitVec.ofInt_toInt, BitVec.ofInt_toInt]
  · unfold sadd signed
    rw [if_pos (by omega)]

/-- C52 for `int8_t` and `int16_t`: neither operation is ever undefined. -/
theorem C52_signed_narrow_partial {w : Nat} (hw : w ≤ 16) (a b : BitVec w) : smul a b = .ok (a * b) ∧ sadd a b = .ok (a + b) := by
  have bound : ∀ a : BitVec w, -2 ^ 15 ≤ a.toInt ∧ a.toInt ≤ 2 ^ 15 := by
    intro a
    have h1 := BitVec.le_toInt a
    have h2 := BitVec.toInt_le (x := a)
    have h3 : (2 : Int) ^ (w - 1) ≤ 2 ^ 15 := pow_le_pow_right₀ (by omega) (by omega)
    omega
  obtain ⟨a1, a2⟩ := bound a
  obtain ⟨b1, b2⟩ := bound b
  have hm : (2 : Int) ^ (max w 32 - 1) = 2 ^ 31 := by rw [Nat.max_eq_right (by omega)]
  have hab : |a.toInt * b.toInt| ≤ 2 ^ 15 * 2 ^ 15 := by
    rw [abs_mul]
    exact mul_le_mul (abs_le.2 ⟨a1, a2⟩) (abs_le.2 ⟨b1, b2⟩) (abs_nonneg _) (by omega)
  rw [abs_le] at hab
  obtain ⟨h1, h2⟩ := C52_signed a b
  rw [hm] at h1 h2
  exact ⟨h1.1 (by omega), h2.1 (by omega)⟩

/-- Both cases, and the extreme products of `int16_t`. -/
example : smul (0xFFFFFFFF#32) (5#32) = .ok (0xFFFFFFFB#32) ∧ smul (0x8000#16) (0x8000#16) = .ok 0 ∧
    smul (0xFFFF#16) (0x7FFF#16) = .ok (0x8001#16) ∧ sadd (0x7F#8) (1#8) = .ok (0x80#8) ∧
    smul (0x8000000000000000#64) (0xFFFFFFFFFFFFFFFF#64) = .ub "signed integer overflow" :=
  ⟨(C52_signed _ _).1.1 (by decide), (C52_signed_narrow_partial (by omega) _ _).1, (C52_signed_narrow_partial (by omega) _ _).1,
    (C52_signed_narrow_partial (by omega) _ _).2, (C52_signed _ _).1.2 (by decide)⟩

/-- C52: the products of `SpanToEMPBlock` in Gilboa's protocol, where one factor is a power of two, never
    overflow, not even for `uint16_t`. -/
theorem C52_gilboa_mul {w : Nat} (h : w ≤ 16 ∨ 32 ≤ w) (a : BitVec w) (k : Nat) (hk : k < w) :
    mul a ((1 : BitVec w) <<< k) = .ok (a * ((1 : BitVec w) <<< k)) := by
  rcases C52_mul a ((1 : BitVec w) <<< k) with ⟨h1, h2, _⟩ | h'
  · exfalso
    have ha := a.isLt
    have hw : w ≤ 16 := by omega
    have h1' : ((1 : BitVec w) <<< k).toNat ≤ 2 ^ k := by
      rw [BitVec.toNat_shiftLeft, Nat.shiftLeft_eq]
      refine (Nat.mod_le _ _).trans ?_
      have : (1 : BitVec w).toNat ≤ 1 := by
        rw [BitVec.ofNat_eq_ofNat, BitVec.toNat_ofNat]; exact Nat.mod_le _ _
      calc _ ≤ 1 * 2 ^ k := Nat.mul_le_mul_right _ this
        _ = 2 ^ k := by omega
    have hk15 : 2 ^ k ≤ 2 ^ 15 := Nat.pow_le_pow_right (by omega) (by omega)
    have hw16 : 2 ^ w ≤ 2 ^ 16 := Nat.pow_le_pow_right (by omega) hw
    have : a.toNat * ((1 : BitVec w) <<< k).toNat ≤ (2 ^ 16 - 1) * 2 ^ 15 := Nat.mul_le_mul (by omega) (by omega)
    omega
  · exact h'.2

/-- C52: so `SpanToEMPBlock` computes what the model of Gilboa's protocol says. -/
theorem C52_gilboa {w : Nat} (h : w ≤ 16 ∨ 32 ≤ w) (v : List (BitVec w)) (k : Nat) (hk : k < w) :
    spanToBlock v ((1 : BitVec w) <<< k) = @Gilboa.spanToBlock _ (scalarUInt w) v ((1 : BitVec w) <<< k) := by
  unfold spanToBlock Gilboa.spanToBlock
  congr 1
  apply loop_congr
  intro i s _ _
  show (rd v (v.length - 1 - i) >>= fun x => mul x ((1 : BitVec w) <<< k) >>= fun temp => _) = (rd v (v.length - 1 - i) >>= fun x => _)
  congr 1
  funext x
  rw [C52_gilboa_mul h x k hk]
  rfl

theorem mapOut_mem {α β : Type} (f : α → Out β) {l : List α} {a : α} (ha : a ∈ l) (hl : ∀ b ∈ l, (∃ c, f b = .ok c) ∨ ∃ s, f b = .ub s)
    {s : String} (h : f a = .ub s) : ∃ s, VOLE.mapOut f l = .ub s := by
  induction l with
  | nil => cases ha
  | cons b l ih =>
    unfold VOLE.mapOut
    rcases hl b (by simp) with ⟨c, hc⟩ | ⟨s', hs'⟩
    · rw [hc]
      rcases List.mem_cons.1 ha with rfl | h1
      · rw [h] at hc; cases hc
      · obtain ⟨s', hs'⟩ := ih h1 (fun b hb => hl b (by simp [hb]))
        exact ⟨s', by rw [Out.ok_bind, hs']; rfl⟩
    · exact ⟨s', by rw [hs']; rfl⟩

theorem mapOut_ok {α β : Type} (f : α → Out β) (g : α → β) {l : List α} (hl : ∀ b ∈ l, f b = .ok (g b)) :
    VOLE.mapOut f l = .ok (l.map g) := by
  induction l with
  | nil => rfl
  | cons b l ih =>
    unfold VOLE.mapOut
    rw [hl b (by simp), ih (fun b hb => hl b (by simp [hb]))]
    rfl

/-- C52: the value shares of the MPFSS protocol are undefined for `uint16_t` exactly if one of the masked
    elements is too large for the value `x`; otherwise they are what the model says. -/
theorem C52_value_shares (x : BitVec 16) (y ws : List (BitVec 16)) (hl : y.length = ws.length) :
    ((∃ a ∈ y, 2 ^ 31 ≤ a.toNat * x.toNat) ∧ ∃ s, valueShares x y ws = .ub s) ∨
    ((∀ a ∈ y, a.toNat * x.toNat < 2 ^ 31) ∧ valueShares x y ws = MPFSS.valueShares x y ws) := by
  unfold valueShares MPFSS.valueShares
  rw [if_neg (by simp [hl]), if_neg (by simp [hl])]
  have hs : ∀ (a b : BitVec 16), sub a b = .ok (a - b) := fun a b => (C52_add_sub (by omega) a b).2
  by_cases h : ∃ a ∈ y, 2 ^ 31 ≤ a.toNat * x.toNat
  · refine .inl ⟨h, ?_⟩
    obtain ⟨a, ha, hx⟩ := h
    obtain ⟨i, hi, rfl⟩ := List.mem_iff_getElem.1 ha
    refine mapOut_mem _ (a := (y[i], ws[i]'(by omega))) (s := "signed integer overflow") ?_ ?_ ?_
    · rw [List.mem_iff_getElem]
      exact ⟨i, by simp; omega, by simp⟩
    · intro b _
      rcases C52_mul b.1 x with h' | h'
      · exact .inr ⟨_, by rw [h'.2.2]; rfl⟩
      · exact .inl ⟨_, by rw [h'.2, Out.ok_bind, hs]⟩
    · rcases C52_mul y[i] x with h' | h'
      · simp only [h'.2.2]; rfl
      · omega
  · refine .inr ⟨fun a ha => by by_contra h'; exact h ⟨a, ha, by omega⟩, ?_⟩
    rw [mapOut_ok _ (fun p => p.1 * x - p.2)]
    · rw [List.zip, List.map_zipWith]
    · intro b hb
      have hb1 : b.1 ∈ y := (List.of_mem_zip hb).1
      rcases C52_mul b.1 x with h' | h'
      · exact absurd ⟨b.1, hb1, h'.2.1⟩ h
      · rw [h'.2, Out.ok_bind, hs]

/-- C52: in the protocol the masked elements are `y + u` with random `u`. For every `x` of at least 32769
    there are masks with which the protocol runs into undefined behaviour. -/
theorem C52_value_shares_false (x y w : BitVec 16) (hx : 32769 ≤ x.toNat) : ∃ u s, valueShares x [y + u] [w] = .ub s := by
  refine ⟨65535#16 - y, ?_⟩
  rcases C52_value_shares x [y + (65535#16 - y)] [w] (by simp) with h | h
  · exact h.2
  · exfalso
    have := h.1 _ (List.mem_singleton.2 rfl)
    rw [show y + (65535#16 - y) = 65535#16 by rw [add_sub_cancel]] at this
    have e : (65535#16 : BitVec 16).toNat = 65535 := rfl
    rw [e] at this
    omega

/-- C52: for types other than `uint16_t` the product with the code generator is that of the rest of the
    model. -/
theorem C52_expand {w : Nat} (h : w < 16 ∨ 32 ≤ w) (u : List (BitVec w)) (col : List (Nat × BitVec w)) : colDot u col = @VOLE.colDot _ (scalarUInt w) u col := by
  letI := scalarUInt w
  induction col with
  | nil => rfl
  | cons e l ih =>
    obtain ⟨r, x⟩ := e
    unfold colDot VOLE.colDot
    rw [ih]
    cases rd u r with
    | ok a =>
      rw [Out.ok_bind, Out.ok_bind, C52_other_types_partial h, Out.ok_bind]
      cases VOLE.colDot u l with
      | ok b =>
        rw [Out.ok_bind, Out.ok_bind]
        exact (C52_add_sub (by omega) (a * x) b).1
      | _ => rfl
    | _ => rfl

/-- C52: for `uint16_t` it is so if no product reaches `2^31`; otherwise it is undefined. -/
theorem C52_expand16 (u : List (BitVec 16)) (col : List (Nat × BitVec 16)) (hr : ∀ e ∈ col, e.1 < u.length) :
    ((∀ e ∈ col, ∀ a, u[e.1]? = some a → a.toNat * e.2.toNat < 2 ^ 31) → colDot u col = VOLE.colDot u col) ∧
    ((∃ e ∈ col, ∃ a, u[e.1]? = some a ∧ 2 ^ 31 ≤ a.toNat * e.2.toNat) → ∃ s, colDot u col = .ub s) := by
  have hmul : ∀ a x : BitVec 16, a.toNat * x.toNat < 2 ^ 31 → mul a x = .ok (a * x) := by
    intro a x h
    unfold mul
    rw [show ((a.toNat : Int) * (x.toNat : Int)) = ((a.toNat * x.toNat : Nat) : Int) by push_cast; rfl, unsigned_nat _ (.inr h)]
    congr 1
  have hbad : ∀ a x : BitVec 16, 2 ^ 31 ≤ a.toNat * x.toNat → mul a x = .ub "signed integer overflow" := by
    intro a x h
    unfold mul unsigned
    rw [if_pos ⟨by omega, .inr (by exact_mod_cast h)⟩]
  have hall : ∀ col : List (Nat × BitVec 16), (∀ e ∈ col, e.1 < u.length) → (∃ x, colDot u col = .ok x) ∨ ∃ s, colDot u col = .ub s := by
    intro col
    induction col with
    | nil => intro _; exact .inl ⟨_, rfl⟩
    | cons e l ih =>
      obtain ⟨r, x⟩ := e
      intro hr
      have h1 : r < u.length := hr (r, x) (by simp)
      unfold colDot
      rw [rd_of_lt h1, Out.ok_bind]
      rcases Nat.lt_or_ge (u[r].toNat * x.toNat) (2 ^ 31) with h | h
      · rw [hmul _ _ h, Out.ok_bind]
        rcases ih (fun e he => hr e (by simp [he])) with ⟨y, e⟩ | ⟨s, e⟩
        · rw [e, Out.ok_bind]; exact .inl ⟨_, (C52_add_sub (by omega) _ _).1⟩
        · rw [e]; exact .inr ⟨s, rfl⟩
      · rw [hbad _ _ h]; exact .inr ⟨_, rfl⟩
  induction col with
  | nil => exact ⟨fun _ => rfl, by simp⟩
  | cons e l ih =>
    obtain ⟨r, x⟩ := e
    have h1 : r < u.length := hr (r, x) (by simp)
    obtain ⟨ih1, ih2⟩ := ih (fun e he => hr e (by simp [he]))
    have hg : u[r]? = some u[r] := List.getElem?_eq_getElem h1
    constructor
    · intro hlt
      unfold colDot VOLE.colDot
      rw [ih1 (fun e he => hlt e (by simp [he])), rd_of_lt h1, Out.ok_bind, Out.ok_bind, hmul _ _ (hlt (r, x) (by simp) _ hg), Out.ok_bind]
      cases VOLE.colDot u l with
      | ok b => rw [Out.ok_bind, Out.ok_bind]; exact (C52_add_sub (by omega) _ b).1
      | _ => rfl
    · rintro ⟨e, he, a, ha, hge⟩
      unfold colDot
      rw [rd_of_lt h1, Out.ok_bind]
      rcases Nat.lt_or_ge (u[r].toNat * x.toNat) (2 ^ 31) with h | h
      · rw [hmul _ _ h, Out.ok_bind]
        rcases List.mem_cons.1 he with rfl | he
        · rw [hg] at ha; cases ha; exact absurd hge (Nat.not_le.2 h)
        · obtain ⟨s, e⟩ := ih2 ⟨e, he, a, ha, hge⟩
          rw [e]; exact ⟨s, rfl⟩
      · rw [hbad _ _ h]; exact ⟨_, rfl⟩

/-- Both cases occur. -/
example : colDot [300#16, 7#16] [(0, 200#16), (1, 65535#16)] = .ok (60000#16 + 7#16 * 65535#16) ∧
    ∃ s, colDot [300#16, 65535#16] [(0, 200#16), (1, 65535#16)] = .ub s := by
  constructor
  · rw [(C52_expand16 _ _ (by simp)).1 (by simp)]; decide +kernel
  · exact (C52_expand16 _ _ (by simp)).2 ⟨(1, 65535#16), by simp, 65535#16, by simp, by decide⟩

/-- C52: the product with the code generator can overflow in the same way. -/
theorem C52_expand_false : colDot [65535#16] [(0, 65535#16)] = .ub "signed integer overflow" := by decide +kernel

/-- The hypotheses: the smallest such value of `x`, and a `uint16_t` in Gilboa's protocol. -/
example : (∃ u s, valueShares (32769#16) [0#16 + u] [0#16] = .ub s) ∧ mul (65535#16) ((1 : BitVec 16) <<< 15) = .ok (32768#16) ∧
    mul (255#8) (255#8) = .ok (1#8) ∧ mul (65535#32) (65537#32) = .ok (4294967295#32) := by
  refine ⟨C52_value_shares_false _ _ _ (by decide), ?_, ?_, ?_⟩
  · exact (C52_gilboa_mul (by omega) _ 15 (by omega)).trans (by decide)
  · exact (C52_other_types_partial (by omega) _ _).trans (by decide)
  · exact (C52_other_types_partial (by omega) _ _).trans (by decide)

end DVO.Promotion
