/-
Cuckoo hashing with arrays packed into numbers, which the kernel can run quickly.
-/
import Verif.Proofs.Cuckoo
import Mathlib.Tactic.Ring
import Mathlib.Algebra.Order.Ring.Nat

namespace DVO.Packed
open Cuckoo

/-- `k n`, evaluated after `n`. -/
def force {α : Type} (n : Nat) (k : Nat → α) : α :=
  match n with
  | 0 => k 0
  | m + 1 => k (Nat.succ m)

theorem force_eq {α : Type} (n : Nat) (k : Nat → α) : force n k = k n := by cases n <;> rfl

/-- A list of numbers below `W` as one number. -/
def pack (W : Nat) : List Nat → Nat
  | [] => 0
  | a :: l => a + W * pack W l

/-- Element `i`, if the elements have `w` bits. -/
def digit (w N i : Nat) : Nat := Nat.shiftRight N (w * i) % 2 ^ w

theorem pack_digit {w : Nat} {l : List Nat} (hl : ∀ a ∈ l, a < 2 ^ w) {i : Nat} (hi : i < l.length) : digit w (pack (2 ^ w) l) i = l[i] := by
  unfold digit
  rw [show Nat.shiftRight (pack (2 ^ w) l) (w * i) = pack (2 ^ w) l >>> (w * i) from rfl, Nat.shiftRight_eq_div_pow]
  induction l generalizing i with
  | nil => cases hi
  | cons a l ih =>
    have ha : a < 2 ^ w := hl a List.mem_cons_self
    cases i with
    | zero => simp only [pack, Nat.mul_zero, Nat.pow_zero, Nat.div_one, Nat.add_mul_mod_self_left, Nat.mod_eq_of_lt ha, List.getElem_cons_zero]
    | succ i =>
      rw [show w * (i + 1) = w + w * i by ring, Nat.pow_add, ← Nat.div_div_eq_div_mul, pack, Nat.add_mul_div_left _ _ (Nat.two_pow_pos w), Nat.div_eq_of_lt ha, Nat.zero_add,
        ih (fun b hb => hl b (List.mem_cons_of_mem _ hb)) (by simpa using hi), List.getElem_cons_succ]

theorem pack_set (W : Nat) {l : List Nat} {i : Nat} (hi : i < l.length) (v : Nat) : pack W (l.set i v) + l[i] * W ^ i = pack W l + v * W ^ i := by
  induction l generalizing i with
  | nil => cases hi
  | cons a l ih =>
    cases i with
    | zero => simp only [List.set_cons_zero, pack, List.getElem_cons_zero, pow_zero, mul_one]; ring
    | succ i =>
      have hi' : i < l.length := by simpa using hi
      have := ih hi'
      simp only [List.set_cons_succ, pack, List.getElem_cons_succ]
      calc a + W * pack W (l.set i v) + l[i] * W ^ (i + 1) = a + W * (pack W (l.set i v) + l[i] * W ^ i) := by ring
        _ = a + W * pack W l + v * W ^ (i + 1) := by rw [this]; ring

theorem pack_replicate (W n : Nat) : pack W (List.replicate n 0) = 0 := by
  induction n with
  | zero => rfl
  | succ n ih => rw [List.replicate_succ, pack, ih]; ring

/-- The inner loop of `HashCuckoo` on packed arrays: `B` has the number of the element plus one, or zero. -/
def insert (bucket : Nat → Nat → Nat) (k : Nat) : (rem e hf B N : Nat) → Option (Nat × Nat)
  | 0, _, _, _, _ => none
  | rem + 1, e, hf, B, N =>
    force (bucket e hf) fun ix => force (2 ^ (16 * ix)) fun p =>
    match digit 16 B ix with
    | 0 => force (B + (e + 1) * p) fun B => some (B, N)
    | b + 1 =>
      force b fun b => force (B + e * p - b * p) fun B => force (digit 16 N ix) fun nx => force (N + (hf + 1) % k * p - nx * p) fun N =>
      insert bucket k rem b nx B N

/-- The outer loop. -/
def insertAll (bucket : Nat → Nat → Nat) (k tries : Nat) : (left i B N : Nat) → Bool
  | 0, _, _, _ => true
  | left + 1, i, B, N =>
    match insert bucket k tries i 0 B N with
    | none => false
    | some (B, N) => force (i + 1) fun i => insertAll bucket k tries left i B N

/-- The packed arrays are those of the model. -/
structure Rep (n m k : Nat) (bs : List Int) (ns : List Nat) (B N : Nat) : Prop where
  blen : bs.length = n
  nlen : ns.length = n
  bval : ∀ b ∈ bs, -1 ≤ b ∧ b < m
  nval : ∀ a ∈ ns, a < k
  B_eq : B = pack (2 ^ 16) (bs.map fun b => (b + 1).toNat)
  N_eq : N = pack (2 ^ 16) ns

theorem insert_ok (h : Hasher) {rows : List (List Nat)} {bucket : Nat → Nat → Nat} {n m : Nat} (hm : m < 2 ^ 16) (hk : 0 < h.numHash) (hk' : h.numHash < 2 ^ 16)
    (hr : ∀ e < m, ∀ j < h.numHash, ∃ row, rows[e]? = some row ∧ row[j]? = some (bucket e j) ∧ bucket e j < n) (rem : Nat) :
    ∀ {e hf : Nat} {bs : List Int} {ns : List Nat} {B N : Nat} {r : Nat × Nat}, e < m → hf < h.numHash → Rep n m h.numHash bs ns B N →
      insert bucket h.numHash rem e hf B N = some r → ∃ bs' ns', insertLoop h rows rem (e : Int) hf bs ns = .ok (bs', ns') ∧ Rep n m h.numHash bs' ns' r.1 r.2 := by
  induction rem with
  | zero => intro e hf bs ns B N r _ _ _ hi; cases hi
  | succ rem ih =>
    intro e hf bs ns B N r he hhf R hi
    obtain ⟨row, h1, h2, h3⟩ := hr e he hf hhf
    unfold insert at hi
    simp only [force_eq] at hi
    unfold insertLoop
    have e1 : rdI rows (e : Int) = .ok row := by
      unfold rdI
      rw [if_neg (by omega), Int.toNat_natCast, rd_eq_ok.2 h1]
    rw [e1, Out.ok_bind, rd_eq_ok.2 h2, Out.ok_bind]
    generalize bucket e hf = ix at *
    have hB : ix < bs.length := by rw [R.blen]; exact h3
    have hN : ix < ns.length := by rw [R.nlen]; exact h3
    have hb := R.bval _ (List.getElem_mem hB)
    have hn := R.nval _ (List.getElem_mem hN)
    rw [rd_of_lt hB, Out.ok_bind]
    have dB : digit 16 B ix = (bs[ix] + 1).toNat := by
      rw [R.B_eq, pack_digit (by
        intro a ha
        obtain ⟨b, hb, rfl⟩ := List.mem_map.1 ha
        have := R.bval b hb
        omega) (by rw [List.length_map]; exact hB), List.getElem_map]
    have dN : digit 16 N ix = ns[ix] := by
      rw [R.N_eq, pack_digit (fun a ha => (R.nval a ha).trans hk') hN]
    have sB : ∀ v : Int, -1 ≤ v → pack (2 ^ 16) ((bs.set ix v).map fun b => (b + 1).toNat) + (bs[ix] + 1).toNat * 2 ^ (16 * ix) = B + (v + 1).toNat * 2 ^ (16 * ix) := by
      intro v _
      have := pack_set (2 ^ 16) (l := bs.map fun b => (b + 1).toNat) (i := ix) (by rw [List.length_map]; exact hB) (v + 1).toNat
      rw [List.getElem_map, ← R.B_eq, ← Nat.pow_mul] at this
      rw [List.map_set]
      exact this
    have sN : ∀ v : Nat, pack (2 ^ 16) (ns.set ix v) + ns[ix] * 2 ^ (16 * ix) = N + v * 2 ^ (16 * ix) := by
      intro v
      have := pack_set (2 ^ 16) hN v
      rw [← R.N_eq, ← Nat.pow_mul] at this
      exact this
    have bv : ∀ b ∈ bs.set ix (e : Int), -1 ≤ b ∧ b < m := by
      intro b hb
      rcases List.mem_or_eq_of_mem_set hb with h | rfl
      · exact R.bval b h
      · omega
    rw [dB] at hi
    have wB : wr bs ix (e : Int) = .ok (bs.set ix (e : Int)) := by unfold wr; rw [if_pos hB]
    by_cases hc : bs[ix] = -1
    · rw [if_pos hc, wB, Out.ok_bind]
      rw [hc] at hi
      simp only [show ((-1 : Int) + 1).toNat = 0 from rfl, Option.some.injEq] at hi
      subst hi
      refine ⟨_, _, rfl, by rw [List.length_set]; exact R.blen, R.nlen, bv, R.nval, ?_, R.N_eq⟩
      have := sB e (by omega)
      rw [hc] at this
      dsimp only
      rw [show ((-1 : Int) + 1).toNat = 0 from rfl, Nat.zero_mul, Nat.add_zero, show ((e : Int) + 1).toNat = e + 1 by omega] at this
      exact this.symm
    · rw [if_neg hc, wB, Out.ok_bind, rd_of_lt hN, Out.ok_bind, if_neg (by omega)]
      have wN : wr ns ix ((hf + 1) % h.numHash) = .ok (ns.set ix ((hf + 1) % h.numHash)) := by unfold wr; rw [if_pos hN]
      rw [wN, Out.ok_bind]
      obtain ⟨b, hbb⟩ : ∃ b : Nat, bs[ix] = b := ⟨bs[ix].toNat, by omega⟩
      rw [hbb, show ((b : Int) + 1).toNat = b + 1 by omega] at hi
      rw [hbb] at hb ⊢
      dsimp only at hi
      rw [dN] at hi
      refine ih (by omega) hn ⟨by rw [List.length_set]; exact R.blen, by rw [List.length_set]; exact R.nlen, bv, ?_, ?_, ?_⟩ hi
      · intro a ha
        rcases List.mem_or_eq_of_mem_set ha with h' | rfl
        · exact R.nval a h'
        · exact Nat.mod_lt _ hk
      · have := sB e (by omega)
        rw [hbb, show ((b : Int) + 1).toNat = b + 1 by omega, show ((e : Int) + 1).toNat = e + 1 by omega, Nat.add_mul, Nat.add_mul] at this
        omega
      · have := sN ((hf + 1) % h.numHash)
        omega

theorem insertAll_ok (h : Hasher) {rows : List (List Nat)} {bucket : Nat → Nat → Nat} {n m : Nat} (hm : m < 2 ^ 16) (hk : 0 < h.numHash) (hk' : h.numHash < 2 ^ 16)
    (hr : ∀ e < m, ∀ j < h.numHash, ∃ row, rows[e]? = some row ∧ row[j]? = some (bucket e j) ∧ bucket e j < n) (tries left : Nat) :
    ∀ {i : Nat} {bs : List Int} {ns : List Nat} {B N : Nat}, i + left ≤ m → Rep n m h.numHash bs ns B N → insertAll bucket h.numHash tries left i B N = true →
      ∃ r, loop (fun i (st : List Int × List Nat) => insertLoop h rows tries (i : Int) 0 st.1 st.2) i left (bs, ns) = .ok r := by
  induction left with
  | zero => intros; exact ⟨_, rfl⟩
  | succ left ih =>
    intro i bs ns B N hi R ha
    unfold insertAll at ha
    split at ha
    · cases ha
    · next B' N' hs =>
      rw [force_eq] at ha
      obtain ⟨bs', ns', e1, R'⟩ := insert_ok h hm hk hk' hr tries (by omega) hk R hs
      unfold loop
      dsimp only
      rw [e1, Out.ok_bind]
      exact ih (by omega) R' ha

/-- A run on packed arrays that succeeds shows that `HashCuckoo` succeeds. -/
theorem hashCuckoo_ok (h : Hasher) {inputs : List Block} {n m : Nat} (hl : inputs.length = m) (hn : 0 < n) (hn' : n < 2 ^ 63) (hm : m < 2 ^ 16) (hmn : m ≤ n)
    (hk : 2 ≤ h.numHash) (hk' : h.numHash < 2 ^ 16) (hb : h.tooManyBits m n = false) {bucket : Nat → Nat → Nat}
    (hr : ∀ e < m, ∀ j < h.numHash, ∃ x, inputs[e]? = some x ∧ bucket e j = bucketOf h.enc n x j) (ha : insertAll bucket h.numHash m m 0 0 0 = true) :
    ∃ buckets, hashCuckoo h inputs n = .ok buckets := by
  unfold hashCuckoo
  rw [if_neg (by omega), if_neg (by omega), if_neg (by omega), hl, Int.toNat_natCast, if_neg (by rw [hb]; decide), hash_eq h (by omega) (by omega), Out.ok_bind, Int.toNat_natCast]
  obtain ⟨r, e⟩ := insertAll_ok h (rows := inputs.map (bucketsOf h.enc h.numHash n)) (n := n) hm (by omega) hk' (fun e he j hj => by
      obtain ⟨x, h1, h2⟩ := hr e he j hj
      refine ⟨bucketsOf h.enc h.numHash n x, by rw [List.getElem?_map, h1]; rfl, ?_, ?_⟩
      · unfold bucketsOf
        rw [List.getElem?_map, List.getElem?_range hj, h2]
        rfl
      · rw [h2]
        exact Nat.mod_lt _ hn) m m (i := 0) (bs := List.replicate n (-1)) (ns := List.replicate n 0) (B := 0) (N := 0) (by omega)
    ⟨by simp, by simp, by
      intro b hb
      rw [List.eq_of_mem_replicate hb]
      omega, by
      intro a ha
      rw [List.eq_of_mem_replicate ha]
      omega, by rw [List.map_replicate]; exact (pack_replicate _ _).symm, (pack_replicate _ _).symm⟩ ha
  rw [e]
  exact ⟨_, rfl⟩

end DVO.Packed
