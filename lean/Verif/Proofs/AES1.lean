/-
AES in a form that the kernel can run quickly, and the test of cuckoo hashing run with it.
-/
import Verif.Spec.AES
import Verif.Proofs.Packed

namespace DVO.AES
open Packed Cuckoo

/-- `k x`, evaluated after the bytes of `x`. -/
def Column.force {α : Type} (x : Column) (k : Column → α) : α :=
  Packed.force x.a fun a => Packed.force x.b fun b => Packed.force x.c fun c => Packed.force x.d fun d => k ⟨a, b, c, d⟩

theorem Column.force_eq {α : Type} (x : Column) (k : Column → α) : x.force k = k x := by
  unfold Column.force
  simp only [Packed.force_eq]

/-- `k s`, evaluated after the bytes of `s`. -/
def State.force {α : Type} (s : State) (k : State → α) : α := s.c0.force fun c0 => s.c1.force fun c1 => s.c2.force fun c2 => s.c3.force fun c3 => k ⟨c0, c1, c2, c3⟩

theorem State.force_eq {α : Type} (s : State) (k : State → α) : s.force k = k s := by
  unfold State.force
  simp only [Column.force_eq]

/-- `rounds`, each evaluated before the next. -/
def fastRounds : List State → State → State
  | [], s => s
  | [k], s => s.sub.force fun s => s.shift.xor k
  | k :: k' :: keys, s => s.sub.force fun s => ((s.shift.map Column.mix).xor k).force fun s => fastRounds (k' :: keys) s

theorem fastRounds_eq : ∀ (keys : List State) (s : State), fastRounds keys s = rounds keys s
  | [], _ => rfl
  | [k], s => by unfold fastRounds rounds; rw [State.force_eq]
  | k :: k' :: keys, s => by
    unfold fastRounds rounds
    rw [State.force_eq, State.force_eq, fastRounds_eq (k' :: keys)]

/-- `f` of the round keys, evaluated after them. -/
def fastExpand {α : Type} : List Nat → State → (List State → α) → α
  | [], _, f => f []
  | rc :: rcs, k, f => (k.next rc).force fun k => fastExpand rcs k fun ks => f (k :: ks)

theorem fastExpand_eq {α : Type} (rcs : List Nat) : ∀ (k : State) (f : List State → α), fastExpand rcs k f = f (expand rcs k) := by
  induction rcs with
  | nil => intros; rfl
  | cons rc rcs ih =>
    intro k f
    unfold fastExpand expand
    rw [State.force_eq, ih]

/-- The hash of a number: AES of it, plus itself. -/
def fastHash (key : State) (keys : List State) (x : Nat) : Nat := Nat.xor (fastRounds keys ((load x).xor key)).value x % 2 ^ 128

/-- The three hashes of a number as one number. -/
def fastRow (key : State) (keys : List State) (x : Nat) : Nat :=
  force (fastHash key keys x) fun d => pack (2 ^ 128) [d, fastHash key keys (Nat.xor d 1), fastHash key keys (Nat.xor d 2)]

/-- The hashes of `first + 0, ..., first + (n - 1)` as one number, to which `acc` is appended. -/
def table (key : State) (keys : List State) (first : Nat) : (n acc : Nat) → Nat
  | 0, acc => acc
  | n + 1, acc => force (fastRow key keys (first + n) + 2 ^ 384 * acc) fun acc => table key keys first n acc

theorem table_eq (key : State) (keys : List State) (first : Nat) (n : Nat) : ∀ l : List Nat, table key keys first n (pack (2 ^ 384) l) =
    pack (2 ^ 384) ((List.range n).map (fun i => fastRow key keys (first + i)) ++ l) := by
  induction n with
  | zero => intro l; rfl
  | succ n ih =>
    intro l
    unfold table
    rw [Packed.force_eq, show fastRow key keys (first + n) + 2 ^ 384 * pack (2 ^ 384) l = pack (2 ^ 384) (fastRow key keys (first + n) :: l) from rfl, ih, List.range_succ,
      List.map_append, List.append_assoc]
    rfl

theorem toNat_hash (key x : Block) : (encrypt key x ^^^ x).toNat = fastHash (load key.toNat) (expand rcons (load key.toNat)) x.toNat := by
  unfold encrypt cipher fastHash
  rw [fastRounds_eq, BitVec.toNat_xor, BitVec.toNat_ofNat]
  generalize (rounds (expand rcons (load key.toNat)) ((load x.toNat).xor (load key.toNat))).value = v
  rw [show Nat.xor v x.toNat = v ^^^ x.toNat from rfl, Nat.xor_mod_two_pow, Nat.mod_eq_of_lt x.isLt]

theorem fastHash_lt (key : State) (keys : List State) (x : Nat) : fastHash key keys x < 2 ^ 128 := Nat.mod_lt _ (by decide)

theorem fastRow_lt (key : State) (keys : List State) (x : Nat) : fastRow key keys x < 2 ^ 384 := by
  unfold fastRow
  rw [Packed.force_eq]
  have h1 := fastHash_lt key keys x
  have h2 := fastHash_lt key keys (Nat.xor (fastHash key keys x) 1)
  have h3 := fastHash_lt key keys (Nat.xor (fastHash key keys x) 2)
  simp only [pack]
  omega

theorem digit_row (key x : Block) {j : Nat} (hj : j < 3) :
    digit 128 (fastRow (load key.toNat) (expand rcons (load key.toNat)) x.toNat) j = (digest (encrypt key) x j).toNat := by
  unfold fastRow
  rw [Packed.force_eq]
  have e1 := toNat_hash key x
  have e2 : ∀ k : Nat, k < 3 → fastHash (load key.toNat) (expand rcons (load key.toNat)) (Nat.xor (fastHash (load key.toNat) (expand rcons (load key.toNat)) x.toNat) k) =
      (encrypt key ((encrypt key x ^^^ x) ^^^ BitVec.ofNat 128 k) ^^^ ((encrypt key x ^^^ x) ^^^ BitVec.ofNat 128 k)).toNat := by
    intro k hk
    rw [toNat_hash, BitVec.toNat_xor (encrypt key x ^^^ x), e1, BitVec.toNat_ofNat, Nat.mod_eq_of_lt (show k < 2 ^ 128 by omega)]
    rfl
  rw [pack_digit (by
    intro a ha
    simp only [List.mem_cons, List.not_mem_nil, or_false] at ha
    rcases ha with rfl | rfl | rfl <;> exact fastHash_lt _ _ _) (by simpa using hj)]
  unfold digest
  rcases (by omega : j = 0 ∨ j = 1 ∨ j = 2) with rfl | rfl | rfl
  · exact e1.symm
  · exact e2 1 (by omega)
  · exact e2 2 (by omega)

/-- The bucket of element `e` under hash function `j`, from the table of the hashes. -/
def bucketAt (T n e j : Nat) : Nat := force (digit 384 T e) fun r => digit 128 r j % n

theorem bucketAt_eq (key : Block) {first m n : Nat} (hm : first + m < 2 ^ 128) {e j : Nat} (he : e < m) (hj : j < 3) :
    bucketAt (table (load key.toNat) (expand rcons (load key.toNat)) first m 0) n e j = bucketOf (encrypt key) n (BitVec.ofNat 128 (first + e)) j := by
  unfold bucketAt
  rw [Packed.force_eq, show (0 : Nat) = pack (2 ^ 384) [] from rfl, table_eq, List.append_nil, pack_digit (by
    intro a ha
    obtain ⟨i, -, rfl⟩ := List.mem_map.1 ha
    exact fastRow_lt _ _ _) (by simpa using he), List.getElem_map, List.getElem_range]
  have : first + e = (BitVec.ofNat 128 (first + e)).toNat := by rw [BitVec.toNat_ofNat, Nat.mod_eq_of_lt (by omega)]
  conv_lhs => rw [this]
  rw [digit_row key _ hj]
  rfl

/-- All runs of the test, from the table of the hashes: numbers of buckets and of elements. -/
def allRuns (T : Nat) (sizes : List (Nat × Nat)) : Bool := sizes.all fun s => insertAll (bucketAt T s.1) 3 s.2 s.2 0 0 0

/-- The table of the test, and all runs with it. -/
def testRuns (seed first m : Nat) (sizes : List (Nat × Nat)) : Bool :=
  (load seed).force fun key => fastExpand rcons key fun keys => force (table key keys first m 0) fun T => allRuns T sizes

theorem testRuns_ok {seed : Block} {first m : Nat} (hm : first + m < 2 ^ 128) {sizes : List (Nat × Nat)} (h : testRuns seed.toNat first m sizes = true)
    {n k : Nat} (hs : (n, k) ∈ sizes) (hk : k ≤ m) (hk' : k < 2 ^ 16) (hkn : k ≤ n) (hn : 0 < n) (hn' : n < 2 ^ 63) {bits : Nat → Nat → Bool} (hb : bits k n = false) (optimal : Nat → Int) :
    ∃ buckets, hashCuckoo ⟨encrypt seed, 3, bits, optimal⟩ ((List.range k).map fun i => BitVec.ofNat 128 (first + i)) n = .ok buckets := by
  unfold testRuns allRuns at h
  rw [State.force_eq, fastExpand_eq, Packed.force_eq, List.all_eq_true] at h
  refine hashCuckoo_ok _ (m := k) (by simp) hn hn' hk' hkn (by dsimp only; omega) (by dsimp only; omega) hb (fun e he j hj => ?_) (h _ hs)
  exact ⟨_, by rw [List.getElem?_map, List.getElem?_range he]; rfl, bucketAt_eq seed hm (by omega) hj⟩

end DVO.AES
