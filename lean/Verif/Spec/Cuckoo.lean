/-
Specification vocabulary for the cuckoo hasher.
-/
import Verif.Model.Cuckoo

namespace DVO.Cuckoo

/-- Hash function number `j`: Davies-Meyer with the block cipher `enc`, iterated once more on the
    hash XOR `j` for `j > 0`. -/
def digest (enc : Block → Block) (x : Block) (j : Nat) : Block :=
  let d := enc x ^^^ x
  if j = 0 then d else enc (d ^^^ BitVec.ofNat 128 j) ^^^ (d ^^^ BitVec.ofNat 128 j)

/-- The bucket (out of `n`) that hash function `j` assigns to `x`. -/
def bucketOf (enc : Block → Block) (n : Nat) (x : Block) (j : Nat) : Nat := (digest enc x j).toNat % n

/-- The buckets assigned to `x` by the first `k` hash functions. -/
def bucketsOf (enc : Block → Block) (k n : Nat) (x : Block) : List Nat := (List.range k).map (bucketOf enc n x)

/-- The inputs (by position) in bucket `b`, ascending, each as often as it hashes to `b`. -/
def simpleBucket (enc : Block → Block) (k n : Nat) (inputs : List Block) (b : Nat) : List Nat :=
  (inputs.mapIdx (fun i x => List.replicate ((bucketsOf enc k n x).count b) i)).flatten

end DVO.Cuckoo
