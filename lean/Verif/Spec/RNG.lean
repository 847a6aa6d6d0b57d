/-
Specification of the random generator: AES in counter mode, and histories of calls.
-/
import Verif.Model.RNG

namespace DVO.RNG

/-- The stream: word `n` is the low (`n` even) or high (`n` odd) half of `AES(key, nonce + n / 2)`. -/
def stream (aes : Cipher) (key nonce : Block) (n : Nat) : BitVec 64 :=
  let c := aes key (nonce + BitVec.ofNat 128 (n / 2))
  if n % 2 = 0 then c.setWidth 64 else (c >>> 64).setWidth 64

/-- The state after `n` calls of `operator()`. -/
def after (aes : Cipher) (g : Gen) : Nat → Gen
  | 0 => g
  | n + 1 => (next aes (after aes g n)).2

/-- The result of call number `n` (counted from 0). -/
def call (aes : Cipher) (g : Gen) (n : Nat) : Out (BitVec 64) := (next aes (after aes g n)).1

/-- The AES inputs used by one call. -/
def inputs1 (aes : Cipher) (g : Gen) : List Block :=
  if g.used ≥ g.buffer.length then
    match refill aes g with
    | .ok (xs, _) => xs
    | _ => []
  else []

/-- The AES inputs used by the first `n` calls. -/
def inputs (aes : Cipher) (g : Gen) : Nat → List Block
  | 0 => []
  | n + 1 => inputs aes g n ++ inputs1 aes (after aes g n)

/-- What a user can do with a generator. -/
inductive Op
  | call
  | seed (s : List (BitVec 8))

/-- The state after a history of operations (exceptions caught, error statuses ignored). -/
def history (aes : Cipher) (g : Gen) : List Op → Gen
  | [] => g
  | .call :: h => history aes (next aes g).2 h
  | .seed s :: h => history aes (RNG.seed g s).2 h

end DVO.RNG
