/-
Model of `std::uniform_int_distribution` as in libstdc++, for a generator of 64-bit words. It is a library, and
`VOLE.Lib` allows for any implementation; this one is used for statements about how long sampling takes.
-/
import Verif.Model.VOLE

namespace DVO.Dist
open VOLE

/-- The loop of libstdc++ before version 11 (bits/uniform_int_dist.h; called in distributed_vector_ole.h:411, 442):
    `do ret = urng(); while (ret >= past); ret /= scaling;`. Diverges after `fuel` words. -/
def divisionLoop (aes : Cipher) (scaling past : Nat) : (fuel : Nat) → RNG.Gen → Out (Nat × RNG.Gen)
  | 0, _ => .diverge
  | fuel + 1, g => do
    let (w, g) ← word aes g
    if w.toNat ≥ past then divisionLoop aes scaling past fuel g else
    .ok (w.toNat / scaling, g)

/-- A number below `range` (libstdc++ before version 11; called in distributed_vector_ole.h:411, 442): `scaling` is
    `(2^64 - 1) / range` and `past` is `range * scaling`. -/
def division (aes : Cipher) (range fuel : Nat) (g : RNG.Gen) : Out (Nat × RNG.Gen) :=
  let scaling := (2 ^ 64 - 1) / range
  divisionLoop aes scaling (range * scaling) fuel g

/-- The loop `while (low < threshold)` of `_S_nd` (libstdc++ since version 11; called in
    distributed_vector_ole.h:411, 442). The 128-bit product does not overflow. -/
def productLoop (aes : Cipher) (range threshold : Nat) : (fuel : Nat) → (product : Nat) → RNG.Gen → Out (Nat × RNG.Gen)
  | 0, _, _ => .diverge
  | fuel + 1, product, g =>
    if product % 2 ^ 64 < threshold then do
      let (w, g) ← word aes g
      productLoop aes range threshold fuel (w.toNat * range) g
    else .ok (product / 2 ^ 64, g)

/-- `_S_nd`: a number below `range` (libstdc++ since version 11; called in distributed_vector_ole.h:411, 442);
    `threshold` is `-range % range` in 64-bit arithmetic. -/
def product (aes : Cipher) (range fuel : Nat) (g : RNG.Gen) : Out (Nat × RNG.Gen) := do
  let (w, g) ← word aes g
  let p := w.toNat * range
  if p % 2 ^ 64 < range then productLoop aes range ((2 ^ 64 - range) % range) fuel p g else
  .ok (p / 2 ^ 64, g)

/-- `dist(rng)` for `std::uniform_int_distribution dist(lo, hi)` (distributed_vector_ole.h:406, 411, 440, 442);
    `new` says which version of libstdc++. The range is computed in 64-bit arithmetic. -/
def unif (new : Bool) (fuel : Nat) (aes : Cipher) (g : RNG.Gen) (lo hi : Int) : Out (Int × RNG.Gen) :=
  let urange := ((hi - lo) % 2 ^ 64).toNat
  if urange < 2 ^ 64 - 1 then do
    let (r, g) ← if new then product aes (urange + 1) fuel g else division aes (urange + 1) fuel g
    .ok (lo + r, g)
  else do
    let (w, g) ← word aes g
    .ok (lo + w.toNat, g)

/-- libstdc++ (distributed_vector_ole.h:399, 411, 442). -/
def stdLib (hiFirst new : Bool) (fuel : Nat) : Lib := ⟨hiFirst, unif new fuel⟩

end DVO.Dist
