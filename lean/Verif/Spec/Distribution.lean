/-
What `std::uniform_int_distribution` makes of one 64-bit word.
-/
import Verif.Spec.RNG

namespace DVO.Dist

/-- What the word `w` means for the range `[0, n)`: a number, or that another word is needed. In libstdc++ since version 11
    (`new`) the number is the high half of `w * n`, unless the low half is small; before, `w / ((2^64 - 1) / n)`,
    unless that is too large. -/
def decode (new : Bool) (n w : Nat) : Option Nat :=
  if new then
    if w * n % 2 ^ 64 < 2 ^ 64 % n then none else some (w * n / 2 ^ 64)
  else
    if w / ((2 ^ 64 - 1) / n) < n then some (w / ((2 ^ 64 - 1) / n)) else none

/-- How many words mean the same number. -/
def share (new : Bool) (n : Nat) : Nat := if new then 2 ^ 64 / n else (2 ^ 64 - 1) / n

end DVO.Dist
