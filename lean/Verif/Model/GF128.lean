/-
Model of distributed_vector_ole/gf128.h and gf128.cpp.
-/
import Verif.Basic
import Mathlib.Data.BitVec

namespace DVO

/-- `class gf128`: `uint64_t value_[2]`, little endian (gf128.h:34-105). -/
structure GF128 where
  v0 : BitVec 64
  v1 : BitVec 64
deriving DecidableEq, Repr

namespace GF128

/-- `modulus_` (gf128.h:39). -/
def modulus : BitVec 64 := 0b10000111

/-- `gf128()` (gf128.cpp:38). -/
def mk0 : GF128 := ⟨0, 0⟩
/-- `gf128(value_low)` (gf128.cpp:40). -/
def ofLow (low : BitVec 64) : GF128 := ⟨low, 0⟩
/-- `gf128(value_high, value_low)` (gf128.cpp:42-43). -/
def ofHighLow (high low : BitVec 64) : GF128 := ⟨low, high⟩
/-- `gf128(absl::uint128)` (gf128.cpp:45-46). -/
def ofU128 (x : BitVec 128) : GF128 := ⟨x.extractLsb' 0 64, x.extractLsb' 64 64⟩
/-- `as_words` (gf128.cpp:48-50). -/
def asWords (a : GF128) : List (BitVec 64) := [a.v0, a.v1]
/-- `operator absl::uint128` (gf128.cpp:52-54). -/
def toU128 (a : GF128) : BitVec 128 := a.v1 ++ a.v0
/-- `multiplicative_generator` (gf128.cpp:36). -/
def generator : GF128 := ofLow 2
/-- `zero()` (gf128.cpp:217). -/
def zero : GF128 := ofLow 0
/-- `one()` (gf128.cpp:219). -/
def one : GF128 := ofLow 1
/-- `is_zero` (gf128.cpp:207-209). -/
def isZero (a : GF128) : Bool := a.v0 == 0 && a.v1 == 0
/-- `operator==` (gf128.cpp:198-201). -/
def eq (a b : GF128) : Bool := a.v0 == b.v0 && a.v1 == b.v1

/-- `operator+=`, `operator+` (gf128.cpp:56-60, 143-146). -/
def add (a b : GF128) : GF128 := ⟨a.v0 ^^^ b.v0, a.v1 ^^^ b.v1⟩
/-- `operator-=`, `operator-` (gf128.cpp:62-66, 148-151). -/
def sub (a b : GF128) : GF128 := ⟨a.v0 ^^^ b.v0, a.v1 ^^^ b.v1⟩
/-- Unary `operator-` (gf128.cpp:153-155). -/
def neg (a : GF128) : GF128 := ofHighLow a.v1 a.v0

/-- Carry-less product of two 64-bit words (the `PCLMULQDQ` instruction, for which
    `_mm_clmulepi64_si128` stands in gf128.cpp:82-108): the xor of the shifted copies of `b`. -/
def clmulWord (a b : BitVec 64) : BitVec 128 :=
  (List.range 64).foldl (fun acc i => if a.getLsbD i then acc ^^^ (b.setWidth 128 <<< i) else acc) 0

/-- `_mm_clmulepi64_si128(a, b, imm)`: bit 0 of `imm` selects the half of `a`, bit 4 that of `b`
    (gf128.cpp:82-108). -/
def clmul (a b : BitVec 128) (hiA hiB : Bool) : BitVec 128 :=
  clmulWord (if hiA then a.extractLsb' 64 64 else a.extractLsb' 0 64) (if hiB then b.extractLsb' 64 64 else b.extractLsb' 0 64)

/-- `operator*=` with `USE_ASM` (gf128.cpp:75-111). The build defines `USE_ASM` (BUILD:516-518).
    `_mm_slli_si128(x, 8)` and `_mm_srli_si128(x, 8)` shift by 8 bytes. -/
def mulAsm (x y : GF128) : GF128 :=
  let a : BitVec 128 := x.v1 ++ x.v0
  let b : BitVec 128 := y.v1 ++ y.v0
  let m : BitVec 128 := modulus.setWidth 128
  let high := clmul a b true true
  let low := clmul a b false false
  let mid1 := clmul a b true false
  let mid2 := clmul a b false true
  let mid := mid1 ^^^ mid2
  let high := high ^^^ (mid >>> 64)
  let low := low ^^^ (mid <<< 64)
  let tmp := clmul high m true false
  let low := low ^^^ (tmp <<< 64)
  let high := high ^^^ (tmp >>> 64)
  let tmp := clmul high m false false
  let low := low ^^^ tmp
  ⟨low.extractLsb' 0 64, low.extractLsb' 64 64⟩

/-- The body of the loops in the portable `operator*=` (gf128.cpp:119-131); `w` is
    `other.value_[i]`; the state is `(shifted, result)`. -/
def mulStep (w : BitVec 64) (j : Nat) (s : GF128 × GF128) : GF128 × GF128 :=
  let shifted := s.1
  let result := s.2
  let result := if w &&& ((1 : BitVec 64) <<< j) ≠ 0 then (⟨result.v0 ^^^ shifted.v0, result.v1 ^^^ shifted.v1⟩ : GF128) else result
  let shifted : GF128 :=
    if shifted.v1 &&& ((1 : BitVec 64) <<< 63) ≠ 0 then
      ⟨(shifted.v0 <<< 1) ^^^ modulus, (shifted.v1 <<< 1) ||| (shifted.v0 >>> 63)⟩
    else ⟨shifted.v0 <<< 1, (shifted.v1 <<< 1) ||| (shifted.v0 >>> 63)⟩
  (shifted, result)

/-- `operator*=` without `USE_ASM` (gf128.cpp:112-138). -/
def mulPortable (x y : GF128) : GF128 :=
  let s := (List.range 64).foldl (fun s j => mulStep y.v0 j s) (x, mk0)
  let s := (List.range 64).foldl (fun s j => mulStep y.v1 j s) s
  s.2

/-- `operator*` (gf128.cpp:157-160) as built, i.e. with `USE_ASM`. -/
def mul (x y : GF128) : GF128 := mulAsm x y

/-- `square`, `squared` (gf128.cpp:141, 162-166). -/
def square (x : GF128) : GF128 := mul x x

/-- `inverse` (gf128.cpp:170-192). The state is `(a, result)`. -/
def inverse (x : GF128) : GF128 :=
  ((List.range 7).foldl (fun (s : GF128 × GF128) i =>
    let b := (List.range (1 <<< i)).foldl (fun b _ => square b) s.1
    (mul s.1 b, if i = 0 then b else mul s.2 b)) (x, zero)).2

end GF128
end DVO
