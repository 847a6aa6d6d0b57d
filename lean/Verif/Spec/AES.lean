/-
AES with 128-bit keys (FIPS 197). OpenSSL's AES is a library and the model of the code takes an arbitrary function in its
place; this is the one that it stands for.
-/
import Verif.Model.GGM

namespace DVO.AES

/-- Four bytes: a column of the state, or a word of the key schedule. -/
@[ext] structure Column where
  a : Nat
  b : Nat
  c : Nat
  d : Nat
deriving DecidableEq, Repr

/-- The state, column by column. Also a round key. -/
@[ext] structure State where
  c0 : Column
  c1 : Column
  c2 : Column
  c3 : Column
deriving DecidableEq, Repr

/-- Multiplication by `x` in GF(2^8), modulo `x^8 + x^4 + x^3 + x + 1`. -/
def xtime (b : Nat) : Nat := Nat.xor (2 * b) (b / 128 * 0x11b)

/-- The S-box, all of its 256 bytes in one number; the first byte is the lowest. -/
def sbox : Nat := 0x16bb54b00f2d99416842e6bf0d89a18cdf2855cee9871e9b948ed9691198f8e19e1dc186b95735610ef6034866b53e708a8bbd4b1f74dde8c6b4a61c2e2578ba08ae7a65eaf4566ca94ed58d6d37c8e779e4959162acd3c25c2406490a3a32e0db0b5ede14b8ee4688902a22dc4f816073195d643d7ea7c41744975fec130ccdd2f3ff1021dab6bcf5389d928f40a351a89f3c507f02f94585334d43fbaaefd0cf584c4a39becb6a5bb1fc20ed00d153842fe329b3d63b52a05a6e1b1a2c830975b227ebe28012079a059618c323c7041531d871f1e5a534ccf73f362693fdb7c072a49cafa2d4adf04759fa7dc982ca76abd7fe2b670130c56f6bf27b777c63

/-- A byte of the S-box. -/
def sub (b : Nat) : Nat := Nat.shiftRight sbox (8 * b) % 256

/-- The same function on all bytes of a column. -/
def Column.map (f : Nat → Nat) (x : Column) : Column := ⟨f x.a, f x.b, f x.c, f x.d⟩

/-- Sum of columns in GF(2^8). -/
def Column.xor (x y : Column) : Column := ⟨Nat.xor x.a y.a, Nat.xor x.b y.b, Nat.xor x.c y.c, Nat.xor x.d y.d⟩

/-- One byte of MixColumns: `2 a + 3 b + c + d` in GF(2^8). -/
def mixByte (a b c d : Nat) : Nat := Nat.xor (Nat.xor (xtime a) (Nat.xor (xtime b) b)) (Nat.xor c d)

/-- MixColumns, one column. -/
def Column.mix (x : Column) : Column :=
  ⟨mixByte x.a x.b x.c x.d, mixByte x.b x.c x.d x.a, mixByte x.c x.d x.a x.b, mixByte x.d x.a x.b x.c⟩

/-- The same function on all columns. -/
def State.map (f : Column → Column) (s : State) : State := ⟨f s.c0, f s.c1, f s.c2, f s.c3⟩

/-- AddRoundKey. -/
def State.xor (s k : State) : State := ⟨s.c0.xor k.c0, s.c1.xor k.c1, s.c2.xor k.c2, s.c3.xor k.c3⟩

/-- SubBytes. -/
def State.sub (s : State) : State := s.map (Column.map AES.sub)

/-- ShiftRows: row `i` rotates by `i` columns. -/
def State.shift (s : State) : State :=
  ⟨⟨s.c0.a, s.c1.b, s.c2.c, s.c3.d⟩, ⟨s.c1.a, s.c2.b, s.c3.c, s.c0.d⟩, ⟨s.c2.a, s.c3.b, s.c0.c, s.c1.d⟩, ⟨s.c3.a, s.c0.b, s.c1.c, s.c2.d⟩⟩

/-- The next four words of the key schedule, with the round constant `rc`. -/
def State.next (rc : Nat) (k : State) : State :=
  let t : Column := ⟨Nat.xor (AES.sub k.c3.b) rc, AES.sub k.c3.c, AES.sub k.c3.d, AES.sub k.c3.a⟩
  let w0 := k.c0.xor t
  let w1 := k.c1.xor w0
  let w2 := k.c2.xor w1
  let w3 := k.c3.xor w2
  ⟨w0, w1, w2, w3⟩

/-- The round constants. -/
def rcons : List Nat := [0x01, 0x02, 0x04, 0x08, 0x10, 0x20, 0x40, 0x80, 0x1b, 0x36]

/-- The round keys that follow the round key `k`. -/
def expand : (rcons : List Nat) → (k : State) → List State
  | [], _ => []
  | rc :: rcs, k => k.next rc :: expand rcs (k.next rc)

/-- The rounds; the last one is without MixColumns. -/
def rounds : (keys : List State) → (s : State) → State
  | [], s => s
  | [k], s => s.sub.shift.xor k
  | k :: k' :: keys, s => rounds (k' :: keys) ((s.sub.shift.map Column.mix).xor k)

/-- The cipher, with the first round key and the others. -/
def cipher (key : State) (keys : List State) (s : State) : State := rounds keys (s.xor key)

/-- Byte `i` of a number, the lowest first (byte `i` in the memory of a little-endian machine). -/
def byte (n i : Nat) : Nat := Nat.shiftRight n (8 * i) % 256

/-- The state made of the 16 bytes of a number. -/
def load (n : Nat) : State :=
  ⟨⟨byte n 0, byte n 1, byte n 2, byte n 3⟩, ⟨byte n 4, byte n 5, byte n 6, byte n 7⟩, ⟨byte n 8, byte n 9, byte n 10, byte n 11⟩,
    ⟨byte n 12, byte n 13, byte n 14, byte n 15⟩⟩

/-- The number made of four bytes. -/
def Column.value (x : Column) : Nat := x.a + 256 * (x.b + 256 * (x.c + 256 * x.d))

/-- The number made of 16 bytes. -/
def State.value (s : State) : Nat := s.c0.value + 2 ^ 32 * (s.c1.value + 2 ^ 32 * (s.c2.value + 2 ^ 32 * s.c3.value))

/-- AES as a function of blocks, on a little-endian machine. -/
def encrypt (key x : Block) : Block :=
  BitVec.ofNat 128 (cipher (load key.toNat) (expand rcons (load key.toNat)) (load x.toNat)).value

end DVO.AES
