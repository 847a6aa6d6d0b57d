/-
Model of distributed_vector_ole/aes_uniform_bit_generator.{h,cpp}.
-/
import Verif.Model.GGM

namespace DVO.RNG

/-- `kReseedInterval` (aes_uniform_bit_generator.h:26). -/
def reseedInterval : Int := 2 ^ 48
/-- `kStateSize` (aes_uniform_bit_generator.h:27). -/
def stateSize : Nat := 32

/-- The members of `AESUniformBitGenerator` (aes_uniform_bit_generator.h:54-64). The expanded key is
    represented by the key. -/
structure Gen where
  buffer : List (BitVec 64)
  used : Int
  nonce : Block
  counter : Int
  key : Block
deriving DecidableEq, Repr

/-- The 16 bytes at `p` as a little-endian 128-bit number (the reinterpret_casts in
    aes_uniform_bit_generator.cpp:34 and 38; alignment and aliasing are not modelled). -/
def load128 (p : List (BitVec 8)) : Block :=
  BitVec.ofNat 128 ((p.take 16).foldr (fun b acc => b.toNat + 256 * acc) 0)

/-- The constructor (aes_uniform_bit_generator.cpp:12-16). The members it leaves uninitialised have
    the arbitrary values of `junk`. -/
def ctor (junk : Gen) (bufferSize : Int) : Gen :=
  { junk with buffer := List.replicate bufferSize.toNat 0, used := bufferSize }

/-- `seed` (aes_uniform_bit_generator.cpp:28-43). `AES_set_encrypt_key` does not fail. -/
def seed (g : Gen) (s : List (BitVec 8)) : Out Unit × Gen :=
  if s.length < stateSize then (.err .invalidArgument "`seed` must be at least 32 bytes long", g) else
  (.ok (), { g with key := load128 s, nonce := load128 (s.drop 16), counter := 0, used := g.buffer.length })

/-- `Create` (aes_uniform_bit_generator.cpp:18-26). -/
def create (junk : Gen) (s : List (BitVec 8)) (bufferSize : Int) : Out Gen :=
  let bufferSize := if bufferSize < 2 then 2 else bufferSize
  match seed (ctor junk bufferSize) s with
  | (.ok (), g) => .ok g
  | (.err c m, _) => .err c m
  | (.throws m, _) => .throws m
  | (.ub w, _) => .ub w
  | (.diverge, _) => .diverge

/-- The refill of the buffer (aes_uniform_bit_generator.cpp:51-62), up to and including the update of
    `counter_`. Also returns the AES inputs, for stating that they do not repeat. `AES_encrypt` writes
    16 bytes, i.e. two words, the first of which is the low half of the little-endian block. -/
def refill (aes : Cipher) (g : Gen) : Out (List Block × Gen) := do
  let numBlocks := g.buffer.length / 2
  let (nonces, nonce) ← loop (fun i (s : List Block × Block) => do
    let nonces ← wr s.1 i s.2
    .ok (nonces, s.2 + 1)) 0 numBlocks (List.replicate numBlocks 0, g.nonce)
  let buffer ← loop (fun i b => do
    let x ← rd nonces i
    let c := aes g.key x
    let b ← wr b (2 * i) (c.setWidth 64)
    wr b (2 * i + 1) ((c >>> 64).setWidth 64)) 0 numBlocks g.buffer
  if g.counter + numBlocks ≥ 2 ^ 63 then .ub "signed overflow" else
  .ok (nonces, { g with buffer := buffer, nonce := nonce, used := 0, counter := g.counter + numBlocks })

/-- The end of `operator()` (aes_uniform_bit_generator.cpp:72-74). -/
def take (g : Gen) : Out (BitVec 64) × Gen :=
  match rdI g.buffer g.used with
  | .ok w => (.ok w, { g with used := g.used + 1 })
  | _ => (.ub "read out of bounds", g)

/-- `operator()` (aes_uniform_bit_generator.cpp:45-75): the result and the new state, which is kept
    when the call throws. -/
def next (aes : Cipher) (g : Gen) : Out (BitVec 64) × Gen :=
  if g.used ≥ g.buffer.length then
    match refill aes g with
    | .ok (_, g') =>
      if g'.counter > reseedInterval then (.throws "`seed()` must be called", g') else take g'
    | _ => (.ub "refill", g)
  else take g

end DVO.RNG
