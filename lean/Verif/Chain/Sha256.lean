import Mathlib.Data.Nat.Bitwise
import Verif.Chain.Model

/-!
# SHA-256 (FIPS 180-4), as far as the block hash needs it

The header tree takes the block hash as a parameter.  `BlockHeader::block_hash` of rust-bitcoin is the double SHA-256 of the 80 bytes of the header; here it is as a computable function, so that the
presets of the networks can be stated with the real hash.  Bytes and words are natural numbers.
-/

set_option autoImplicit false

namespace Verif.Chain.Sha256

/-- Rotation of a 32-bit word to the right. -/
def rotr (x n : Nat) : Nat := (x >>> n) ||| ((x <<< (32 - n)) % 2 ^ 32)

/-- The first 32 bits of the fractional parts of the cube roots of the first 64 primes. -/
def k : List Nat :=
  [0x428a2f98, 0x71374491, 0xb5c0fbcf, 0xe9b5dba5, 0x3956c25b, 0x59f111f1, 0x923f82a4, 0xab1c5ed5,
   0xd807aa98, 0x12835b01, 0x243185be, 0x550c7dc3, 0x72be5d74, 0x80deb1fe, 0x9bdc06a7, 0xc19bf174,
   0xe49b69c1, 0xefbe4786, 0x0fc19dc6, 0x240ca1cc, 0x2de92c6f, 0x4a7484aa, 0x5cb0a9dc, 0x76f988da,
   0x983e5152, 0xa831c66d, 0xb00327c8, 0xbf597fc7, 0xc6e00bf3, 0xd5a79147, 0x06ca6351, 0x14292967,
   0x27b70a85, 0x2e1b2138, 0x4d2c6dfc, 0x53380d13, 0x650a7354, 0x766a0abb, 0x81c2c92e, 0x92722c85,
   0xa2bfe8a1, 0xa81a664b, 0xc24b8b70, 0xc76c51a3, 0xd192e819, 0xd6990624, 0xf40e3585, 0x106aa070,
   0x19a4c116, 0x1e376c08, 0x2748774c, 0x34b0bcb5, 0x391c0cb3, 0x4ed8aa4a, 0x5b9cca4f, 0x682e6ff3,
   0x748f82ee, 0x78a5636f, 0x84c87814, 0x8cc70208, 0x90befffa, 0xa4506ceb, 0xbef9a3f7, 0xc67178f2]

/-- The working variables. -/
structure W where
  a : Nat
  b : Nat
  c : Nat
  d : Nat
  e : Nat
  f : Nat
  g : Nat
  h : Nat

/-- The first 32 bits of the fractional parts of the square roots of the first 8 primes. -/
def init : W := ⟨0x6a09e667, 0xbb67ae85, 0x3c6ef372, 0xa54ff53a, 0x510e527f, 0x9b05688c, 0x1f83d9ab, 0x5be0cd19⟩

/-- One round, with a constant and a word of the schedule. -/
def round (s : W) (kw : Nat × Nat) : W :=
  let s1 := rotr s.e 6 ^^^ rotr s.e 11 ^^^ rotr s.e 25
  let ch := (s.e &&& s.f) ^^^ ((2 ^ 32 - 1 - s.e) &&& s.g)
  let t1 := s.h + s1 + ch + kw.1 + kw.2
  let s0 := rotr s.a 2 ^^^ rotr s.a 13 ^^^ rotr s.a 22
  let maj := (s.a &&& s.b) ^^^ (s.a &&& s.c) ^^^ (s.b &&& s.c)
  ⟨(t1 + s0 + maj) % 2 ^ 32, s.a, s.b, s.c, (s.d + t1) % 2 ^ 32, s.e, s.f, s.g⟩

/-- The next word of the schedule, from the words so far (the last one first). -/
def nextWord (r : List Nat) : Nat :=
  let w2 := r.getD 1 0
  let w7 := r.getD 6 0
  let w15 := r.getD 14 0
  let w16 := r.getD 15 0
  ((rotr w2 17 ^^^ rotr w2 19 ^^^ (w2 >>> 10)) + w7 + (rotr w15 7 ^^^ rotr w15 18 ^^^ (w15 >>> 3)) + w16) % 2 ^ 32

/-- The schedule, last word first: sixteen words of the block, and `n` more. -/
def schedule : Nat → List Nat → List Nat
  | 0, r => r
  | n + 1, r => schedule n (nextWord r :: r)

/-- Big-endian words of a list of bytes. -/
def words : List Nat → List Nat
  | a :: b :: c :: d :: l => (a * 2 ^ 24 + b * 2 ^ 16 + c * 2 ^ 8 + d) :: words l
  | _ => []

/-- One block of sixteen words. -/
def compress (s : W) (ws : List Nat) : W :=
  let t := (k.zip (schedule 48 ws.reverse).reverse).foldl round s
  ⟨(s.a + t.a) % 2 ^ 32, (s.b + t.b) % 2 ^ 32, (s.c + t.c) % 2 ^ 32, (s.d + t.d) % 2 ^ 32, (s.e + t.e) % 2 ^ 32, (s.f + t.f) % 2 ^ 32, (s.g + t.g) % 2 ^ 32, (s.h + t.h) % 2 ^ 32⟩

/-- The last `n` bytes of a number, most significant first. -/
def beBytes : Nat → Nat → List Nat
  | 0, _ => []
  | n + 1, x => beBytes n (x / 256) ++ [x % 256]

/-- Little-endian bytes. -/
def leBytes (n x : Nat) : List Nat := (beBytes n x).reverse

/-- The number with the given bytes, most significant first. -/
def beNat (l : List Nat) : Nat := l.foldl (fun x b => x * 256 + b) 0

/-- Padding to a multiple of 64 bytes: a one bit, zeros, and the length in bits. -/
def pad (m : List Nat) : List Nat := m ++ 0x80 :: List.replicate ((119 - m.length % 64) % 64) 0 ++ beBytes 8 (m.length * 8)

/-- Process blocks of sixteen words; `fuel` bounds their number. -/
def blocks : Nat → W → List Nat → W
  | 0, s, _ => s
  | fuel + 1, s, ws => if ws.length < 16 then s else blocks fuel (compress s (ws.take 16)) (ws.drop 16)

def digest (s : W) : List Nat :=
  beBytes 4 s.a ++ beBytes 4 s.b ++ beBytes 4 s.c ++ beBytes 4 s.d ++ beBytes 4 s.e ++ beBytes 4 s.f ++ beBytes 4 s.g ++ beBytes 4 s.h

/-- SHA-256 of a list of bytes. -/
def sha256 (m : List Nat) : List Nat := digest (blocks (m.length / 64 + 2) init (words (pad m)))

/-- The 80 bytes of a header (`consensus_encode`; the hashes are kept as the big-endian numbers of their bytes). -/
def headerBytes (h : Header) : List Nat :=
  leBytes 4 h.version ++ beBytes 32 h.prev ++ beBytes 32 h.merkle ++ leBytes 4 h.time ++ leBytes 4 h.bits ++ leBytes 4 h.nonce

/-- `BlockHeader::block_hash`: the double SHA-256 of the header. -/
def blockHash (h : Header) : Nat := beNat (sha256 (sha256 (headerBytes h)))

/-- A hash read as little-endian integer, as compared with the target (`Uint256::from_be_bytes` of the reversed bytes in `validate_pow`). -/
def toInt (hash : Nat) : Nat := beNat (beBytes 32 hash).reverse

end Verif.Chain.Sha256
