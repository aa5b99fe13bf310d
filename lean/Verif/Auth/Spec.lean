import Verif.Base.Bytes

/-!
# The published hash functions

MD5 as in RFC 1321, SHA-256, SHA-384 and SHA-512 as in FIPS 180-4, and HMAC as in RFC 2104. The constants of the SHA functions
are computed from what they are: the first bits behind the point of roots of primes.
-/
namespace Verif.Auth.Spec

/-- A number in `k` bytes, the lowest first. -/
def little (k n : Nat) : Bytes := (List.range k).map fun i => UInt8.ofNat (n / 256 ^ i)

/-- A number in `k` bytes, the highest first. -/
def bigBytes (k n : Nat) : Bytes := (little k n).reverse

/-- The number with these bytes, the lowest first. -/
def number : Bytes → Nat
  | [] => 0
  | b :: r => b.toNat + 256 * number r

/-- Padding (RFC 1321, 3.1 and 3.2; FIPS 180-4, 5.1): a bit that is set, as few zeroes as possible, and the length in bits, so
that whole blocks of `B` bytes result. The length takes `L` bytes. -/
def pad (B L : Nat) (len : Nat → Bytes) (m : Bytes) : Bytes :=
  m ++ [0x80] ++ List.replicate ((B - (m.length + 1 + L) % B) % B) 0 ++ len (8 * m.length)

/-- The blocks of `B` bytes. -/
def blocks (B : Nat) (l : Bytes) : List Bytes := (List.range (l.length / B)).map fun i => (l.drop (i * B)).take B

/-! ## MD5 (RFC 1321) -/

/-- The functions of the four rounds (3.4). -/
def mdF (X Y Z : BitVec 32) : BitVec 32 := (X &&& Y) ||| (~~~X &&& Z)
def mdG (X Y Z : BitVec 32) : BitVec 32 := (X &&& Z) ||| (Y &&& ~~~Z)
def mdH (X Y Z : BitVec 32) : BitVec 32 := X ^^^ Y ^^^ Z
def mdI (X Y Z : BitVec 32) : BitVec 32 := Y ^^^ (X ||| ~~~Z)

/-- The function of a step. -/
def mdFun (i : Nat) : BitVec 32 → BitVec 32 → BitVec 32 → BitVec 32 :=
  if i < 16 then mdF else if i < 32 then mdG else if i < 48 then mdH else mdI

/-- The numbers `k` of the steps, round by round. -/
def mdIndex : List Nat :=
  [0, 1, 2, 3, 4, 5, 6, 7, 8, 9, 10, 11, 12, 13, 14, 15,
   1, 6, 11, 0, 5, 10, 15, 4, 9, 14, 3, 8, 13, 2, 7, 12,
   5, 8, 11, 14, 1, 4, 7, 10, 13, 0, 3, 6, 9, 12, 15, 2,
   0, 7, 14, 5, 12, 3, 10, 1, 8, 15, 6, 13, 4, 11, 2, 9]

/-- The numbers `s` of the steps: the four of each round in turn. -/
def mdRotate (i : Nat) : Nat :=
  ([[7, 12, 17, 22], [5, 9, 14, 20], [4, 11, 16, 23], [6, 10, 15, 21]].getD (i / 16) []).getD (i % 4) 0

/-- The table `T`: the integer part of 4294967296 times `abs(sin(i))`, for `i` from 1 to 64. -/
def mdT : List Nat :=
  [0xd76aa478, 0xe8c7b756, 0x242070db, 0xc1bdceee, 0xf57c0faf, 0x4787c62a, 0xa8304613, 0xfd469501,
   0x698098d8, 0x8b44f7af, 0xffff5bb1, 0x895cd7be, 0x6b901122, 0xfd987193, 0xa679438e, 0x49b40821,
   0xf61e2562, 0xc040b340, 0x265e5a51, 0xe9b6c7aa, 0xd62f105d, 0x02441453, 0xd8a1e681, 0xe7d3fbc8,
   0x21e1cde6, 0xc33707d6, 0xf4d50d87, 0x455a14ed, 0xa9e3e905, 0xfcefa3f8, 0x676f02d9, 0x8d2a4c8a,
   0xfffa3942, 0x8771f681, 0x6d9d6122, 0xfde5380c, 0xa4beea44, 0x4bdecfa9, 0xf6bb4b60, 0xbebfbc70,
   0x289b7ec6, 0xeaa127fa, 0xd4ef3085, 0x04881d05, 0xd9d4d039, 0xe6db99e5, 0x1fa27cf8, 0xc4ac5665,
   0xf4292244, 0x432aff97, 0xab9423a7, 0xfc93a039, 0x655b59c3, 0x8f0ccc92, 0xffeff47d, 0x85845dd1,
   0x6fa87e4f, 0xfe2ce6e0, 0xa3014314, 0x4e0811a1, 0xf7537e82, 0xbd3af235, 0x2ad7d2bb, 0xeb86d391]

/-- The word `X[k]` of a block. -/
def mdWord (block : Bytes) (k : Nat) : BitVec 32 := BitVec.ofNat 32 (number ((block.drop (4 * k)).take 4))

/-- The step `[abcd k s i]`: `a = b + ((a + F(b,c,d) + X[k] + T[i]) <<< s)`, where the registers take turns: A, D, C, B. The
registers are numbered from 0 to 3. -/
def mdStep (block : Bytes) (r : Nat → BitVec 32) (i : Nat) : Nat → BitVec 32 :=
  let p := (4 - i % 4) % 4
  let x := r p + mdFun i (r ((p + 1) % 4)) (r ((p + 2) % 4)) (r ((p + 3) % 4)) + mdWord block (mdIndex.getD i 0) +
    BitVec.ofNat 32 (mdT.getD i 0)
  fun q => if q = p then r ((p + 1) % 4) + x.rotateLeft (mdRotate i) else r q

/-- A block is added. -/
def mdCompress (r : Nat → BitVec 32) (block : Bytes) : Nat → BitVec 32 :=
  fun q => (List.range 64).foldl (mdStep block) r q + r q

/-- The registers at the start (3.3): 01 23 45 67 89 ab cd ef fe dc ba 98 76 54 32 10, the lowest byte first. -/
def mdStart : Nat → BitVec 32
  | 0 => 0x67452301
  | 1 => 0xefcdab89
  | 2 => 0x98badcfe
  | _ => 0x10325476

/-- MD5. -/
def md5 (m : Bytes) : Bytes :=
  let r := (blocks 64 (pad 64 8 (little 8) m)).foldl mdCompress mdStart
  ((List.range 4).map fun q => little 4 (r q).toNat).flatten

/-! ## SHA-2 (FIPS 180-4) -/

/-- The prime numbers below 410; these are the first eighty. -/
def primes : List Nat := (List.range 410).filter fun n => 2 ≤ n && (List.range n).all fun d => d < 2 || n % d != 0

/-- The integer part of the `k`-th root of a number, up to 80 bits, found bit by bit from the highest. -/
def root (k n : Nat) : Nat := (List.range 80).reverse.foldl (fun r b => if (r + 2 ^ b) ^ k ≤ n then r + 2 ^ b else r) 0

/-- The first `n` bits behind the point of the square root of the `i`-th prime number. -/
def sqrtBits (n i : Nat) : BitVec n := BitVec.ofNat n (root 2 (primes.getD i 0 * 2 ^ (2 * n)))

/-- The first `n` bits behind the point of the cube root of the `i`-th prime number. -/
def cbrtBits (n i : Nat) : BitVec n := BitVec.ofNat n (root 3 (primes.getD i 0 * 2 ^ (3 * n)))

/-- What differs between SHA-256 and SHA-512. -/
structure Variant (n : Nat) where
  rounds : Nat
  S0 : BitVec n → BitVec n
  S1 : BitVec n → BitVec n
  s0 : BitVec n → BitVec n
  s1 : BitVec n → BitVec n

/-- FIPS 180-4, 4.1.2. -/
def v256 : Variant 32 where
  rounds := 64
  S0 x := x.rotateRight 2 ^^^ x.rotateRight 13 ^^^ x.rotateRight 22
  S1 x := x.rotateRight 6 ^^^ x.rotateRight 11 ^^^ x.rotateRight 25
  s0 x := x.rotateRight 7 ^^^ x.rotateRight 18 ^^^ x >>> 3
  s1 x := x.rotateRight 17 ^^^ x.rotateRight 19 ^^^ x >>> 10

/-- FIPS 180-4, 4.1.3. -/
def v512 : Variant 64 where
  rounds := 80
  S0 x := x.rotateRight 28 ^^^ x.rotateRight 34 ^^^ x.rotateRight 39
  S1 x := x.rotateRight 14 ^^^ x.rotateRight 18 ^^^ x.rotateRight 41
  s0 x := x.rotateRight 1 ^^^ x.rotateRight 8 ^^^ x >>> 7
  s1 x := x.rotateRight 19 ^^^ x.rotateRight 61 ^^^ x >>> 6

def Ch {n : Nat} (x y z : BitVec n) : BitVec n := (x &&& y) ^^^ (~~~x &&& z)
def Maj {n : Nat} (x y z : BitVec n) : BitVec n := (x &&& y) ^^^ (x &&& z) ^^^ (y &&& z)

/-- The message schedule (6.2.2 and 6.4.2, step 1), where `M` are the words of the block. -/
def schedule {n : Nat} (v : Variant n) (M : Nat → BitVec n) (t : Nat) : BitVec n :=
  if t < 16 then M t
  else v.s1 (schedule v M (t - 2)) + schedule v M (t - 7) + v.s0 (schedule v M (t - 15)) + schedule v M (t - 16)
termination_by t

/-- The working variables a, b, c, d, e, f, g, h, in this order. -/
def shaStep {n : Nat} (v : Variant n) (M : Nat → BitVec n) (s : List (BitVec n)) (t : Nat) : List (BitVec n) :=
  match s with
  | [a, b, c, d, e, f, g, h] =>
    let T1 := h + v.S1 e + Ch e f g + cbrtBits n t + schedule v M t
    let T2 := v.S0 a + Maj a b c
    [T1 + T2, a, b, c, d + T1, e, f, g]
  | s => s

/-- The word with number `t` of a block. -/
def shaWord (n : Nat) (block : Bytes) (t : Nat) : BitVec n :=
  BitVec.ofNat n (number ((block.drop (n / 8 * t)).take (n / 8)).reverse)

/-- A block is added. -/
def shaCompress {n : Nat} (v : Variant n) (H : List (BitVec n)) (block : Bytes) : List (BitVec n) :=
  List.zipWith (· + ·) ((List.range v.rounds).foldl (shaStep v (shaWord n block)) H) H

/-- The bytes of words. -/
def shaOut {n : Nat} (H : List (BitVec n)) : Bytes := (H.map fun x => bigBytes (n / 8) x.toNat).flatten

/-- SHA-256. -/
def sha256 (m : Bytes) : Bytes :=
  shaOut ((blocks 64 (pad 64 8 (bigBytes 8) m)).foldl (shaCompress v256) ((List.range 8).map (sqrtBits 32)))

/-- SHA-512. -/
def sha512 (m : Bytes) : Bytes :=
  shaOut ((blocks 128 (pad 128 16 (bigBytes 16) m)).foldl (shaCompress v512) ((List.range 8).map (sqrtBits 64)))

/-- SHA-384: SHA-512 with the roots of the ninth to sixteenth prime, cut to 48 bytes. -/
def sha384 (m : Bytes) : Bytes :=
  (shaOut ((blocks 128 (pad 128 16 (bigBytes 16) m)).foldl (shaCompress v512) ((List.range 8).map fun i => sqrtBits 64 (8 + i)))).take 48

/-! ## HMAC (RFC 2104) -/

/-- The key, hashed if it is longer than a block, with zeroes up to the length of a block. -/
def blockKey (H : Bytes → Bytes) (B : Nat) (key : Bytes) : Bytes :=
  let k := if key.length ≤ B then key else H key
  k ++ List.replicate (B - k.length) 0

/-- `H(K XOR opad, H(K XOR ipad, text))`. -/
def hmac (H : Bytes → Bytes) (B : Nat) (key text : Bytes) : Bytes :=
  let k := blockKey H B key
  H (List.zipWith (· ^^^ ·) k (List.replicate B 0x5C) ++ H (List.zipWith (· ^^^ ·) k (List.replicate B 0x36) ++ text))

/-- Bytes in hexadecimal digits, in lower case. -/
def hex (l : Bytes) : Bytes :=
  let digits : List UInt8 := [48, 49, 50, 51, 52, 53, 54, 55, 56, 57, 97, 98, 99, 100, 101, 102]
  l.flatMap fun b => [digits.getD (b.toNat / 16) 0, digits.getD (b.toNat % 16) 0]

end Verif.Auth.Spec

namespace Verif.Auth.Spec

/-! ## Viewers -/

/-- What is known about a viewer. -/
structure Viewer where
  stream : Bytes
  ip : Bytes
  token : Bytes
  protocol : Bytes
  deriving DecidableEq

/-- The fields that the configuration selects, as a sum of 8 for the stream, 4 for the address, 2 for the token and 1 for the
protocol. -/
inductive Field where
  | stream | ip | token | protocol
  deriving DecidableEq

/-- The value of a field. -/
def Viewer.get (v : Viewer) : Field → Bytes
  | .stream => v.stream
  | .ip => v.ip
  | .token => v.token
  | .protocol => v.protocol

/-- Whether the configuration selects a field. -/
def selects (mode : Nat) : Field → Bool
  | .stream => mode / 8 % 2 = 1
  | .ip => mode / 4 % 2 = 1
  | .token => mode / 2 % 2 = 1
  | .protocol => mode % 2 = 1

/-- Two viewers differ in no selected field. -/
def Same (mode : Nat) (v w : Viewer) : Prop := ∀ f, selects mode f = true → v.get f = w.get f

end Verif.Auth.Spec
