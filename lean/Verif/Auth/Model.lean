import Verif.Base.Bytes

/-!
# Model of the hash functions (`/repo/lib/auth.cpp`)

Numbers of type `uint32_t` and `uint64_t` are bit vectors. `char` is unsigned (the build has `-funsigned-char`).
A pointer into the input is the list of the bytes from there on.
-/
namespace Verif.Auth

/-- `data[i]` as a number of 32 bits; the callers pass at least as many bytes as are read. -/
def byte32 (d : Bytes) (i : Nat) : BitVec 32 := BitVec.ofNat 32 (d.getD i 0).toNat

/-- `data[i]` as a number of 64 bits. -/
def byte64 (d : Bytes) (i : Nat) : BitVec 64 := BitVec.ofNat 64 (d.getD i 0).toNat

/-- `(x >> n) & 0xff` as a byte. -/
def out32 (x : BitVec 32) (n : Nat) : UInt8 := UInt8.ofNat ((x >>> n) &&& 0xff#32).toNat

/-- `(x >> n) & 0xff` as a byte. -/
def out64 (x : BitVec 64) (n : Nat) : UInt8 := UInt8.ofNat ((x >>> n) &&& 0xff#64).toNat

/-- auth.cpp 104-108, 223-227 and 394-398: whole blocks of `B` bytes are added as long as there are any; the hash and what
is left of the input. The first argument bounds the rounds. -/
def whole {H : Type} (add : H → Bytes → H) (B : Nat) : Nat → H → Bytes → H × Bytes
  | 0, h, l => (h, l)
  | n + 1, h, l => if B ≤ l.length then whole add B n (add h (l.take B)) (l.drop B) else (h, l)

/-- auth.cpp 109-134, 228-253 and 399-418: the rest of the input in a buffer of `B` bytes, with 0x80 and zeroes behind it; if
more than `max` bytes are in use, there is no room for the length, and a buffer of zeroes follows. The length goes to
`place`. -/
def finish {H : Type} (add : H → Bytes → H) (B max place : Nat) (len : Bytes) (h : H) (rest : Bytes) : H :=
  let buffer := rest ++ [0x80] ++ List.replicate (B - rest.length - 1) 0
  if rest.length > max then add (add h buffer) ((List.replicate B 0).take place ++ len)
  else add h (buffer.take place ++ len)

/-! ## MD5 -/

/-- auth.cpp 47-50: `M[i]`. -/
def md5Word (d : Bytes) (i : Nat) : BitVec 32 :=
  byte32 d (i <<< 2) ||| (byte32 d ((i <<< 2) + 1) <<< 8) ||| (byte32 d ((i <<< 2) + 2) <<< 16) ||| (byte32 d ((i <<< 2) + 3) <<< 24)

/-- auth.cpp 51-54. -/
def md5Shift : List Nat :=
  [7, 12, 17, 22, 7, 12, 17, 22, 7, 12, 17, 22, 7, 12, 17, 22,
   5, 9, 14, 20, 5, 9, 14, 20, 5, 9, 14, 20, 5, 9, 14, 20,
   4, 11, 16, 23, 4, 11, 16, 23, 4, 11, 16, 23, 4, 11, 16, 23,
   6, 10, 15, 21, 6, 10, 15, 21, 6, 10, 15, 21, 6, 10, 15, 21]

/-- auth.cpp 55-65. -/
def md5K : List (BitVec 32) :=
  [0xd76aa478, 0xe8c7b756, 0x242070db, 0xc1bdceee, 0xf57c0faf, 0x4787c62a,
   0xa8304613, 0xfd469501, 0x698098d8, 0x8b44f7af, 0xffff5bb1, 0x895cd7be,
   0x6b901122, 0xfd987193, 0xa679438e, 0x49b40821, 0xf61e2562, 0xc040b340,
   0x265e5a51, 0xe9b6c7aa, 0xd62f105d, 0x02441453, 0xd8a1e681, 0xe7d3fbc8,
   0x21e1cde6, 0xc33707d6, 0xf4d50d87, 0x455a14ed, 0xa9e3e905, 0xfcefa3f8,
   0x676f02d9, 0x8d2a4c8a, 0xfffa3942, 0x8771f681, 0x6d9d6122, 0xfde5380c,
   0xa4beea44, 0x4bdecfa9, 0xf6bb4b60, 0xbebfbc70, 0x289b7ec6, 0xeaa127fa,
   0xd4ef3085, 0x04881d05, 0xd9d4d039, 0xe6db99e5, 0x1fa27cf8, 0xc4ac5665,
   0xf4292244, 0x432aff97, 0xab9423a7, 0xfc93a039, 0x655b59c3, 0x8f0ccc92,
   0xffeff47d, 0x85845dd1, 0x6fa87e4f, 0xfe2ce6e0, 0xa3014314, 0x4e0811a1,
   0xf7537e82, 0xbd3af235, 0x2ad7d2bb, 0xeb86d391]

/-- The variables `A` to `D`. -/
abbrev Md5 := BitVec 32 × BitVec 32 × BitVec 32 × BitVec 32

/-- auth.cpp 71-84: `F` and `g`. -/
def md5Choose (i : Nat) (B C D : BitVec 32) : BitVec 32 × Nat :=
  if i < 16 then ((B &&& C) ||| (~~~B &&& D), i)
  else if i < 32 then ((D &&& B) ||| (~~~D &&& C), (5 * i + 1) % 16)
  else if i < 48 then (B ^^^ C ^^^ D, (3 * i + 5) % 16)
  else (C ^^^ (B ||| ~~~D), (7 * i) % 16)

/-- auth.cpp 70-91: one round. -/
def md5Round (d : Bytes) (s : Md5) (i : Nat) : Md5 :=
  let (A, B, C, D) := s
  let (F, g) := md5Choose i B C D
  let x := A + F + md5K.getD i 0 + md5Word d g
  (D, B + (x <<< md5Shift.getD i 0 ||| x >>> (32 - md5Shift.getD i 0)), B, C)

/-- auth.cpp 44-96: `md5_add64`. -/
def md5Add (h : Md5) (d : Bytes) : Md5 :=
  let r := (List.range 64).foldl (md5Round d) h
  (h.1 + r.1, h.2.1 + r.2.1, h.2.2.1 + r.2.2.1, h.2.2.2 + r.2.2.2)

/-- auth.cpp 102. -/
def md5Init : Md5 := (0x67452301, 0xefcdab89, 0x98badcfe, 0x10325476)

/-- auth.cpp 123-132: the length in bits. -/
def md5Len (n : Nat) : Bytes :=
  let b : BitVec 64 := BitVec.ofNat 64 n <<< 3
  [out64 b 0, out64 b 8, out64 b 16, out64 b 24, out64 b 32, out64 b 40, out64 b 48, out64 b 54]

/-- auth.cpp 137-152: a number of the result. -/
def md5Out (x : BitVec 32) : Bytes := [out32 x 0, out32 x 8, out32 x 16, out32 x 24]

/-- auth.cpp 100-153: `md5bin`. -/
def md5bin (input : Bytes) : Bytes :=
  let w := whole md5Add 64 input.length md5Init input
  let h := finish md5Add 64 55 56 (md5Len input.length) w.1 w.2
  md5Out h.1 ++ md5Out h.2.1 ++ md5Out h.2.2.1 ++ md5Out h.2.2.2

/-! ## SHA-256 -/

/-- auth.cpp 161-164: `w[i]` for the first sixteen. -/
def sha256Word (d : Bytes) (i : Nat) : BitVec 32 :=
  byte32 d ((i <<< 2) + 3) ||| (byte32 d ((i <<< 2) + 2) <<< 8) ||| (byte32 d ((i <<< 2) + 1) <<< 16) ||| (byte32 d (i <<< 2) <<< 24)

/-- auth.cpp 167: `rr`, on numbers of 64 bits. -/
def rr32 (x : BitVec 64) (c : Nat) : BitVec 64 := (x <<< (32 - c)) ||| ((x &&& 0xFFFFFFFF#64) >>> c)

/-- Conversion of a `uint32_t` to 64 bits. -/
def up (x : BitVec 32) : BitVec 64 := x.setWidth 64

/-- Conversion to `uint32_t`. -/
def down (x : BitVec 64) : BitVec 32 := x.setWidth 32

/-- auth.cpp 170-172: the next of the numbers `w`. -/
def sha256Next (w : List (BitVec 32)) (i : Nat) : BitVec 32 :=
  let x := w.getD (i - 15) 0
  let y := w.getD (i - 2) 0
  let s0 := down (rr32 (up x) 7 ^^^ rr32 (up x) 18 ^^^ up ((x &&& 0xFFFFFFFF#32) >>> 3))
  let s1 := down (rr32 (up y) 17 ^^^ rr32 (up y) 19 ^^^ up ((y &&& 0xFFFFFFFF#32) >>> 10))
  w.getD (i - 16) 0 + s0 + w.getD (i - 7) 0 + s1

/-- auth.cpp 160-173: `w`. -/
def sha256Sched (d : Bytes) : List (BitVec 32) :=
  (List.range' 16 48).foldl (fun w i => w ++ [sha256Next w i]) ((List.range 16).map (sha256Word d))

/-- auth.cpp 175-185. -/
def k256 : List (BitVec 32) :=
  [0x428a2f98, 0x71374491, 0xb5c0fbcf, 0xe9b5dba5, 0x3956c25b, 0x59f111f1,
   0x923f82a4, 0xab1c5ed5, 0xd807aa98, 0x12835b01, 0x243185be, 0x550c7dc3,
   0x72be5d74, 0x80deb1fe, 0x9bdc06a7, 0xc19bf174, 0xe49b69c1, 0xefbe4786,
   0x0fc19dc6, 0x240ca1cc, 0x2de92c6f, 0x4a7484aa, 0x5cb0a9dc, 0x76f988da,
   0x983e5152, 0xa831c66d, 0xb00327c8, 0xbf597fc7, 0xc6e00bf3, 0xd5a79147,
   0x06ca6351, 0x14292967, 0x27b70a85, 0x2e1b2138, 0x4d2c6dfc, 0x53380d13,
   0x650a7354, 0x766a0abb, 0x81c2c92e, 0x92722c85, 0xa2bfe8a1, 0xa81a664b,
   0xc24b8b70, 0xc76c51a3, 0xd192e819, 0xd6990624, 0xf40e3585, 0x106aa070,
   0x19a4c116, 0x1e376c08, 0x2748774c, 0x34b0bcb5, 0x391c0cb3, 0x4ed8aa4a,
   0x5b9cca4f, 0x682e6ff3, 0x748f82ee, 0x78a5636f, 0x84c87814, 0x8cc70208,
   0x90befffa, 0xa4506ceb, 0xbef9a3f7, 0xc67178f2]

/-- The variables `a` to `h`. -/
structure Regs (n : Nat) where
  a : BitVec n
  b : BitVec n
  c : BitVec n
  d : BitVec n
  e : BitVec n
  f : BitVec n
  g : BitVec n
  h : BitVec n
  deriving DecidableEq

/-- auth.cpp 206-213 and 348-355. -/
def Regs.add {n : Nat} (x y : Regs n) : Regs n :=
  ⟨x.a + y.a, x.b + y.b, x.c + y.c, x.d + y.d, x.e + y.e, x.f + y.f, x.g + y.g, x.h + y.h⟩

/-- auth.cpp 194-205: one round. The sums are taken with 64 bits. -/
def sha256Round (w : List (BitVec 32)) (s : Regs 32) (i : Nat) : Regs 32 :=
  let temp1 := down (up s.h + (rr32 (up s.e) 6 ^^^ rr32 (up s.e) 11 ^^^ rr32 (up s.e) 25) + up (s.g ^^^ (s.e &&& (s.f ^^^ s.g))) +
    up (k256.getD i 0) + up (w.getD i 0))
  let temp2 := down ((rr32 (up s.a) 2 ^^^ rr32 (up s.a) 13 ^^^ rr32 (up s.a) 22) + up ((s.a &&& s.b) ||| (s.c &&& (s.a ||| s.b))))
  ⟨temp1 + temp2, s.a, s.b, s.c, s.d + temp1, s.e, s.f, s.g⟩

/-- auth.cpp 158-214: `sha256_add64`. -/
def sha256Add (h : Regs 32) (d : Bytes) : Regs 32 := h.add ((List.range 64).foldl (sha256Round (sha256Sched d)) h)

/-- auth.cpp 220-221. -/
def sha256Init : Regs 32 :=
  ⟨0x6a09e667, 0xbb67ae85, 0x3c6ef372, 0xa54ff53a, 0x510e527f, 0x9b05688c, 0x1f83d9ab, 0x5be0cd19⟩

/-- auth.cpp 242-251: the length in bits. -/
def sha256Len (n : Nat) : Bytes :=
  let b : BitVec 64 := BitVec.ofNat 64 n <<< 3
  [out64 b 54, out64 b 48, out64 b 40, out64 b 32, out64 b 24, out64 b 16, out64 b 8, out64 b 0]

/-- auth.cpp 255-286: a number of the result. -/
def sha256Out (x : BitVec 32) : Bytes := [out32 x 24, out32 x 16, out32 x 8, out32 x 0]

/-- auth.cpp 218-287: `sha256bin`. -/
def sha256bin (input : Bytes) : Bytes :=
  let w := whole sha256Add 64 input.length sha256Init input
  let h := finish sha256Add 64 55 56 (sha256Len input.length) w.1 w.2
  sha256Out h.a ++ sha256Out h.b ++ sha256Out h.c ++ sha256Out h.d ++ sha256Out h.e ++ sha256Out h.f ++ sha256Out h.g ++ sha256Out h.h

/-! ## SHA-384 and SHA-512 -/

/-- auth.cpp 292-295: `w[i]` for the first sixteen. -/
def sha512Word (d : Bytes) (i : Nat) : BitVec 64 :=
  (List.range 8).foldl (fun x j => x ||| (byte64 d (i * 8 + j) <<< ((7 - j) * 8))) 0

/-- auth.cpp 297: `rr`. -/
def rr64 (x : BitVec 64) (c : Nat) : BitVec 64 := (x >>> c) ||| (x <<< (64 - c))

/-- auth.cpp 300-302: the next of the numbers `w`. -/
def sha512Next (w : List (BitVec 64)) (i : Nat) : BitVec 64 :=
  let x := w.getD (i - 15) 0
  let y := w.getD (i - 2) 0
  let s0 := rr64 x 1 ^^^ rr64 x 8 ^^^ (x >>> 7)
  let s1 := rr64 y 19 ^^^ rr64 y 61 ^^^ (y >>> 6)
  w.getD (i - 16) 0 + s0 + w.getD (i - 7) 0 + s1

/-- auth.cpp 290-303: `w`. -/
def sha512Sched (d : Bytes) : List (BitVec 64) :=
  (List.range' 16 64).foldl (fun w i => w ++ [sha512Next w i]) ((List.range 16).map (sha512Word d))

/-- auth.cpp 305-325. -/
def k512 : List (BitVec 64) :=
  [0x428a2f98d728ae22, 0x7137449123ef65cd, 0xb5c0fbcfec4d3b2f, 0xe9b5dba58189dbbc,
   0x3956c25bf348b538, 0x59f111f1b605d019, 0x923f82a4af194f9b, 0xab1c5ed5da6d8118,
   0xd807aa98a3030242, 0x12835b0145706fbe, 0x243185be4ee4b28c, 0x550c7dc3d5ffb4e2,
   0x72be5d74f27b896f, 0x80deb1fe3b1696b1, 0x9bdc06a725c71235, 0xc19bf174cf692694,
   0xe49b69c19ef14ad2, 0xefbe4786384f25e3, 0x0fc19dc68b8cd5b5, 0x240ca1cc77ac9c65,
   0x2de92c6f592b0275, 0x4a7484aa6ea6e483, 0x5cb0a9dcbd41fbd4, 0x76f988da831153b5,
   0x983e5152ee66dfab, 0xa831c66d2db43210, 0xb00327c898fb213f, 0xbf597fc7beef0ee4,
   0xc6e00bf33da88fc2, 0xd5a79147930aa725, 0x06ca6351e003826f, 0x142929670a0e6e70,
   0x27b70a8546d22ffc, 0x2e1b21385c26c926, 0x4d2c6dfc5ac42aed, 0x53380d139d95b3df,
   0x650a73548baf63de, 0x766a0abb3c77b2a8, 0x81c2c92e47edaee6, 0x92722c851482353b,
   0xa2bfe8a14cf10364, 0xa81a664bbc423001, 0xc24b8b70d0f89791, 0xc76c51a30654be30,
   0xd192e819d6ef5218, 0xd69906245565a910, 0xf40e35855771202a, 0x106aa07032bbd1b8,
   0x19a4c116b8d2d0c8, 0x1e376c085141ab53, 0x2748774cdf8eeb99, 0x34b0bcb5e19b48a8,
   0x391c0cb3c5c95a63, 0x4ed8aa4ae3418acb, 0x5b9cca4f7763e373, 0x682e6ff3d6b2b8a3,
   0x748f82ee5defb2fc, 0x78a5636f43172f60, 0x84c87814a1f0ab72, 0x8cc702081a6439ec,
   0x90befffa23631e28, 0xa4506cebde82bde9, 0xbef9a3f7b2c67915, 0xc67178f2e372532b,
   0xca273eceea26619c, 0xd186b8c721c0c207, 0xeada7dd6cde0eb1e, 0xf57d4f7fee6ed178,
   0x06f067aa72176fba, 0x0a637dc5a2c898a6, 0x113f9804bef90dae, 0x1b710b35131c471b,
   0x28db77f523047d84, 0x32caab7b40c72493, 0x3c9ebe0a15c9bebc, 0x431d67c49c100d4c,
   0x4cc5d4becb3e42b6, 0x597f299cfc657e2a, 0x5fcb6fab3ad6faec, 0x6c44198c4a475817]

/-- auth.cpp 330-346: one round. -/
def sha512Round (w : List (BitVec 64)) (s : Regs 64) (i : Nat) : Regs 64 :=
  let s1 := rr64 s.e 14 ^^^ rr64 s.e 18 ^^^ rr64 s.e 41
  let ch := (s.e &&& s.f) ^^^ (~~~s.e &&& s.g)
  let temp1 := s.h + s1 + ch + k512.getD i 0 + w.getD i 0
  let s0 := rr64 s.a 28 ^^^ rr64 s.a 34 ^^^ rr64 s.a 39
  let maj := (s.a &&& s.b) ^^^ (s.a &&& s.c) ^^^ (s.b &&& s.c)
  let temp2 := s0 + maj
  ⟨temp1 + temp2, s.a, s.b, s.c, s.d + temp1, s.e, s.f, s.g⟩

/-- auth.cpp 289-356: `sha512_add128`. -/
def sha512Add (h : Regs 64) (d : Bytes) : Regs 64 := h.add ((List.range 80).foldl (sha512Round (sha512Sched d)) h)

/-- auth.cpp 372-391. -/
def sha512Init (is384 : Bool) : Regs 64 :=
  if is384 then
    ⟨0xcbbb9d5dc1059ed8, 0x629a292a367cd507, 0x9159015a3070dd17, 0x152fecd8f70e5939, 0x67332667ffc00b31, 0x8eb44a8768581511,
      0xdb0c2e0d64f98fa7, 0x47b5481dbefa4fa4⟩
  else
    ⟨0x6a09e667f3bcc908, 0xbb67ae8584caa73b, 0x3c6ef372fe94f82b, 0xa54ff53a5f1d36f1, 0x510e527fade682d1, 0x9b05688c2b3e6c1f,
      0x1f83d9abfb41bd6b, 0x5be0cd19137e2179⟩

/-- auth.cpp 414, 415 and 423: a number of 64 bits, the highest byte first. -/
def sha512Out (x : BitVec 64) : Bytes := (List.range 8).map fun j => out64 x (56 - j * 8)

/-- auth.cpp 413-415: the length in bits. -/
def sha512Len (n : Nat) : Bytes := sha512Out 0 ++ sha512Out (BitVec.ofNat 64 n * 8)

/-- auth.cpp 370-425: `sha512bin`. -/
def sha512bin (input : Bytes) (is384 : Bool) : Bytes :=
  let w := whole sha512Add 128 input.length (sha512Init is384) input
  let h := finish sha512Add 128 111 112 (sha512Len input.length) w.1 w.2
  (([h.a, h.b, h.c, h.d, h.e, h.f, h.g, h.h].take (if is384 then 6 else 8)).map sha512Out).flatten

/-! ## HMAC -/

/-- auth.cpp 471-496: `hmacbin`, with a function that gives `hashSize` bytes, at most `blockSize`. That the arrays on the
stack may be too large is left out. -/
def hmacbin (msg key : Bytes) (hashSize : Nat) (hasher : Bytes → Bytes) (blockSize : Nat) : Bytes :=
  let keyData :=
    if key.length > blockSize then hasher key ++ List.replicate (blockSize - hashSize) 0
    else key ++ List.replicate (blockSize - key.length) 0
  let inner := keyData.map (· ^^^ 0x36) ++ msg
  let outer := keyData.map (· ^^^ 0x5c) ++ hasher inner
  hasher outer

/-- auth.h: the three functions of `SHA`. -/
inductive Sha where
  | sha256 | sha384 | sha512
  deriving DecidableEq

/-- auth.cpp 428-434: `shabin`. -/
def shabin (input : Bytes) : Sha → Bytes
  | .sha256 => sha256bin input
  | .sha384 => sha512bin input true
  | .sha512 => sha512bin input false

/-- auth.cpp 515-521: `hmac_shabin`. -/
def hmacShabin (msg key : Bytes) : Sha → Bytes
  | .sha256 => hmacbin msg key 32 sha256bin 64
  | .sha384 => hmacbin msg key 48 (fun x => sha512bin x true) 128
  | .sha512 => hmacbin msg key 64 (fun x => sha512bin x false) 128

/-- A digit of `std::hex`. -/
def hexDigit (n : Nat) : UInt8 := if n < 10 then UInt8.ofNat (48 + n) else UInt8.ofNat (87 + n)

/-- auth.cpp 21-23, 35-37 and 461-463: `std::hex << std::setw(2) << std::setfill('0')` for every byte. -/
def hexOut (l : Bytes) : Bytes := (l.map fun b => [hexDigit (b.toNat / 16), hexDigit (b.toNat % 16)]).flatten

/-- auth.cpp 13-25: `md5`. -/
def md5 (input : Bytes) : Bytes := hexOut (md5bin input)

/-- auth.cpp 27-39: `sha256`. -/
def sha256 (input : Bytes) : Bytes := hexOut (sha256bin input)

/-- auth.cpp 499-511: `hmac_sha`. -/
def hmacSha (msg key : Bytes) (alg : Sha) : Bytes := hexOut (hmacShabin msg key alg)

/-! ## Sessions -/

/-- comms.cpp 629-651: what `generateSession` hashes. -/
def sessionText (stream ip tkn connector : Bytes) (mode : Nat) : Bytes :=
  (if mode &&& 8 ≠ 0 then stream else []) ++ (if mode &&& 4 ≠ 0 then ip else []) ++ (if mode &&& 2 ≠ 0 then tkn else []) ++
  (if mode &&& 1 ≠ 0 then connector else [])

/-- comms.cpp 629-656: `generateSession`. -/
def generateSession (stream ip tkn connector : Bytes) (mode : Nat) : Bytes := sha256 (sessionText stream ip tkn connector mode)

end Verif.Auth
