import Verif.Base.Bytes

/-!
# FLAC files (RFC 9639)
-/

namespace Verif.Flac.Spec
open Verif

/-- A byte moved through the register of the check sum with the polynomial `x^8 + x^2 + x + 1`. -/
def shift (r : UInt8) : Nat → UInt8
  | 0 => r
  | n + 1 => shift (if 128 ≤ r.toNat then (r <<< 1) ^^^ 7 else r <<< 1) n

/-- The check sum of a frame header. -/
def crc8 (h : Bytes) : UInt8 := h.foldl (fun r b => shift (r ^^^ b) 8) 0

/-- The coded number of a frame, up to 21 bits. -/
def coded (n : Nat) : Bytes :=
  if n < 128 then [UInt8.ofNat n]
  else if n < 2048 then [UInt8.ofNat (0xC0 + n / 64), UInt8.ofNat (0x80 + n % 64)]
  else if n < 65536 then [UInt8.ofNat (0xE0 + n / 4096), UInt8.ofNat (0x80 + n / 64 % 64), UInt8.ofNat (0x80 + n % 64)]
  else [UInt8.ofNat (0xF0 + n / 262144), UInt8.ofNat (0x80 + n / 4096 % 64), UInt8.ofNat (0x80 + n / 64 % 64),
    UInt8.ofNat (0x80 + n % 64)]

/-- A frame of a file with blocks of the same size: sizes and rate, channels, further bytes of the header for uncommon sizes,
subframes and the check sum at the end. -/
structure Frame where
  /-- codes of block size and rate -/
  b2 : UInt8
  /-- codes of channels and bits -/
  b3 : UInt8
  /-- uncommon block size and rate -/
  extra : Bytes
  /-- the rest -/
  body : Bytes

/-- The header of frame `n`, without check sum. -/
def Frame.head (f : Frame) (n : Nat) : Bytes := [0xFF, 0xF8, f.b2, f.b3] ++ coded n ++ f.extra

/-- Frame `n`. -/
def Frame.bytes (f : Frame) (n : Nat) : Bytes := f.head n ++ [crc8 (f.head n)] ++ f.body

/-- Frames, from number `n` on. -/
def frames : Nat → List Frame → Bytes
  | _, [] => []
  | n, f :: t => f.bytes n ++ frames (n + 1) t

/-- The rate of a frame. -/
def rates : List (Nat × Nat) :=
  [(1, 88200), (2, 176400), (3, 192000), (4, 8000), (5, 16000), (6, 22050), (7, 24000), (8, 32000), (9, 44100), (10, 48000),
   (11, 96000)]

/-- A frame with a common block size and the rate in its header. -/
def Frame.Common (f : Frame) (rate : Nat) : Prop :=
  f.extra = [] ∧ rates.lookup (f.b2.toNat % 16) = some rate

/-- The number that bytes stand for, coded in one to three bytes. -/
def Means (n : Nat) : Bytes → Prop
  | [a] => n = a.toNat
  | [a, b] => n = a.toNat % 32 * 64 + b.toNat % 64
  | [a, b, c] => n = a.toNat % 32 * 4096 + b.toNat % 64 * 64 + c.toNat % 64
  | _ => False

/-- What looks like the header of the frame after number `n`: the sync code, bytes with their check sum, and the next number
(any number after the first frame). -/
def Looks (n : Nat) (b : Bytes) : Prop :=
  b.take 2 = [0xFF, 0xF8] ∧ ∃ k, 5 ≤ k ∧ k ≤ 13 ∧ b[k]? = some (crc8 (b.take k)) ∧ (n = 0 ∨ Means (n + 1) ((b.take k).drop 4))

/-- Nothing behind the sync code of a frame of this length looks like the next frame, and no sync code is in the last 13
bytes of the file. -/
def Clear (n len : Nat) (b : Bytes) : Prop :=
  ∀ p, 2 ≤ p → p < len → (b.drop p).take 2 = [0xFF, 0xF8] → 13 < (b.drop p).length ∧ ¬ Looks n (b.drop p)

/-- All frames are clear. -/
def AllClear : Nat → List Frame → Prop
  | _, [] => True
  | n, f :: t => Clear n (f.bytes n).length (frames n (f :: t)) ∧ AllClear (n + 1) t

/-- The packets of frames: time in milliseconds, place and data. -/
def packets (rate block : Nat) : Nat → Nat → List Frame → List (Nat × Nat × Bytes)
  | _, _, [] => []
  | n, pos, f :: t =>
    (n * block * 1000 / rate, pos, f.bytes n) :: packets rate block (n + 1) (pos + (f.bytes n).length) t

/-- The `STREAMINFO` block: least and most samples in a block, least and most bytes in a frame, rate in 20 bits, channels
less one in 3, bits less one in 5, samples in 36, and a check sum. -/
def streamInfo (block fmin fmax rate channels bits samples : Nat) (md5 : Bytes) : Bytes :=
  beEnc 2 block ++ beEnc 2 block ++ beEnc 3 fmin ++ beEnc 3 fmax
    ++ beEnc 8 (((rate * 8 + (channels - 1)) * 32 + (bits - 1)) * 68719476736 + samples) ++ md5

/-- A block of metadata: its kind, whether it is the last, its size and its content. -/
def block (kind : Nat) (last : Bool) (content : Bytes) : Bytes :=
  [UInt8.ofNat (kind + if last then 128 else 0)] ++ beEnc 3 content.length ++ content

/-- Further blocks: the last one is marked. -/
def blocks : List (Nat × Bytes) → Bytes
  | [] => []
  | (k, c) :: t => block k (t = []) c ++ blocks t

end Verif.Flac.Spec
