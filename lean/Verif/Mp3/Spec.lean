import Verif.Base.Bytes

/-!
# MPEG audio frames and ID3 tags

ISO/IEC 11172-3 and 13818-3 (frames), ID3v2.
-/

namespace Verif.Mp3.Spec
open Verif

/-- A byte as a number. -/
def at_ (b : Bytes) (i : Nat) : Nat := (b.getD i 0).toNat

/-- A frame header. -/
structure Info where
  /-- MPEG-1, or else MPEG-2 -/
  mpeg1 : Bool
  /-- layer 1, 2 or 3 -/
  layer : Nat
  /-- bits per second -/
  bitrate : Nat
  /-- samples per second -/
  rate : Nat
  /-- padded? -/
  padding : Nat
deriving DecidableEq, Repr

/-- The bit rates, in kilobits per second, for the indices 1 to 14. -/
def kbps : Bool → Nat → List Nat
  | true, 1 => [32, 64, 96, 128, 160, 192, 224, 256, 288, 320, 352, 384, 416, 448]
  | true, 2 => [32, 48, 56, 64, 80, 96, 112, 128, 160, 192, 224, 256, 320, 384]
  | true, _ => [32, 40, 48, 56, 64, 80, 96, 112, 128, 160, 192, 224, 256, 320]
  | false, 1 => [32, 48, 56, 64, 80, 96, 112, 128, 144, 160, 176, 192, 224, 256]
  | false, _ => [8, 16, 24, 32, 40, 48, 56, 64, 80, 96, 112, 128, 144, 160]

/-- The sample rates, for the indices 0 to 2. -/
def rates : Bool → List Nat
  | true => [44100, 48000, 32000]
  | false => [22050, 24000, 16000]

/-- The version: 3 is MPEG-1 and 2 is MPEG-2. -/
def versionOf : Nat → Option Bool
  | 3 => some true
  | 2 => some false
  | _ => none

/-- The layer: 3 is layer 1, 2 is layer 2 and 1 is layer 3. -/
def layerOf : Nat → Option Nat
  | 3 => some 1
  | 2 => some 2
  | 1 => some 3
  | _ => none

/-- The header with these fields; free format (bit rate index 0) is left out. -/
def infoOf (ver lay br sr pad : Nat) : Option Info :=
  (versionOf ver).bind fun v => (layerOf lay).bind fun l => if br = 0 then none else
    ((kbps v l)[br - 1]?).bind fun k => ((rates v)[sr]?).bind fun r =>
      some { mpeg1 := v, layer := l, bitrate := k * 1000, rate := r, padding := pad }

/-- The header of a frame. -/
def info (f : Bytes) : Option Info :=
  infoOf (at_ f 1 / 8 % 4) (at_ f 1 / 2 % 4) (at_ f 2 / 16 % 16) (at_ f 2 / 4 % 4) (at_ f 2 / 2 % 2)

/-- The samples of a frame. -/
def Info.samples (i : Info) : Nat :=
  if i.layer = 1 then 384 else if i.layer = 2 then 1152 else if i.mpeg1 then 1152 else 576

/-- The bytes of a frame: its samples at its bit rate, in slots of four bytes (layer 1) or one byte. -/
def Info.bytes (i : Info) : Nat :=
  if i.layer = 1 then 4 * (i.samples * i.bitrate / (32 * i.rate) + i.padding)
  else i.samples * i.bitrate / (8 * i.rate) + i.padding

/-- A frame: it starts with a sync word and a header, and has the size of its header. -/
def Frame (i : Info) (f : Bytes) : Prop :=
  at_ f 0 = 0xFF ∧ at_ f 1 / 32 = 7 ∧ info f = some i ∧ f.length = i.bytes

/-- The duration of a frame in milliseconds. -/
def Info.ms (i : Info) : Rat := (i.samples : Rat) * 1000 / (i.rate : Rat)

/-- The channels told by a frame: mode 3 is a single channel. -/
def channels (f : Bytes) : Nat := if at_ f 3 / 64 = 3 then 1 else 2

/-- An ID3v2 tag: the identifier, version and flags, four bytes of seven bits of size, as many bytes, and a footer if the
flags say so. -/
def Tag (n : Nat) (footer : Bool) (t : Bytes) : Prop :=
  ∃ (v0 v1 fl s0 s1 s2 s3 : UInt8) (body foot : Bytes),
    t = [0x49, 0x44, 0x33, v0, v1, fl, s0, s1, s2, s3] ++ body ++ foot
    ∧ s0.toNat < 128 ∧ s1.toNat < 128 ∧ s2.toNat < 128 ∧ s3.toNat < 128
    ∧ n = ((s0.toNat * 128 + s1.toNat) * 128 + s2.toNat) * 128 + s3.toNat
    ∧ body.length = n ∧ (footer = decide (fl.toNat / 16 % 2 = 1)) ∧ foot.length = (if footer then 10 else 0)

/-- Frames, each after bytes that are not part of one. -/
def join : List (Bytes × Bytes) → Bytes
  | [] => []
  | p :: t => p.1 ++ p.2 ++ join t

/-- The place and the bytes of each frame, the first being looked for at `at`. -/
def places : Nat → List (Bytes × Bytes) → List (Nat × Bytes)
  | _, [] => []
  | a, p :: t => (a + p.1.length, p.2) :: places (a + p.1.length + p.2.length) t

/-- The whole milliseconds at which frames start, the first at `t`. -/
def times : Rat → List Info → List Nat
  | _, [] => []
  | t, i :: l => t.floor.toNat :: times (t + i.ms) l

end Verif.Mp3.Spec
