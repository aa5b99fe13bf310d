import Verif.Base.Bytes

/-!
# Specification: media messages of RTMP and tags of FLV

After "Adobe Flash Video File Format Specification 10.1", annex E, and "Enhanced RTMP v2". Written without the model.
-/
namespace Verif.Flv.Spec

/-- SI24: a signed number in three bytes, most significant first. -/
def si24 (o : Int) : Bytes :=
  let n := (o % 2 ^ 24).toNat
  [UInt8.ofNat (n / 65536), UInt8.ofNat (n / 256), UInt8.ofNat n]

/-- Numbers that fit. -/
def Fits24 (o : Int) : Prop := -(2 ^ 23) ≤ o ∧ o < 2 ^ 23

/-- The size of the data of a ModEx part: one byte, or three. -/
def modSize (n : Nat) : Bytes :=
  if n ≤ 255 then [UInt8.ofNat (n - 1)] else [255, UInt8.ofNat ((n - 1) / 256), UInt8.ofNat (n - 1)]

/-- The packet type that comes next: 7 is ModEx. -/
def next (top : Nat) (mods : List (Nat × Bytes)) : Nat := if mods = [] then top else 7

/-- ModEx parts: size, data, and the type of the part with the packet type that comes next. -/
def modTail (top : Nat) : List (Nat × Bytes) → Bytes
  | [] => []
  | (ty, d) :: l => modSize d.length ++ d ++ UInt8.ofNat (ty * 16 + next top l) :: modTail top l

/-- Parts that can be written. -/
def GoodMods (mods : List (Nat × Bytes)) : Prop := ∀ m ∈ mods, m.1 < 16 ∧ 1 ≤ m.2.length ∧ m.2.length ≤ 65536

/-- The start of an enhanced message: the high half of the first byte, ModEx parts, the packet type. -/
def enhanced (hi top : Nat) (mods : List (Nat × Bytes)) : Bytes := UInt8.ofNat (hi * 16 + next top mods) :: modTail top mods

/-- What follows for one track: the code of the codec, or the multitrack byte (kind 0: one track), the code and the number of the track. -/
def track (pt : Nat) (cc : Bytes) (rest : Bytes) : Option Nat → Bytes
  | none => cc ++ rest
  | some i => UInt8.ofNat pt :: (cc ++ UInt8.ofNat i :: rest)

/-- An enhanced video message; `ft` is the type of the frame. -/
def video (ft : Nat) (mods : List (Nat × Bytes)) (multi : Option Nat) (cc : Bytes) (pt : Nat) (rest : Bytes) : Bytes :=
  enhanced (8 + ft) (if multi.isSome then 6 else pt) mods ++ track pt cc rest multi

/-- An enhanced audio message. -/
def audio (mods : List (Nat × Bytes)) (multi : Option Nat) (cc : Bytes) (pt : Nat) (rest : Bytes) : Bytes :=
  enhanced 9 (if multi.isSome then 5 else pt) mods ++ track pt cc rest multi

/-- The codes of video codecs, and whether their coded frames have an offset. -/
inductive VideoCode : String → Bytes → Bool → Prop
  | avc : VideoCode "H264" "avc1".toUTF8.toList true
  | hevc : VideoCode "HEVC" "hvc1".toUTF8.toList true
  | av1 : VideoCode "AV1" "av01".toUTF8.toList false
  | vp8 : VideoCode "VP8" "vp08".toUTF8.toList false
  | vp9 : VideoCode "VP9" "vp09".toUTF8.toList false

/-- The codes of audio codecs, and whether they have init data. -/
inductive AudioCode : String → Bytes → Bool → Prop
  | opus : AudioCode "opus" "Opus".toUTF8.toList true
  | flac : AudioCode "FLAC" "fLaC".toUTF8.toList true
  | aac : AudioCode "AAC" "mp4a".toUTF8.toList true
  | ac3 : AudioCode "AC3" "ac-3".toUTF8.toList false
  | eac3 : AudioCode "EAC-3" "ec-3".toUTF8.toList false
  | mp3 : AudioCode "MP3" ".mp3".toUTF8.toList false

/-- Coded frames in an enhanced message: packet type 1 with the offset (for codecs that have one), packet type 3 without. -/
inductive Coded (hasOffset : Bool) : Nat → Int → Bytes → Bytes → Prop
  | withOffset (h : hasOffset = true) (o : Int) (ho : Fits24 o) (d : Bytes) : Coded hasOffset 1 o (si24 o ++ d) d
  | noOffset (h : hasOffset = false) (d : Bytes) : Coded hasOffset 1 0 d d
  | zero (d : Bytes) : Coded hasOffset 3 0 d d

/-- The numbers of video codecs without an enhanced header, all but AVC. -/
inductive VideoNumber : String → Nat → Prop
  | jpeg : VideoNumber "JPEG" 1
  | h263 : VideoNumber "H263" 2
  | sv1 : VideoNumber "ScreenVideo1" 3
  | vp6 : VideoNumber "VP6" 4
  | vp6a : VideoNumber "VP6Alpha" 5
  | sv2 : VideoNumber "ScreenVideo2" 6

/-- The numbers of audio formats without an enhanced header, all but AAC and platform-endian PCM. -/
inductive AudioNumber : String → Nat → Prop
  | adpcm : AudioNumber "ADPCM" 1
  | mp3 : AudioNumber "MP3" 2
  | pcm : AudioNumber "PCM" 3
  | nelly16 : AudioNumber "Nellymoser" 4
  | nelly8 : AudioNumber "Nellymoser" 5
  | nelly : AudioNumber "Nellymoser" 6
  | alaw : AudioNumber "ALAW" 7
  | ulaw : AudioNumber "ULAW" 8
  | speex : AudioNumber "Speex" 11
  | mp38 : AudioNumber "MP3" 14

/-- A message of AVC without an enhanced header: 0 for the decoder configuration, 1 for frames. -/
def avc (ft pt : Nat) (o : Int) (d : Bytes) : Bytes := UInt8.ofNat (ft * 16 + 7) :: UInt8.ofNat pt :: (si24 o ++ d)

/-- A message of another video codec without an enhanced header. -/
def oldVideo (ft number : Nat) (d : Bytes) : Bytes := UInt8.ofNat (ft * 16 + number) :: d

/-- A message of audio other than AAC without an enhanced header; `bits` are rate, sample size and channels. -/
def oldAudio (number bits : Nat) (d : Bytes) : Bytes := UInt8.ofNat (number * 16 + bits) :: d

/-- A message of AAC without an enhanced header. -/
def aac (bits pt : Nat) (d : Bytes) : Bytes := UInt8.ofNat (10 * 16 + bits) :: UInt8.ofNat pt :: d

/-- Types of frames: key, inter, disposable and generated key frames. -/
def FrameType (ft : Nat) : Prop := 1 ≤ ft ∧ ft ≤ 4

end Verif.Flv.Spec
