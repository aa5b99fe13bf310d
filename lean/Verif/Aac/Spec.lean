import Verif.Aac.Model

/-! # Frames of ISO/IEC 13818-7 (ADTS) -/
namespace Verif.Aac
open Verif

/-- The sampling frequencies of the standard. -/
def rates : List Nat := [96000, 88200, 64000, 48000, 44100, 32000, 24000, 22050, 16000, 12000, 11025, 8000, 7350]

/-- A frame. `flags` are the copyright and home bits, `full` is the fullness of the buffer, `blocks` the number of blocks of 1024 samples. -/
structure Frame where
  mpeg2 : Bool
  object : Nat
  rate : Nat
  priv : Bool
  chans : Nat
  flags : Nat
  full : Nat
  blocks : Nat
  check : Option (UInt8 × UInt8)
  payload : Bytes

namespace Frame

/-- The size of the header. -/
def hsize (f : Frame) : Nat := if f.check.isSome then 9 else 7

/-- The size of the frame. -/
def size (f : Frame) : Nat := f.hsize + f.payload.length

/-- The frame as bytes. -/
def bytes (f : Frame) : Bytes :=
  [0xFF, UInt8.ofNat (15 * 16 + (if f.mpeg2 then 8 else 0) + if f.check.isSome then 0 else 1),
    UInt8.ofNat ((f.object - 1) * 64 + f.rate * 4 + (if f.priv then 2 else 0) + f.chans / 4),
    UInt8.ofNat (f.chans % 4 * 64 + f.flags * 4 + f.size / 2048), UInt8.ofNat (f.size / 8), UInt8.ofNat (f.size % 8 * 32 + f.full / 64), UInt8.ofNat (f.full % 64 * 4 + (f.blocks - 1))] ++
    (match f.check with | some (a, b) => [a, b] | none => []) ++ f.payload

/-- Values that fit into the fields. -/
structure Ok (f : Frame) : Prop where
  object : 1 ≤ f.object ∧ f.object ≤ 4
  rate : f.rate < 13
  chans : 1 ≤ f.chans ∧ f.chans ≤ 7
  flags : f.flags < 16
  full : f.full < 2048
  blocks : 1 ≤ f.blocks ∧ f.blocks ≤ 4
  some : f.payload ≠ []
  size : f.size < 8192

/-- Samples per second. -/
def hz (f : Frame) : Nat := rates.getD f.rate 0

/-- Whole milliseconds of a frame. -/
def ms (f : Frame) : Nat := f.blocks * 1024 * 1000 / f.hz

/-- The audio specific configuration of ISO/IEC 14496-3 for frames of this kind: 5 bits of object type, 4 of frequency, 4 of channels, 3 of zero. -/
def config (f : Frame) : Nat := f.object * 2 ^ 11 + f.rate * 2 ^ 7 + f.chans * 2 ^ 3

end Frame

/-- A file of frames. -/
def encode (l : List Frame) : Bytes := (l.map Frame.bytes).flatten

/-- The packets of frames, from a time on. -/
def packets (t : Nat) : List Frame → List (Nat × Bytes)
  | [] => []
  | f :: l => (t, f.payload) :: packets (t + f.ms) l

/-- How many bytes into a frame a position is, with the frame; at the end, none. -/
def into : List Frame → Nat → Option (Frame × Nat)
  | [], _ => none
  | f :: l, k => if k < f.size then some (f, k) else into l (k - f.size)

/-- A position where frames may be cut: between frames, or behind the header of one. -/
def Good (l : List Frame) (k : Nat) : Prop := ∀ f c, into l k = some (f, c) → c = 0 ∨ f.hsize ≤ c

/-- The data of a packet; one without anything in it has none. -/
def Out.data : Out → Option Bytes
  | .pkt _ d => some d
  | .blank => none

end Verif.Aac
