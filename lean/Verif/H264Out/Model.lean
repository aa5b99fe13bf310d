import Verif.Base.Bytes

/-!
# Raw H.264 and H.265 over HTTP and websockets

`OutH264::sendNext`, `src/output/output_h264.cpp`.

Memory: the data of the packet is the first `len` bytes of `mem`; what is behind it in `mem` is whatever lies there. The copy of a unit that reaches past `mem` is cut
at its end (the program would read on or crash).
Simplifications: the chunks of HTTP and the frames of websockets are taken as their contents; switching tracks and the speed of playback are left out.
-/

namespace Verif.H264Out
open Verif

/-- Size of the length fields (output_h264.cpp 414-415, 438-439): `h264` is whether the track is H.264. -/
def lenSize (h264 : Bool) (init : Bytes) : Nat := if h264 then (init.getD 4 0).toNat % 4 + 1 else 4

/-- A length field (output_h264.cpp 419-425, 443-449). -/
def unitLen (l : Nat) (d : Bytes) : Nat :=
  if l = 4 then beVal (d.take 4) else if l = 2 then beVal (d.take 2) else (d.headD 0).toNat

/-- "\000\000\000\001" (output_h264.cpp 426, 450). -/
def mark : Bytes := [0, 0, 0, 1]

/-- The loop over the units (output_h264.cpp 416-429, 440-453) from place `i`, an `unsigned int`. The number of passes is bounded by the first argument. -/
def walk (l len : Nat) (mem : Bytes) : Nat → Nat → Bytes
  | 0, _ => []
  | f + 1, i =>
    if (i + 4) % 2 ^ 32 < len then
      mark ++ (mem.drop (i + l)).take (unitLen l (mem.drop i)) ++ walk l len mem f ((i + (unitLen l (mem.drop i) + l)) % 2 ^ 32)
    else []

/-- A packet. -/
structure Pkt where
  /-- `thisIdx` -/
  idx : Nat
  /-- `thisTime` -/
  time : Nat
  /-- "keyframe" -/
  key : Bool
  /-- "offset", if there is one -/
  offset : Option Nat
  /-- size of the data -/
  len : Nat
  /-- memory from the data on -/
  mem : Bytes

/-- Over HTTP (output_h264.cpp 359-362, 438-453); each pass takes at least a byte. -/
def send (h264 : Bool) (init : Bytes) (keysOnly : Bool) (p : Pkt) : Bytes :=
  if keysOnly && !p.key then [] else walk (lenSize h264 init) p.len p.mem p.len 0

/-- Over a websocket (output_h264.cpp 403-431). -/
def frame (h264 : Bool) (init : Bytes) (keysOnly : Bool) (p : Pkt) : Option Bytes :=
  if keysOnly && !p.key then none
  else some ([UInt8.ofNat p.idx, if p.key then 1 else 0] ++ beEnc 8 p.time ++ beEnc 2 (p.offset.getD 0) ++ walk (lenSize h264 init) p.len p.mem p.len 0)

end Verif.H264Out
