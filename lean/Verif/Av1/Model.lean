import Verif.Base.Bytes

/-!
# AV1 over RTP

`AV1::leb128`, `AV1::OBU::init` (`lib/av1.cpp`) and `Packet::sendAV1` (`lib/rtp.cpp` 330-412).

A packet is its two flags and the elements written to it, each to be written behind its length (`body`). `none` stands for a run that does not end well: either the
program goes on for ever or `memcpy` is called with a length that went below zero.
Simplifications: the RTP header, the flag for key frames, the marker and counters are left out; sizes from 2^28 on (shifts of an `int`) are not modelled.
-/

namespace Verif.Av1
open Verif

/-- `leb128` (av1.cpp 9-19): at most ten bytes for a `size_t`. -/
def lebLoop : Nat → Nat → Bytes
  | 0, _ => []
  | f + 1, i => if 0x80 ≤ i then UInt8.ofNat (i % 128 + 128) :: lebLoop f (i / 128) else [UInt8.ofNat i]

/-- `leb128`. -/
def leb128 (i : Nat) : Bytes := lebLoop 10 i

/-- The loop over the bytes of a size field (av1.cpp 36-47): the size and the place behind it, nothing if the bytes run out. -/
def sizeField (d : Bytes) : Nat → Nat → Nat → Nat → Option (Nat × Nat)
  | 0, _, _, _ => none
  | f + 1, hdr, pl, i =>
    if d.length < hdr + 1 then none
    else if 128 ≤ (d.getD hdr 0).toNat then sizeField d f (hdr + 1) (pl + (d.getD hdr 0).toNat % 128 * 2 ^ (i * 7)) (i + 1)
    else some (pl + (d.getD hdr 0).toNat % 128 * 2 ^ (i * 7), hdr + 1)

/-- `getSize` after `init` (av1.cpp 21-66), for the bytes that are left; 0 if invalid. -/
def obuSize (d : Bytes) : Nat :=
  if d = [] then 0
  else
    let b := (d.getD 0 0).toNat
    let hdr := if b / 4 % 2 = 1 then 2 else 1
    if b / 2 % 2 = 1 then
      match sizeField d (d.length + 1) hdr 0 0 with
      | none => 0
      | some (pl, h) => if d.length < pl + h then 0 else if b / 8 % 16 = 2 then h else pl + h
    else if b / 8 % 16 = 2 then hdr else d.length

/-- The OBUs of a frame (rtp.cpp 338-342 and 353-358): an invalid one has size 0, and the loops go on for ever. -/
def split : Nat → Bytes → Option (List Bytes)
  | 0, _ => none
  | f + 1, d =>
    if d = [] then some []
    else (split f (d.drop (obuSize d))).map (d.take (obuSize d) :: ·)

/-- A packet: first element continues the last one of the packet before (0x80), last element goes on in the next (0x40), elements. -/
structure Pkt where
  z : Bool
  y : Bool
  els : List Bytes
deriving DecidableEq

/-- What is written for elements (rtp.cpp 379-387). -/
def body (els : List Bytes) : Bytes := els.flatMap fun e => leb128 e.length ++ e

/-- The packet that is being filled: flag and elements. -/
structure Cur where
  z : Bool
  els : List Bytes
deriving DecidableEq

/-- `rtpPacketSize`, with a header of `h` bytes. -/
def Cur.size (h : Nat) (c : Cur) : Nat := h + 1 + (body c.els).length

/-- The loop that writes an OBU (rtp.cpp 374-402). -/
def write (max h : Nat) : Nat → Cur → Bytes → Option (List Pkt × Cur)
  | 0, _, _ => none
  | f + 1, c, o =>
    if o = [] then some ([], c)
    else if max < c.size h + o.length + 4 then
      if max < c.size h + 4 then none
      else
        (write max h f { z := true, els := [] } (o.drop (max - c.size h - 4))).map fun r =>
          ({ z := c.z, y := true, els := c.els ++ [o.take (max - c.size h - 4)] } :: r.1, r.2)
    else some ([], { c with els := c.els ++ [o] })

/-- Close to a full packet (rtp.cpp 364). -/
def full (max h : Nat) (c : Cur) (o : Bytes) : Bool := decide (max < c.size h + max / 3) && decide (max < c.size h + o.length)

/-- The loop over OBUs and the last packet (rtp.cpp 353-411). -/
def send (max h : Nat) : Cur → List Bytes → Option (List Pkt)
  | c, [] => some [{ z := c.z, y := false, els := c.els }]
  | c, o :: t =>
    if full max h c o then
      (write max h (o.length + 1) { z := false, els := [] } o).bind fun r => (send max h r.2 t).map fun p => { z := c.z, y := false, els := c.els } :: (r.1 ++ p)
    else
      (write max h (o.length + 1) c o).bind fun r => (send max h r.2 t).map fun p => r.1 ++ p

/-- `sendAV1` (rtp.cpp 330-412). -/
def sendAV1 (max h : Nat) (d : Bytes) : Option (List Pkt) := (split (d.length + 1) d).bind (send max h { z := false, els := [] })

end Verif.Av1
