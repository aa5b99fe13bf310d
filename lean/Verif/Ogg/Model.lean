import Verif.Crc.Model

/-!
# Model of OGG output and of the reader of pages

`/repo/lib/ogg.cpp` and `/repo/src/output/output_ogg.cpp`, for one track. Simplifications: the number of a frame (`totalFrames`, from time and rate) and the
number of samples of a Vorbis packet (`vorbisStuff`) are part of the packet; when a page asks for more bytes than its last packet has (the program reads behind it),
only those there are are sent.
-/
namespace Verif.Ogg
open Verif

/-- `OGG::oggCodec`, with `split` and `sampleRate`. -/
inductive Codec where
  | theora (split : Nat)
  | vorbis (rate : Nat)
  | opus
  deriving DecidableEq, Repr

/-- A packet of the track. -/
structure Packet where
  data : Bytes
  key : Bool := false
  time : Nat := 0
  frame : Nat := 0
  samples : Nat := 0
  deriving DecidableEq, Repr

/-- `oggSegment` (ogg.h 14-23). -/
structure Seg where
  data : Bytes
  key : Bool := false
  lastKey : Nat := 0
  since : Nat := 0
  time : Nat := 0
  deriving DecidableEq, Repr

/-- `Page` as far as it is used for output, with what was sent. -/
structure Track where
  codec : Codec
  typ : UInt8
  serial : Nat
  seq : Nat := 0
  queue : List Seg := []
  lastKey : Nat := 0
  first : Nat := 0
  out : Bytes := []
  deriving DecidableEq, Repr

/-- `calculateGranule` (ogg.cpp 415-425). -/
def granuleOf (c : Codec) (s : Seg) : Nat :=
  match c with
  | .theora split => ((s.lastKey <<< split) ||| s.since) % 2 ^ 64
  | .vorbis _ => s.lastKey
  | .opus => s.time * 48 % 2 ^ 64

/-- `granules` is an `int`: what is left of a number, in 64 bits (ogg.cpp 486-495, ogg.h 80). -/
def throughInt (g : Nat) : Nat := if g % 2 ^ 32 < 2 ^ 31 then g % 2 ^ 32 else g % 2 ^ 32 + 2 ^ 64 - 2 ^ 32

/-- The table of a page (ogg.cpp 455-484): `idx` entries are there; the entries and `bytesLeft`. -/
def lace : Nat → List Bytes → Bytes × Nat
  | _, [] => ([], 0)
  | idx, s :: l =>
    if s.length / 255 + idx + 1 ≤ 255 then
      (List.replicate (s.length / 255) 255 ++ UInt8.ofNat (s.length % 255) :: (lace (idx + s.length / 255 + 1) l).1, (lace (idx + s.length / 255 + 1) l).2)
    else (List.replicate (255 - idx) 255, if s.length = (255 - idx) * 255 then 0 else (255 - idx) * 255)

/-- What follows the table (ogg.cpp 523-537). -/
def payload (left : Nat) : List Bytes → Bytes
  | [] => []
  | s :: l => if left ≠ 0 ∧ l = [] then s.take left else s ++ payload left l

/-- What stays (ogg.cpp 523-537). -/
def remains (left : Nat) : List Seg → List Seg
  | [] => []
  | s :: l => if left ≠ 0 ∧ l = [] then [{ s with data := s.data.drop left }] else remains left l

/-- The header up to the checksum (ogg.cpp 369-377, 496). -/
def head (typ : UInt8) (gran serial seq : Nat) : Bytes := [0x4f, 0x67, 0x67, 0x53, 0, typ] ++ leEnc 8 gran ++ leEnc 4 serial ++ leEnc 4 seq

/-- The checksum (ogg.cpp 498-516); the table of `crc32` (ogg.cpp 256-313) is that of checksum.h 6-44, and so is the loop. -/
def checksum (hd table body : Bytes) : Nat :=
  (Crc.crc32c (Crc.crc32c (Crc.crc32c (Crc.crc32c 0 hd) [UInt8.ofNat table.length]) table) body).toNat

/-- The bytes of a page (ogg.cpp 518-527). -/
def pageBytes (hd table body : Bytes) : Bytes := hd ++ leEnc 4 (checksum hd table body) ++ UInt8.ofNat table.length :: (table ++ body)

/-- The granule position of a page (ogg.cpp 486-495). -/
def pageGranule (force : Option Nat) (c : Codec) (q : List Seg) (left : Nat) : Nat :=
  match force with
  | some g => g
  | none =>
    if q.length = 1 ∧ left ≠ 0 then 2 ^ 64 - 1
    else match q[if left ≠ 0 then q.length - 2 else q.length - 1]? with
    | none => 0
    | some s => throughInt (granuleOf c s)

/-- `sendTo` (ogg.cpp 447-544). -/
def sendTo (force : Option Nat) (t : Track) : Track :=
  if t.queue = [] then t
  else
    { t with
      first := (match t.codec with | .vorbis _ => t.lastKey | _ => t.first)
      out := t.out ++ pageBytes (head t.typ (pageGranule force t.codec t.queue (lace 0 (t.queue.map (·.data))).2) t.serial t.seq)
        (lace 0 (t.queue.map (·.data))).1 (payload (lace 0 (t.queue.map (·.data))).2 (t.queue.map (·.data)))
      typ := if (lace 0 (t.queue.map (·.data))).2 ≠ 0 then 1 else 0
      queue := remains (lace 0 (t.queue.map (·.data))).2 t.queue
      seq := (t.seq + 1) % 2 ^ 32 }

/-- How many entries of a table the packets need (ogg.cpp 436-438). -/
def laces (q : List Seg) : Nat := (q.map fun s => s.data.length / 255 + 1).sum

/-- `shouldSend` (ogg.cpp 428-444). -/
def shouldSend (t : Track) : Bool :=
  match t.queue.getLast? with
  | none => false
  | some s =>
    s.key || (match t.codec with | .vorbis rate => decide ((t.lastKey + 2 ^ 32 - t.first) % 2 ^ 32 ≥ rate) | _ => false) || decide (laces t.queue ≥ 255)

/-- `while (shouldSend()) sendTo()` (output_ogg.cpp 61), at most `n` pages. -/
def sendLoop : Nat → Track → Track
  | 0, t => t
  | n + 1, t => if shouldSend t then sendLoop n (sendTo none t) else t

/-- A packet is put into the queue (output_ogg.cpp 33-60, ogg.cpp 385-412). -/
def push (t : Track) (p : Packet) : Track :=
  match t.codec with
  | .theora _ =>
    if p.key then
      { sendTo none t with
        lastKey := p.frame % 2 ^ 32
        queue := (sendTo none t).queue ++ [⟨p.data, true, p.frame % 2 ^ 32, (p.frame + 2 ^ 64 - p.frame % 2 ^ 32) % 2 ^ 64, p.time⟩] }
    else { t with queue := t.queue ++ [⟨p.data, false, t.lastKey, (p.frame + 2 ^ 64 - t.lastKey) % 2 ^ 64, p.time⟩] }
  | .vorbis _ => { t with lastKey := (t.lastKey + p.samples) % 2 ^ 32, queue := t.queue ++ [⟨p.data, false, (t.lastKey + p.samples) % 2 ^ 32, 0, p.time⟩] }
  | .opus => { t with queue := t.queue ++ [⟨p.data, false, 0, 0, p.time⟩] }

/-- `sendNext` (output_ogg.cpp 31-62). -/
def sendNext (t : Track) (p : Packet) : Track := sendLoop (p.data.length + 1) (push t p)

/-- `while (oggSegments.size()) sendTo(0)` (output_ogg.cpp 165-167), at most `n` pages. -/
def drain : Nat → Track → Track
  | 0, t => t
  | n + 1, t => if t.queue = [] then t else drain n (sendTo (some 0) t)

/-- `sendHeader` for a track (output_ogg.cpp 118-170). -/
def start (c : Codec) (serial : Nat) (h0 : Bytes) (hs : List Bytes) : Track :=
  drain ((hs.map List.length).sum + hs.length + 1)
    { sendTo (some 0) { codec := c, typ := 2, serial := serial, queue := [⟨h0, false, 0, 0, 0⟩] } with
      queue := (sendTo (some 0) { codec := c, typ := 2, serial := serial, queue := [⟨h0, false, 0, 0, 0⟩] }).queue ++ hs.map fun h => ⟨h, false, 0, 0, 0⟩ }

/-- `onFinish` for a track (output_ogg.cpp 64-69). -/
def finish (t : Track) : Track := sendTo none { t with typ := 4 }

/-! ## Reading -/

/-- `decodeXiphSize` (ogg.cpp 19-28): the numbers so far, the last one apart. -/
def xiphLoop : List Nat → Nat → Bytes → List Nat × Nat
  | done, cur, [] => (done, cur)
  | done, cur, b :: l => if b ≠ 0xff then xiphLoop (done ++ [cur + b.toNat]) 0 l else xiphLoop done (cur + b.toNat) l

/-- `decodeXiphSize` (ogg.cpp 19-28). -/
def decodeXiphSize (table : Bytes) : List Nat :=
  if (xiphLoop [] 0 table).2 = 0 then (xiphLoop [] 0 table).1 else (xiphLoop [] 0 table).1 ++ [(xiphLoop [] 0 table).2]

/-- The segments of a page from a file (ogg.cpp 159-176). -/
def readSegments : List Nat → Bytes → Option (List Bytes × Bytes)
  | [], file => some ([], file)
  | n :: l, file =>
    if n ≠ 0 ∧ file.length < n then none
    else match readSegments l (file.drop n) with
    | none => none
    | some (segs, rest) => some (file.take n :: segs, rest)

/-- `Page::read(FILE*)` (ogg.cpp 138-180): the header, the segments, and the rest of the file. -/
def readPage (file : Bytes) : Option (Bytes × List Bytes × Bytes) :=
  if file.length < 27 then none
  else if file.take 4 ≠ [0x4f, 0x67, 0x67, 0x53] then none
  else if ((file.drop 27).take ((file.drop 26).headD 0).toNat).length < ((file.drop 26).headD 0).toNat ∨ ((file.drop 26).headD 0).toNat = 0 then none
  else match readSegments (decodeXiphSize ((file.drop 27).take ((file.drop 26).headD 0).toNat)) (file.drop (27 + ((file.drop 26).headD 0).toNat)) with
  | none => none
  | some (segs, rest) => some (file.take 27, segs, rest)

end Verif.Ogg
