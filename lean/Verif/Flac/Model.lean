import Verif.Base.Bytes
import Verif.Crc.Model

/-!
# Reading of FLAC files

`src/input/input_flac.cpp` and the functions of `lib/flac.cpp` it uses.

Simplifications: the buffer is the whole rest of the file (`fillBuffer`, input_flac.cpp 211-234, adds a thousand bytes
before the search comes within 16 bytes of its end, so only at the end of the file does the search see less). A read behind
the end of the data is a fault, `none`. Combining bits that do not overlap by "or" is written as a sum. A saved header,
seeking and messages are left out.
-/

namespace Verif.Flac
open Verif

/-- A byte; 0 behind the end. -/
def u (b : Bytes) (i : Nat) : Nat := (b.getD i 0).toNat

/-- What the header of the file says. -/
structure Info where
  /-- `blockSize` -/
  block : Nat
  /-- `sampleRate` -/
  rate : Nat
  /-- `channels` -/
  channels : Nat
  /-- `tmpInit` -/
  init : Bytes
deriving DecidableEq

/-- A packet. -/
structure Pkt where
  /-- time in milliseconds -/
  time : Nat
  /-- place in the file -/
  pos : Nat
  /-- data -/
  data : Bytes
deriving DecidableEq

/-- `stripID3tag` (input_flac.cpp 76-91): the bytes to leave out. A file of less than ten bytes is not looked at. -/
def tagSize (file : Bytes) : Nat :=
  if u file 0 = 0x49 ∨ u file 1 = 0x44 ∨ u file 2 = 0x33 then
    (u file 6 % 128 * 2097152) ||| (u file 7 % 128 * 16384) ||| (u file 8 % 128 * 128)
      ||| (u file 9 % 128 + 10 + if u file 5 / 16 % 2 = 1 then 10 else 0)
  else 0

/-- The content of a `STREAMINFO` block (input_flac.cpp 142-175): `none` if it cannot be used. Bytes 0 to 3 are the sizes of
blocks, 10 to 12 rate and channels. -/
def streamInfo (i : Info) (head m : Bytes) : Option Info :=
  if u m 2 * 256 + u m 3 ≠ u m 0 * 256 + u m 1 then none
  else some { block := u m 0 * 256 + u m 1, rate := u m 10 * 4096 + u m 11 * 16 + u m 12 / 16, channels := u m 12 % 16 / 2 + 1,
              init := i.init ++ ([(head.getD 0 0) ||| 0x80] ++ head.drop 1) ++ m }

/-- The size of a block of metadata (input_flac.cpp 137). -/
def blockLen (head : Bytes) : Nat := u head 1 * 65536 + u head 2 * 256 + u head 3

/-- One block of metadata (input_flac.cpp 132-190), given its head and what follows; a `STREAMINFO` of less than 13 bytes is
read behind its end. -/
def metaBlock (i : Info) (head r : Bytes) : Option Info :=
  if u head 0 % 128 = 0 then
    if r.length < blockLen head ∨ blockLen head < 13 then none else streamInfo i head (r.take (blockLen head))
  else some i

/-- The blocks of metadata (input_flac.cpp 131-192): what they say, their size, and what follows. -/
def metaBlocks : Nat → Info → Nat → Bytes → Option (Info × Nat × Bytes)
  | 0, _, _, _ => none
  | n + 1, i, len, r =>
    if r.length < 4 then none
    else (metaBlock i (r.take 4) (r.drop 4)).bind fun i' =>
      if 128 ≤ u r 0 then some (i', len + 4 + blockLen (r.take 4), (r.drop 4).drop (blockLen (r.take 4)))
      else metaBlocks n i' (len + 4 + blockLen (r.take 4)) ((r.drop 4).drop (blockLen (r.take 4)))

/-- "fLaC" -/
def magic : Bytes := [0x66, 0x4C, 0x61, 0x43]

/-- `readHeader` up to the first packet (input_flac.cpp 108-209): information, place of the first frame and what is there. -/
def readHeader (file : Bytes) : Option (Info × Nat × Bytes) :=
  if (file.drop (tagSize file)).take 4 = magic then
    (metaBlocks file.length { block := 0, rate := 0, channels := 0, init := magic } (tagSize file + 4)
      (file.drop (tagSize file + 4))).bind fun r => if r.1.rate = 0 then none else some r
  else none

/-- `utfBytes` (flac.cpp 19-28). -/
def utfBytes (p : Nat) : Nat :=
  if p < 128 then 1 else if p / 32 = 6 then 2 else if p / 16 = 14 then 3 else if p / 8 = 30 then 4
  else if p / 4 = 62 then 5 else if p / 2 = 126 then 6 else if p = 254 then 7 else 9

/-- `utfVal` (flac.cpp 30-52) at a place. -/
def utfVal (b : Bytes) (p : Nat) : Nat :=
  if utfBytes (u b p) = 1 then u b p
  else if utfBytes (u b p) = 2 then u b p % 32 * 64 + u b (p + 1) % 64
  else if utfBytes (u b p) = 3 then (u b p % 32 * 64 + u b (p + 1) % 64) * 64 + u b (p + 2) % 64
  else if utfBytes (u b p) = 4 then
    ((u b p % 32 * 64 + u b (p + 1) % 64) * 64 + u b (p + 2) % 64) * 64 + u b (p + 3) % 64
  else 0

/-- `Frame::rate` (flac.cpp 77-98), with the check of the constructor (flac.cpp 54-61). -/
def frameRate (b : Bytes) : Nat :=
  if u b 0 ≠ 255 ∨ u b 1 / 4 ≠ 62 then 0
  else [0, 88200, 176400, 192000, 8000, 16000, 22050, 24000, 32000, 44100, 48000, 96000, 1, 2, 3, 0].getD (u b 2 % 16) 0

/-- The test for a frame at a place (input_flac.cpp 269-285). -/
def accept (b : Bytes) (p : Nat) : Option Bool :=
  if u b p = 255 ∧ u b (p + 1) = 248 then
    if b.length ≤ p + (utfBytes (u b (p + 4)) + 4) then none
    else some (decide ((Crc.crc8 0 ((b.drop p).take (utfBytes (u b (p + 4)) + 4))).toNat = u b (p + (utfBytes (u b (p + 4)) + 4)))
      && !(decide (utfVal b 4 + 1 ≠ utfVal b (p + 4)) && decide (utfVal b 4 ≠ 0)))
  else some false

/-- The search for the next frame (input_flac.cpp 236-331), from a place on, in at most so many steps: `some none` is the
end of the file. -/
def search (b : Bytes) : Nat → Nat → Option (Option Nat)
  | 0, _ => some none
  | n + 1, p =>
    if b.length ≤ p then some none
    else (accept b p).bind fun a => if a then some (some p) else search b n (p + 1)

/-- `getNext` again and again (input_flac.cpp 236-335): data of one byte is searched without end; block sizes of 0 to 2 are
not modelled. -/
def cut (rate block : Nat) : Nat → Nat → Nat → Bytes → Option (List Pkt)
  | 0, _, _, _ => some []
  | n + 1, nr, pos, b =>
    if b = [] then some []
    else if b.length < 2 ∨ block ≤ 2 then none
    else (search b b.length 2).bind fun r =>
      match r with
      | none => some [{ time := nr * 1000 / rate, pos := pos, data := b }]
      | some p =>
        if frameRate b ≠ rate then some []
        else (cut rate block n (nr + block) (pos + p) (b.drop p)).map
          (fun l => { time := nr * 1000 / rate, pos := pos, data := b.take p } :: l)

/-- Reading a file. -/
def readFile (file : Bytes) : Option (Info × List Pkt) :=
  (readHeader file).bind fun h => (cut h.1.rate h.1.block file.length 0 h.2.1 h.2.2).map fun l => (h.1, l)

end Verif.Flac
