import Verif.Base.Bytes

/-!
# Model of AAC in files and transport streams

`/repo/lib/adts.cpp` (headers of frames), `/repo/src/input/input_aac.cpp` (files) and the part of `/repo/lib/ts_stream.cpp` that takes frames out of the packets of an
elementary stream. Bytes are read as numbers, shifts and masks as division and remainder. Writing or reading outside of a buffer is a `fault`.
-/
namespace Verif.Aac
open Verif

/-- A byte of a buffer as a number; the callers check that it is inside. -/
def at' (b : Bytes) (i : Nat) : Nat := (b.getD i 0).toNat

/-- `getAACProfile` (adts.cpp 45-48). -/
def profile (b : Bytes) : Nat := at' b 2 / 64 % 4 + 1

/-- `getFrequencyIndex` (adts.cpp 50-53). -/
def freqIndex (b : Bytes) : Nat := at' b 2 / 4 % 16

/-- `getFrequency` (adts.cpp 55-73). -/
def freq (b : Bytes) : Nat :=
  match freqIndex b with
  | 0 => 96000 | 1 => 88200 | 2 => 64000 | 3 => 48000 | 4 => 44100 | 5 => 32000 | 6 => 24000 | 7 => 22050 | 8 => 16000 | 9 => 12000 | 10 => 11025 | 11 => 8000 | 12 => 7350
  | _ => 0

/-- `getChannelConfig` (adts.cpp 75-78). -/
def chanConfig (b : Bytes) : Nat := at' b 2 % 2 * 4 + at' b 3 / 64 % 4

/-- `getChannelCount` (adts.cpp 80-83). -/
def chanCount (b : Bytes) : Nat := if chanConfig b = 7 then 8 else chanConfig b

/-- `getHeaderSize` (adts.cpp 85-88). -/
def headerSize (b : Bytes) : Nat := if at' b 1 % 2 = 1 then 7 else 9

/-- `getCompleteSize` (adts.cpp 90-93). -/
def completeSize (b : Bytes) : Nat := at' b 3 % 4 * 2048 + at' b 4 * 8 + at' b 5 / 32 % 8

/-- `getPayloadSize` (adts.cpp 95-104). -/
def payloadSize (b : Bytes) : Nat := completeSize b - headerSize b

/-- `getSampleCount` (adts.cpp 106-109). -/
def sampleCount (b : Bytes) : Nat := (at' b 6 % 4 + 1) * 1024

/-- `hasSync` (adts.cpp 152-154). -/
def hasSync (b : Bytes) : Bool := at' b 0 * 16 + at' b 1 / 16 % 16 = 0xfff

/-- `operator bool` (adts.cpp 148-151); `none` if `hasSync` reads a second byte that is not there. -/
def valid (b : Bytes) : Option Bool :=
  if b.length = 0 then some false
  else if b.length = 1 then none
  else some (hasSync b && decide (headerSize b ≤ b.length) && decide (freq b ≠ 0) && decide (chanCount b ≠ 0) && decide (sampleCount b ≠ 0))

/-- The time of a frame in milliseconds (input_aac.cpp 297, ts_stream.cpp 636, 654). -/
def duration (b : Bytes) : Nat := sampleCount b * 1000 / freq b

/-- `getInit` (adts.cpp 137-147). -/
def init (b : Bytes) : Bytes :=
  [UInt8.ofNat (profile b % 32 * 8 + freqIndex b % 16 / 2), UInt8.ofNat (freqIndex b % 2 * 128 + chanConfig b % 16 * 8)]

/-! ## Files -/

/-- A packet. -/
structure Pkt where
  time : Nat
  data : Bytes
  bpos : Nat
  deriving DecidableEq, Repr

/-- Why reading ends. -/
inductive End where
  | eof
  | short
  | bad
  | empty
  | fault
  deriving DecidableEq, Repr

/-- The input: what is left of the file, `thisTime` and `filePos`. -/
structure St where
  rest : Bytes
  time : Nat
  pos : Nat
  deriving DecidableEq, Repr

/-- The packet of a frame (input_aac.cpp 286-298), with `cut` bytes of it missing in the file. A packet without data is none (dtsc.cpp 230-234); if more bytes are missing than the payload
has, the size of the data underflows. -/
def frame (f : Bytes) (cut : Nat) (s : St) (rest : Bytes) : Except End (Pkt × St) :=
  match valid f with
  | none => .error .fault
  | some false => .error .bad
  | some true =>
    if payloadSize f < cut then .error .fault
    else if payloadSize f = cut then .error .empty
    else .ok (⟨s.time, (f.drop (headerSize f)).take (payloadSize f - cut), s.pos⟩, ⟨rest, s.time + duration f, s.pos + completeSize f⟩)

/-- `getNext` (input_aac.cpp 219-299). `junk` are the bytes found behind those that were read, if the file ends within a frame. Into a frame of less than six bytes six are copied. Bytes
read for the log are left out. -/
def next (junk : Nat → UInt8) (s : St) : Except End (Pkt × St) :=
  if s.rest = [] then .error .eof
  else if s.rest.length < 6 then .error .short
  else if at' s.rest 0 ≠ 0xFF ∨ at' s.rest 1 / 16 ≠ 15 then (if s.rest.take 6 = [0x41, 0x50, 0x45, 0x54, 0x41, 0x47] then .error .eof else .error .bad)
  else if completeSize s.rest < 6 then .error .fault
  else
    frame (s.rest.take (completeSize s.rest) ++ (List.range (completeSize s.rest - s.rest.length)).map junk) (completeSize s.rest - s.rest.length) s (s.rest.drop (completeSize s.rest))

/-- The packets until reading ends, as in the loops of `readHeader` (input_aac.cpp 204-209) and of the players; at most `n`. -/
def readN (junk : Nat → UInt8) : Nat → St → List Pkt × Option End
  | 0, _ => ([], none)
  | n + 1, s =>
    match next junk s with
    | .error e => ([], some e)
    | .ok (p, s) => let (l, e) := readN junk n s; (p :: l, e)

/-- All packets of what is left: every frame has at least one byte. -/
def read (junk : Nat → UInt8) (s : St) : List Pkt × Option End := readN junk (s.rest.length + 1) s

/-- `readHeader` (input_aac.cpp 137-215): initialisation data, rate, channels and packets. Its reading of the first frame is that of `getNext` but for tags at the start of the
file, which it does not know, and for a first frame without data or cut short, which is not modelled. -/
def readHeader (junk : Nat → UInt8) (file : Bytes) : Option (Bytes × Nat × Nat × List Pkt) :=
  match next junk ⟨file, 0, 1⟩ with
  | .error _ => none
  | .ok _ => some (init file, freq file, chanCount file, (read junk ⟨file, 0, 1⟩).1)

/-- `seek` (input_aac.cpp 304-322) to a key with the given position and time; `filePos` is left as it is. -/
def seek (file : Bytes) (bpos time : Nat) (s : St) : St := ⟨file.drop (bpos - 1), time, s.pos⟩

/-! ## Transport streams -/

/-- A frame whose end is to come (`ADTSRemainder`): what is there and its length. -/
abbrev Rem := Option (Bytes × Nat)

/-- What is put out: a packet, or one without anything in it. -/
inductive Out where
  | pkt (time : Nat) (data : Bytes)
  | blank
  deriving DecidableEq, Repr

/-- The loop over the frames of a PES packet (ts_stream.cpp 642-672), with `ms` for `msRead`. `none` is a fault. -/
def scan (b : Bytes) (ts ms : Nat) : Option (List Out × Rem) :=
  if b = [] then some ([], none)
  else
    match valid b with
    | none => none
    | some false => scan b.tail ts ms
    | some true =>
      if completeSize b ≤ b.length then
        if payloadSize b = 0 then (scan b.tail ts ms).map fun r => (.blank :: r.1, r.2)
        else (scan (b.drop (completeSize b)) ts (ms + duration b)).map fun r => (.pkt (ts + ms) ((b.drop (headerSize b)).take (payloadSize b)) :: r.1, r.2)
      else some ([], some (b, completeSize b))
termination_by b.length
decreasing_by
  all_goals
    have : 0 < b.length := List.length_pos_iff.2 (by assumption)
    simp only [List.length_tail, List.length_drop]
    (try simp only [payloadSize] at *)
    omega

/-- The frame that began in an earlier PES packet and ends in this one (ts_stream.cpp 628-640). -/
def whole (f : Bytes) (ts : Nat) : Option (List Out) :=
  match valid f with
  | none => none
  | some false => some []
  | some true => some [.pkt (ts - duration f) ((f.drop (headerSize f)).take (payloadSize f))]

/-- `parseBitstream` for AAC (ts_stream.cpp 618-673). -/
def pes (rem : Rem) (p : Bytes) (ts : Nat) : Option (List Out × Rem) :=
  match rem with
  | none => scan p ts 0
  | some (got, len) =>
    if p.length < len - got.length then some ([], some (got ++ p, len))
    else
      (whole (got ++ p.take (len - got.length)) ts).bind fun o =>
        (scan (p.drop (len - got.length)) ts 0).map fun r => (o ++ r.1, r.2)

/-- PES packets with their times, one after the other. -/
def stream (rem : Rem) : List (Nat × Bytes) → Option (List Out × Rem)
  | [] => some ([], rem)
  | (ts, p) :: l => (pes rem p ts).bind fun r => (stream r.2 l).map fun q => (r.1 ++ q.1, q.2)

end Verif.Aac
