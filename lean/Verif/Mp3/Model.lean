import Verif.Base.Bytes

/-!
# Reading MP3 files

`src/input/input_mp3.cpp`, `src/input/input_mp3.h` and `lib/mpeg.cpp`: the frames of a file, their places, times and the
format told for the track.
-/

namespace Verif.Mp3
open Verif

/-- A byte of a buffer as a number.  (Bytes past the end count as 0; the buffers of the program hold 3000 bytes.) -/
def u (b : Bytes) (i : Nat) : Nat := (b.getD i 0).toNat

/-- `sampleRates`, times 1000 (`src/input/input_mp3.h:6`, `lib/mpeg.h:5`).  An index past the end of the table is read in
C++ as whatever follows it; here there is no rate. -/
def sampleRate : Nat → Nat → Option Nat
  | 0, 0 => some 44100
  | 0, 1 => some 48000
  | 0, 2 => some 32000
  | 1, 0 => some 22050
  | 1, 1 => some 24000
  | 1, 2 => some 16000
  | _, _ => none

/-- `sampleCounts` (`src/input/input_mp3.h:7`). -/
def sampleCount : Nat → Nat → Nat
  | 0, 0 => 374
  | 1, 0 => 384
  | 1, 2 => 576
  | _, _ => 1152

/-- `bitRates` (`src/input/input_mp3.h:8-14`).  The entry -1 is converted in C++ from a negative double to an unsigned
size, which is undefined; here there is no rate. -/
def bitRates : Nat → Nat → List Nat
  | 0, 0 => [0, 32, 64, 96, 128, 160, 192, 224, 256, 288, 320, 352, 384, 416, 448]
  | 0, 1 => [0, 32, 48, 56, 64, 80, 96, 112, 128, 160, 192, 224, 256, 320, 384]
  | 0, _ => [0, 32, 40, 48, 56, 64, 80, 96, 112, 128, 160, 192, 224, 256, 320]
  | _, 0 => [0, 32, 48, 56, 64, 80, 96, 112, 128, 144, 160, 176, 192, 224, 256]
  | _, _ => [0, 8, 16, 24, 32, 40, 48, 56, 64, 80, 96, 112, 128, 144, 160]

/-- What the reader takes from a frame header. -/
structure Head where
  /-- bytes of the frame -/
  size : Nat
  /-- samples of the frame -/
  count : Nat
  /-- samples per second -/
  rate : Nat
deriving DecidableEq, Repr

/-- `dataSize` (`src/input/input_mp3.cpp:150-157`).  The sizes are computed in C++ with doubles; for every entry of the
tables the result is that of exact arithmetic. -/
def dataSize (layer bitRate rate pad : Nat) : Nat :=
  if layer = 0 then (48 * bitRate + 4 * pad * rate) / rate else 144 * bitRate / rate + pad

/-- The fields of a header (`src/input/input_mp3.cpp:134-148`): version bit, layer bits, bit rate index, sample rate
index and padding bit. -/
def headOf (ver lay br sr pad : Nat) : Option Head :=
  if 3 - lay = 3 then none
  else (sampleRate (1 - ver) sr).bind fun rate => ((bitRates (1 - ver) (3 - lay))[br]?).bind fun kbps =>
    some { size := dataSize (3 - lay) (kbps * 1000) rate pad, count := sampleCount (1 - ver) (3 - lay), rate := rate }

/-- The header at the start of a buffer (`src/input/input_mp3.cpp:134-148`). -/
def head (b : Bytes) : Option Head :=
  headOf (u b 1 / 8 % 2) (u b 1 / 2 % 4) (u b 2 / 16 % 16) (u b 2 / 4 % 4) (u b 2 / 2 % 2)

/-- The test for a sync word at the start of a buffer (`src/input/input_mp3.cpp:112`). -/
def synced (b : Bytes) : Bool := u b 0 == 0xFF && u b 1 / 32 == 7

/-- `memchr` for the byte 0xFF: the place of the first. -/
def memFF : Bytes → Option Nat
  | [] => none
  | x :: t => if x == 0xFF then some 0 else (memFF t).map (· + 1)

/-- The loop looking for a sync word (`src/input/input_mp3.cpp:117-123`): is one found from place `i` on?  Every search
covers `n` bytes from the next byte on.  (The search can run past the 3000 bytes of the buffer, where nothing is found
here.) -/
def chase (b : Bytes) (n : Nat) : Nat → Nat → Bool
  | 0, _ => false
  | fuel + 1, i =>
    if u b (i + 1) / 32 == 7 then true
    else match memFF ((b.drop (i + 1)).take n) with
      | none => false
      | some k => chase b n fuel (i + 1 + k)

/-- `offset` after the search (`src/input/input_mp3.cpp:114-127`): the place of the first 0xFF, when a sync word is found
there or later. -/
def offset (b : Bytes) (read : Nat) : Option Nat :=
  match memFF (b.take read) with
  | none => none
  | some 0 => none
  | some (k + 1) => if chase b (read - (k + 1 + 1)) b.length (k + 1) then some (k + 1) else none

/-- A packet. -/
structure Pkt where
  /-- its time in milliseconds -/
  time : Nat
  /-- its place in the file -/
  pos : Nat
  /-- its bytes -/
  data : Bytes
deriving DecidableEq, Repr

/-- The reader: the static buffer `packHeader`, the place in the file and `timestamp`.  (The time is a double in C++ and
is added up here exactly.) -/
structure St where
  /-- `packHeader` -/
  buf : Bytes
  /-- place in the file -/
  pos : Nat
  /-- `timestamp`, in milliseconds -/
  time : Rat

/-- `fread` of 3000 bytes into `packHeader` (`src/input/input_mp3.cpp:107`, `:130`): what is not read stays. -/
def fread (file : Bytes) (pos : Nat) (buf : Bytes) : Bytes :=
  (file.drop pos).take 3000 ++ buf.drop ((file.drop pos).take 3000).length

/-- The time after a frame (`src/input/input_mp3.cpp:168`). -/
def after (t : Rat) (h : Head) : Rat := t + (h.count : Rat) * 1000 / (h.rate : Rat)

/-- The packet from the buffer (`src/input/input_mp3.cpp:132-168`). -/
def emit (buf : Bytes) (pos : Nat) (t : Rat) : Option (Pkt × St) :=
  (head buf).bind fun h =>
    if h.size = 0 then none
    else some ({ time := t.floor.toNat, pos := pos, data := buf.take h.size }, { buf := buf, pos := pos + h.size, time := after t h })

/-- `InputMP3::getNext` (`src/input/input_mp3.cpp:103-169`). -/
def getNext (file : Bytes) (s : St) : Option (Pkt × St) :=
  if (file.drop s.pos).length = 0 then none
  else if synced (fread file s.pos s.buf) then emit (fread file s.pos s.buf) s.pos s.time
  else (offset (fread file s.pos s.buf) ((file.drop s.pos).take 3000).length).bind fun off =>
    emit (fread file (s.pos + off) (fread file s.pos s.buf)) (s.pos + off) s.time

/-- The loop of `readHeader` (`src/input/input_mp3.cpp:92-96`): packets until there is none.  (Every packet moves the
place in the file on, so as many rounds as the file has bytes are enough.) -/
def loop (file : Bytes) : Nat → St → List Pkt
  | 0, _ => []
  | fuel + 1, s => match getNext file s with
    | none => []
    | some (p, s') => p :: loop file fuel s'

/-- Where the frames start (`src/input/input_mp3.cpp:72-82`).  (Of a file of less than 10 bytes the missing bytes are
undefined in C++ and 0 here.) -/
def start (file : Bytes) : Nat :=
  if u file 0 == 0x49 || u file 1 == 0x44 || u file 2 == 0x33 then
    (u file 6 % 128 * 2 ^ 21) ||| (u file 7 % 128 * 2 ^ 14) ||| (u file 8 % 128 * 2 ^ 7)
      ||| (u file 9 % 128 + 10 + (if u file 5 / 16 % 2 = 1 then 10 else 0))
  else 0

/-- The packets of a file (`InputMP3::readHeader`, `src/input/input_mp3.cpp:61-101`). -/
def packets (file : Bytes) : List Pkt :=
  loop file (file.length + 1) { buf := List.replicate 3000 0, pos := start file, time := 0 }

/-- `Mpeg::parseMP2Header` of the first header (`lib/mpeg.cpp:7-19`, `src/input/input_mp3.cpp:83-90`): the rate and the
channels of the track. -/
def format (file : Bytes) : Option (Nat × Nat) :=
  (sampleRate (1 - u (file.drop (start file)) 1 / 8 % 2) (u (file.drop (start file)) 2 / 4 % 4)).map
    fun r => (r, 2 - u (file.drop (start file)) 3 / 128)

end Verif.Mp3
