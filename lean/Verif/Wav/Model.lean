import Verif.Base.Bytes

/-!
# WAV output

The header and the data of a WAV response or recording (src/output/output_wav.cpp, lib/riff.cpp).

Simplifications: HTTP headers and the choice of the track are left out; the sizes of the keys of the track are given.
-/

namespace Verif.Wav
open Verif

/-- The codecs of the output (output_wav.cpp 14-18, 93-97). -/
inductive Codec where
  | alaw
  | ulaw
  | pcm
  | float
  | mp3
deriving DecidableEq

/-- The facts of the track that the output asks for (output_wav.cpp 80-113). -/
structure Track where
  /-- `getCodec` -/
  codec : Codec
  /-- `getChannels` -/
  channels : Nat
  /-- `getRate` -/
  rate : Nat
  /-- `getBps`, bytes per second -/
  bps : Nat
  /-- `getSize`, bits per sample -/
  size : Nat
  /-- `getLive` -/
  live : Bool
  /-- sizes of the keys -/
  keys : List Nat
  /-- `getFirstms` -/
  firstms : Nat
  /-- `getLastms` -/
  lastms : Nat

/-- The format number (output_wav.cpp 91-97). -/
def format : Codec → Nat
  | .alaw => 6
  | .ulaw => 7
  | .pcm => 1
  | .float => 3
  | .mp3 => 85

/-- `RIFF::fmt::generate` (riff.cpp 132-144). -/
def fmtChunk (format channels hz bps block size : Nat) : Bytes :=
  [0x66, 0x6D, 0x74, 0x20, 18, 0, 0, 0] ++ leEnc 2 format ++ leEnc 2 channels ++ leEnc 4 hz ++ leEnc 4 bps ++ leEnc 2 block
    ++ leEnc 2 size ++ leEnc 2 0

/-- `RIFF::fact::generate` (riff.cpp 155-159). -/
def factChunk (samples : Nat) : Bytes := [0x66, 0x61, 0x63, 0x74, 4, 0, 0, 0] ++ leEnc 4 samples

/-- The identifier of the server (output_wav.cpp 110). -/
def listChunk : Bytes :=
  [0x4C, 0x49, 0x53, 0x54, 22, 0, 0, 0, 0x69, 0x6E, 0x66, 0x6F, 0x49, 0x53, 0x46, 0x54, 10, 0, 0, 0,
   0x4D, 0x69, 0x73, 0x74, 0x53, 0x65, 0x72, 0x76, 0x65, 0x72]

/-- The size of the data (output_wav.cpp 80-86). -/
def totalData (t : Track) : Nat := if t.live then 4294967295 - 80 else t.keys.sum % 4294967296

/-- The samples per channel (output_wav.cpp 103-107). -/
def samples (t : Track) : Nat := if t.live then 4294967295 else (t.lastms - t.firstms) * t.rate / 1000

/-- `sendHeader` after the HTTP header (output_wav.cpp 75-114). -/
def header (t : Track) : Bytes :=
  [0x52, 0x49, 0x46, 0x46] ++ leEnc 4 (80 + totalData t) ++ [0x57, 0x41, 0x56, 0x45]
    ++ fmtChunk (format t.codec) t.channels t.rate t.bps (t.channels * (t.size * 8)) t.size
    ++ (if format t.codec ≠ 1 then factChunk (samples t) else [])
    ++ listChunk ++ [0x64, 0x61, 0x74, 0x61] ++ leEnc 4 (totalData t)

/-- The loop over samples of two bytes (output_wav.cpp 46-49); `none` is a read past the end. -/
def swap2 : Bytes → Option Bytes
  | [] => some []
  | [_] => none
  | a :: b :: r => (swap2 r).map (fun x => b :: a :: x)

/-- The loop over samples of three bytes (output_wav.cpp 52-56); `none` is a read past the end. -/
def swap3 : Bytes → Option Bytes
  | [] => some []
  | [_] => none
  | [_, _] => none
  | a :: b :: c :: r => (swap3 r).map (fun x => c :: b :: a :: x)

/-- `sendNext` (output_wav.cpp 37-63): what is sent for the data of a packet. `stale` is what the buffer holds before. -/
def sendNext (t : Track) (stale d : Bytes) : Option Bytes :=
  if t.codec = .pcm ∧ 8 < t.size then
    if t.size = 16 then swap2 d
    else if t.size = 24 then swap3 d
    else some (stale.take d.length)
  else some d

end Verif.Wav
