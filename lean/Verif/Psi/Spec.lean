import Verif.Psi.Model
import Verif.Crc.Spec

/-! # Program tables (ISO/IEC 13818-1, 2.4.4) -/
namespace Verif.Psi
open Verif

/-- A number of two bytes, the high one first. -/
def be2 (x y : UInt8) : Nat := x.toNat * 256 + y.toNat

/-- The payload of a packet that starts a section, with PID and continuity counter: 188 bytes from the sync byte, no error, payload start, no scrambling, no adaptation field. -/
def section? (p : Bytes) : Option (Nat × Nat × Bytes) :=
  match p with
  | s :: a :: b :: c :: ptr :: rest =>
    if p.length = 188 ∧ s = 0x47 ∧ a.toNat / 64 = 1 ∧ c.toNat / 16 = 1 ∧ ptr.toNat ≤ rest.length then some (be2 a b % 8192, c.toNat % 16, rest.drop ptr.toNat)
    else none
  | _ => none

/-- Descriptors: a tag, a length, and that many bytes. -/
def descriptors : Nat → Bytes → Option (List (UInt8 × Bytes))
  | 0, b => if b = [] then some [] else none
  | _, [] => some []
  | _, [_] => none
  | n + 1, tag :: len :: b => if b.length < len.toNat then none else (descriptors n (b.drop len.toNat)).map ((tag, b.take len.toNat) :: ·)

/-- The elementary streams of a table: type, PID, length and descriptors. -/
def streams : Nat → Bytes → Option (List Es)
  | 0, b => if b = [] then some [] else none
  | n + 1, b =>
    match b with
    | [] => some []
    | y :: p :: q :: l :: m :: r => if r.length < be2 l m % 4096 then none else (streams n (r.drop (be2 l m % 4096))).map (⟨y, be2 p q % 8192, r.take (be2 l m % 4096)⟩ :: ·)
    | _ => none

/-- A program map. -/
structure Pmt where
  program : Nat
  current : Bool
  pcr : Nat
  info : Bytes
  list : List Es
  deriving DecidableEq, Repr

/-- The check value of a section: generator 0x04c11db7, started from ones. -/
def IsCrcOf (b crc : Bytes) : Prop := Crc.Spec.IsCrc Crc.Spec.gen32 (List.replicate 32 true) (bytesBits b) (bytesBits crc)

/-- A section that is a whole program map, version 0, the only section of its table: what it says, its bytes before the check value, the check value, and what follows the section. -/
def pmt? (s : Bytes) : Option (Pmt × Bytes × Bytes × Bytes) :=
  match s with
  | 2 :: l0 :: l1 :: n0 :: n1 :: v :: 0 :: 0 :: c0 :: c1 :: i0 :: i1 :: rest =>
    if l0.toNat / 64 = 2 ∧ v.toNat / 2 % 32 = 0 ∧ 13 ≤ be2 l0 l1 % 4096 ∧ be2 l0 l1 % 4096 ≤ 1021 ∧ 3 + be2 l0 l1 % 4096 ≤ s.length ∧ be2 i0 i1 % 4096 + 13 ≤ be2 l0 l1 % 4096 then
      (streams 1024 ((rest.take (be2 l0 l1 % 4096 - 13)).drop (be2 i0 i1 % 4096))).map fun es =>
        (⟨be2 n0 n1, v.toNat % 2 = 1, be2 c0 c1 % 8192, rest.take (be2 i0 i1 % 4096), es⟩, s.take (be2 l0 l1 % 4096 - 1), (s.drop (be2 l0 l1 % 4096 - 1)).take 4, s.drop (3 + be2 l0 l1 % 4096))
    else none
  | _ => none

/-- The programs of an association table (the only section of its table): their numbers and where their maps are. -/
def programs : Bytes → Option (List (Nat × Nat))
  | [] => some []
  | a :: b :: c :: d :: l => (programs l).map ((be2 a b, be2 c d % 8192) :: ·)
  | _ => none

/-- A section that is a whole association table: its programs, its bytes before the check value, and the check value. -/
def pat? (s : Bytes) : Option (List (Nat × Nat) × Bytes × Bytes) :=
  match s with
  | 0 :: l0 :: l1 :: _ :: _ :: v :: 0 :: 0 :: rest =>
    if l0.toNat / 64 = 2 ∧ v.toNat % 2 = 1 ∧ 9 ≤ be2 l0 l1 % 4096 ∧ be2 l0 l1 % 4096 ≤ 1021 ∧ 3 + be2 l0 l1 % 4096 ≤ s.length then
      (programs (rest.take (be2 l0 l1 % 4096 - 9))).map fun l => (l, s.take (be2 l0 l1 % 4096 - 1), (s.drop (be2 l0 l1 % 4096 - 1)).take 4)
    else none
  | _ => none

/-! ## What a table should say -/

/-- ASCII. -/
def ascii (s : String) : Bytes := s.toUTF8.toList

/-- The stream types of the codecs (ISO/IEC 13818-1, ATSC A/52, SCTE 35). -/
def types : List (String × UInt8) :=
  [("H264", 0x1b), ("HEVC", 0x24), ("MPEG2", 0x02), ("AAC", 0x0f), ("MP3", 0x03), ("MP2", 0x03), ("opus", 0x06), ("JSON", 0x06), ("AV1", 0x06), ("SCTE35", 0x86), ("AC3", 0x81)]

/-- The language of a track is told if it has three letters and is known. -/
def told (t : Track) : Prop := t.lang.length = 3 ∧ t.lang ≠ [0x75, 0x6e, 0x64]

instance (t : Track) : Decidable (told t) := inferInstanceAs (Decidable (_ ∧ _))

/-- The descriptors that a codec needs: registrations and extensions. -/
def special (t : Track) : List (UInt8 × Bytes) :=
  if t.codec = "AAC" then [(0x7c, [0x51, 0])]
  else if t.codec = "opus" then [(5, ascii "Opus"), (0x7f, [0x80, UInt8.ofNat t.channels])]
  else if t.codec = "JSON" then [(5, ascii "JSON")]
  else if t.codec = "AV1" then [(5, ascii "AV01"), (0x80, (t.init ++ [0, 0, 0, 0]).take 4)]
  else if t.codec = "SCTE35" then [(0, [0]), (5, ascii "CUEI")]
  else []

/-- The descriptors of a track: those of its codec, and its language. -/
def wanted (t : Track) : List (UInt8 × Bytes) := special t ++ (if told t then [(0x0a, t.lang ++ [0])] else [])

/-- How many bytes a track takes in a table. -/
def room (t : Track) : Nat := 5 + ((wanted t).map fun d => d.2.length + 2).sum

/-- The track that carries the clock: the first one with video, or else the first one. -/
def clockTrack (ts : List Track) : Option Track := (ts.find? (·.video)).orElse fun _ => ts.head?

/-- A selection that can be described: known codecs, at most one track of cues, and no more than fits into a packet. -/
structure Fits (ts : List Track) : Prop where
  some : ts ≠ []
  known : ∀ t ∈ ts, t.codec ∈ types.map (·.1)
  pids : ∀ t ∈ ts, t.idx + 255 < 8191
  cues : (ts.filter fun t => t.codec = "SCTE35").length ≤ 1
  room : (ts.map room).sum + 6 * (ts.filter fun t => t.codec = "SCTE35").length ≤ 167

/-- Selections that were described before: any, of up to 150 tracks, none of them ID3 or RAW. -/
def Before (ts : List Track) : Prop := ts.length ≤ 150 ∧ ∀ t ∈ ts, t.codec ≠ "ID3" ∧ t.codec ≠ "RAW"

/-- A history of tables. -/
def calls : List (List Track × Nat) → Bytes → Option Bytes
  | [], b => some b
  | c :: l, b => (createPMT b c.1 c.2).bind (calls l)

end Verif.Psi
