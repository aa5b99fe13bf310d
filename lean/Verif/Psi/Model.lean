import Verif.Crc.Model

/-!
# Model of the program tables of transport streams

`createPMT`, the table `PAT` and the classes of program tables in `/repo/lib/ts_packet.cpp`, and their use in `/repo/lib/ts_stream.cpp`. The packet of `createPMT` is a static
variable: each call starts from what the last one left. A write or a read outside of the 188 bytes of the packet gives `none` (the buffer has one
byte more). Simplification: the packet of `createPMT` never has an
adaptation field (its byte 3 starts as 0x10 and only the low four bits are written), so that is left out of the positions used for writing.
-/
namespace Verif.Psi
open Verif

/-- What the table takes from a track (`M.getCodec`, `getType`, `getChannels`, `getInit`, `getLang`). -/
structure Track where
  idx : Nat
  codec : String
  video : Bool := false
  channels : Nat := 0
  init : Bytes := []
  lang : Bytes := []
  deriving DecidableEq, Repr

/-- "und". -/
def und : Bytes := [0x75, 0x6e, 0x64]

/-- Whether a language is written (ts_packet.cpp 1388, 1462). -/
def hasLang (t : Track) : Bool := decide (t.lang.length = 3) && decide (t.lang ≠ und)

/-- `getUniqTrackID` (ts_packet.cpp 1356-1361). -/
def pidOf (t : Track) : Nat := t.idx + 255

/-- What a track adds to the section length (ts_packet.cpp 1376-1391). -/
def addedLen (t : Track) : Nat :=
  5 + (if t.codec = "ID3" ∨ t.codec = "RAW" then t.init.length else 0) + (if t.codec = "AAC" then 4 else 0) + (if t.codec = "opus" then 10 else 0)
    + (if t.codec = "JSON" then 6 else 0) + (if t.codec = "AV1" then 12 else 0) + (if t.codec = "SCTE35" then 6 + 3 + 6 else 0) + (if hasLang t then 6 else 0)

/-- The stream type that is set, if one is (ts_packet.cpp 1420-1460). -/
def typeOf (t : Track) : Option UInt8 :=
  if t.codec = "H264" then some 0x1b
  else if t.codec = "HEVC" then some 0x24
  else if t.codec = "MPEG2" then some 0x02
  else if t.codec = "AAC" then some 0x0f
  else if t.codec = "MP3" ∨ t.codec = "MP2" then some 0x03
  else if t.codec = "opus" then some 0x06
  else if t.codec = "JSON" then some 0x06
  else if t.codec = "AV1" then some 0x06
  else if t.codec = "SCTE35" then some 0x86
  else if t.codec = "AC3" then some 0x81
  else if t.codec = "ID3" then some 0x15
  else if t.codec = "RAW" then some 0x06
  else none

/-- The first four bytes, filled up with zeros (ts_packet.cpp 1446-1447). -/
def four (b : Bytes) : Bytes := (b ++ [0, 0, 0, 0]).take 4

/-- `es_info` without the language (ts_packet.cpp 1428-1453). -/
def codecInfo (t : Track) : Bytes :=
  if t.codec = "AAC" then [0x7c, 2, 0x51, 0]
  else if t.codec = "opus" then [5, 4, 0x4f, 0x70, 0x75, 0x73] ++ [0x7f, 2, 0x80] ++ [UInt8.ofNat t.channels]
  else if t.codec = "JSON" then [5, 4, 0x4a, 0x53, 0x4f, 0x4e]
  else if t.codec = "AV1" then [5, 4, 0x41, 0x56, 0x30, 0x31] ++ [0x80, 4] ++ four t.init
  else if t.codec = "SCTE35" then [0, 1, 0] ++ [5, 4, 0x43, 0x55, 0x45, 0x49]
  else []

/-- `es_info` (ts_packet.cpp 1419-1466). -/
def esInfo (t : Track) : Bytes := codecInfo t ++ (if hasLang t then [0x0a, 4] ++ t.lang ++ [0] else [])

/-- Bytes are written at a place. -/
def put (b : Bytes) (i : Nat) (l : Bytes) : Option Bytes := if i + l.length ≤ b.length then some (b.take i ++ l ++ b.drop (i + l.length)) else none

/-- A byte. -/
def at' (b : Bytes) (i : Nat) : UInt8 := b.getD i 0

/-- `4 + getOffset()`, the place before the section (ts_packet.cpp 969-972). -/
def base (b : Bytes) : Nat := 4 + (at' b 4).toNat

/-- `getSectionLength` (ts_packet.cpp 990-993). -/
def secLen (b : Bytes) : Nat := (at' b (base b + 2)).toNat % 16 * 256 + (at' b (base b + 3)).toNat

/-- `getProgramInfoLength` (ts_packet.cpp 1076-1079). -/
def progLen (b : Bytes) : Nat := (at' b (base b + 11)).toNat % 16 * 256 + (at' b (base b + 12)).toNat

/-- Two bytes of a number (ts_packet.cpp 998-999, 1010-1011). -/
def two (n : Nat) : Bytes := [UInt8.ofNat (n / 256), UInt8.ofNat n]

/-- Two bytes of a length, with four bits set before it (ts_packet.cpp 945-946, 1084-1085). -/
def twoF (n : Nat) : Bytes := [UInt8.ofNat (n / 256 % 16 + 0xf0), UInt8.ofNat n]

/-- Two bytes of a PID, with three bits set before it (ts_packet.cpp 936-937, 1072-1073). -/
def twoE (n : Nat) : Bytes := [UInt8.ofNat (n / 256 % 32 + 0xe0), UInt8.ofNat n]

/-- The track with the clock (ts_packet.cpp 1400-1408). -/
def clock (ts : List Track) : Nat :=
  match ts.find? (·.video) with
  | some t => pidOf t
  | none => match ts with
    | [] => 0
    | t :: _ => pidOf t

/-- `setPID` (ts_packet.cpp 1371, 144-148). -/
def setPid (b : Bytes) (pid : Nat) : Option Bytes := put b 1 [UInt8.ofNat ((at' b 1).toNat / 32 * 32 + pid % 8192 / 256), UInt8.ofNat pid]

/-- `setTableId` (ts_packet.cpp 984-988). -/
def setTable (b : Bytes) (y : UInt8) : Option Bytes := put b (base b + 1) [y]

/-- `setSectionLength` (ts_packet.cpp 995-1000). -/
def setLen (b : Bytes) (n : Nat) : Option Bytes := put b (base b + 2) (two n)

/-- `setProgramNumber` (ts_packet.cpp 1007-1012). -/
def setProgram (b : Bytes) (n : Nat) : Option Bytes := put b (base b + 4) (two n)

/-- `setVersionNumber` (ts_packet.cpp 1019-1023). -/
def setVersion (b : Bytes) (n : Nat) : Option Bytes := put b (base b + 6) [UInt8.ofNat (n % 32 * 2) ||| (at' b (base b + 6) &&& 0xc1)]

/-- `setCurrentNextIndicator(1)` (ts_packet.cpp 1032-1036). -/
def setCurrent (b : Bytes) : Option Bytes := put b (base b + 6) [1 ||| (at' b (base b + 6) &&& 0xfe)]

/-- `setSectionNumber` and `setLastSectionNumber` (ts_packet.cpp 1045-1062). -/
def setSections (b : Bytes) : Option Bytes := (put b (base b + 7) [0]).bind fun b => put b (base b + 8) [0]

/-- `setContinuityCounter` (ts_packet.cpp 158-161). -/
def setCc (b : Bytes) (cc : Nat) : Option Bytes := put b 3 [UInt8.ofNat ((at' b 3).toNat / 16 * 16 + cc % 16)]

/-- `setPCRPID` (ts_packet.cpp 1069-1074). -/
def setPcr (b : Bytes) (n : Nat) : Option Bytes := put b (base b + 9) (twoE n)

/-- `setProgramInfo` (ts_packet.cpp 1081-1087). -/
def setProg (b : Bytes) (info : Bytes) : Option Bytes := (put b (base b + 11) (twoF info.length)).bind fun b => put b (base b + 13) info

/-- The parts before the entries (ts_packet.cpp 1371-1414): PID, table, section length, program number, version, current, numbers of sections, continuity counter, clock and
information about the program. -/
def header (b : Bytes) (ts : List Track) (cc : Nat) : Option Bytes :=
  (setPid b 4096).bind fun b => (setTable b 2).bind fun b => (setLen b (0xb00d + (ts.map addedLen).sum)).bind fun b => (setProgram b 1).bind fun b =>
  (setVersion b 0).bind fun b => (setCurrent b).bind fun b => (setSections b).bind fun b => (setCc b cc).bind fun b => (setPcr b (clock ts)).bind fun b =>
  setProg b (if ts.any (·.codec = "SCTE35") then [5, 4, 0x43, 0x55, 0x45, 0x49] else [])

/-- `setESInfo` (ts_packet.cpp 944-948). -/
def setInfo (b : Bytes) (i : Nat) (info : Bytes) : Option Bytes := do
  let b ← put b (i + 3) (twoF info.length)
  put b (i + 5) info

/-- The stream type of an entry (ts_packet.cpp 1420-1459): unchanged if the codec has none. -/
def setType (b : Bytes) (i : Nat) (t : Track) : Option Bytes :=
  match typeOf t with
  | some y => put b i [y]
  | none => some b

/-- The initialisation data of ID3 and RAW (ts_packet.cpp 1453-1459). -/
def setInit (b : Bytes) (i : Nat) (t : Track) : Option Bytes := if t.codec = "ID3" ∨ t.codec = "RAW" then setInfo b i t.init else some b

/-- An entry (ts_packet.cpp 1416-1467). -/
def entry (b : Bytes) (i : Nat) (t : Track) : Option Bytes :=
  (((put b (i + 1) (twoE (pidOf t))).bind fun b => setType b i t).bind fun b => setInit b i t).bind fun b => setInfo b i (esInfo t)

/-- `advance` (ts_packet.cpp 950-953). -/
def advance (b : Bytes) (i stop : Nat) : Nat := if i < stop then i + 5 + ((at' b (i + 3)).toNat % 16 * 256 + (at' b (i + 4)).toNat) else i

/-- The loop over the tracks (ts_packet.cpp 1416-1469), with the place of the next entry and its boundary. -/
def entries : Bytes → Nat → Nat → List Track → Option Bytes
  | b, _, _, [] => some b
  | b, i, stop, t :: ts =>
    match entry b i t with
    | none => none
    | some b' => entries b' (advance b' i stop) stop ts

/-- `calcCRC` (ts_packet.cpp 1104-1117); `184 - loc` is without a sign. -/
def calcCrc (b : Bytes) : Option Bytes :=
  if 184 < base b + secLen b then none
  else
    (put b (base b + secLen b) (leEnc 4 (Crc.crc32 (-1) ((b.take (base b + secLen b)).drop (base b + 1))).toNat)).bind fun b =>
      put b (base b + secLen b + 4) (List.replicate (184 - (base b + secLen b)) 0xff)

/-- `createPMT` (ts_packet.cpp 1369-1473): what it returns, which is also what it starts from the next time. -/
def createPMT (b : Bytes) (ts : List Track) (cc : Nat) : Option Bytes :=
  match header b ts cc with
  | none => none
  | some b =>
    match entries b (base b + 13 + progLen b) (base b + secLen b) ts with
    | none => none
    | some b => calcCrc b

/-- The packet before the first call (ts_packet.cpp 955-961, 178-185). -/
def fresh : Bytes := [0x47, 0x50, 0, 0x10] ++ List.replicate 184 0

/-- `PAT` (ts_packet.cpp 49-63). -/
def patBytes : Bytes :=
  [0x47, 0x40, 0x00, 0x10, 0x00, 0x00, 0xb0, 0x0d, 0x00, 0x01, 0xc1, 0x00, 0x00, 0x00, 0x01, 0xf0, 0x00, 0x2a, 0xb1, 0x04, 0xb2] ++ List.replicate 167 0xff

/-- The table that is sent before it, with the continuity counter (output_ts_base.cpp 27-30). -/
def patPacket (cc : Nat) : Bytes := patBytes.set 3 (UInt8.ofNat ((at' patBytes 3).toNat / 16 * 16 + cc % 16))

/-- `APPNAME`: "MistServer". -/
def appName : Bytes := [0x4d, 0x69, 0x73, 0x74, 0x53, 0x65, 0x72, 0x76, 0x65, 0x72]

/-- The information about the service in `createSDT` (ts_packet.cpp 1931-1939). Simplification: the rest of that table is left out. -/
def sdtInfo (name : Bytes) : Bytes := [0x48, UInt8.ofNat (4 + appName.length + name.length), 1, UInt8.ofNat appName.length] ++ appName ++ [UInt8.ofNat name.length] ++ name

/-! ## Reading -/

/-- Where the payload starts (ts_packet.cpp 970): 4, and the adaptation field if there is one. -/
def payloadAt (b : Bytes) : Nat := 4 + (if (at' b 3).toNat / 16 % 4 > 1 then (at' b 4).toNat + 1 else 0)

/-- The place before the section of a packet that was received: `none` if the byte is outside. -/
def baseOf (b : Bytes) : Option Nat := (b[payloadAt b]?).map fun o => payloadAt b + o.toNat

/-- A number of 12 or 13 bits. -/
def bits (b : Bytes) (i m : Nat) : Option Nat := do
  let x ← b[i]?
  let y ← b[i + 1]?
  pure ((x.toNat * 256 + y.toNat) % m)

/-- An entry as it is read: type, PID, information (ts_packet.cpp 880-942). -/
structure Es where
  typ : UInt8
  pid : Nat
  info : Bytes
  deriving DecidableEq, Repr

/-- The loop over the entries (ts_stream.cpp 274-319); `none` if it reads outside of the packet, at most `n` entries. -/
def readLoop : Nat → Bytes → Nat → Nat → Option (List Es)
  | 0, _, _, _ => some []
  | n + 1, b, i, stop =>
    if i < stop then do
      let y ← b[i]?
      let pid ← bits b (i + 1) 8192
      let len ← bits b (i + 3) 4096
      if b.length < i + 5 + len then none
      else do
        let rest ← readLoop n b (i + 5 + len) stop
        pure (⟨y, pid, (b.drop (i + 5)).take len⟩ :: rest)
    else some []

/-- All entries of a received table (ts_packet.cpp 1089-1095, ts_stream.cpp 272-320). -/
def readEntries (b : Bytes) : Option (List Es) := do
  let base ← baseOf b
  let pl ← bits b (base + 11) 4096
  let sl ← bits b (base + 2) 4096
  readLoop 189 b (base + 13 + pl) (base + sl)

/-- `getTag` (ts_packet.cpp 1165-1171): the data of the first descriptor with a tag. Simplification: data that reaches over the end of the descriptors is cut there; the code reads on. -/
def getTag : Nat → UInt8 → Bytes → Bytes
  | 0, _, _ => []
  | _, _, [] => []
  | _, _, [_] => []
  | n + 1, tag, x :: y :: l => if x = tag then l.take y.toNat else getTag n tag (l.drop y.toNat)

/-- `parsePIDs` (ts_packet.cpp 807-850): where the tables of programs are. -/
def readPids (b : Bytes) : Option (List Nat) := do
  let base ← baseOf b
  let sl ← bits b (base + 2) 4096
  ((List.range ((sl - 8) / 4)).mapM fun i => bits b (base + 9 + i * 4 + 2) 8192)

/-- What a stream is taken for (ts_stream.cpp 277-316, ts_stream.h 11-24), without a choice for private data (`rParser == NONE`): `none` if it is ignored. -/
def kindOf (e : Es) : Option String :=
  if e.typ = 0x1b then some "H264"
  else if e.typ = 0x0f then some "AAC"
  else if e.typ = 0x24 then some "HEVC"
  else if e.typ = 0x81 then some "AC3"
  else if e.typ = 0x86 then some "SCTE35"
  else if e.typ = 0x15 then some "ID3"
  else if e.typ = 0x03 then some "MP2"
  else if e.typ = 0x02 then some "MPEG2"
  else if e.typ = 0x06 then
    if getTag 188 5 e.info = [0x4f, 0x70, 0x75, 0x73] then some "opus"
    else if getTag 188 5 e.info = [0x4a, 0x53, 0x4f, 0x4e] then some "JSON"
    else if getTag 188 5 e.info = [0x41, 0x56, 0x30, 0x31] then some "AV1"
    else none
  else none

end Verif.Psi
