import Verif.Base.Bytes
import Verif.Bit.Model

/-!
# MPEG transport stream packets

Models `/repo/lib/ts_packet.cpp` (class `TS::Packet`: header accessors, PCR, adaptation
field, filling and stuffing, PES lead-ins), `/repo/lib/ts_stream.cpp` (`decodePTS`,
`Stream::add`, `Stream::parsePES`) and `/repo/src/output/output_ts_base.cpp`
(`TSOutput::fillPacket` and the way `sendNext` uses it).

A packet is its 188-byte buffer plus the write position. `strBuf` has 189 bytes; the last
one is never used by the functions modelled here.
-/
namespace Verif.Ts

/-- `TS::Packet`: `strBuf` and `pos` (`/repo/lib/ts_packet.h` class members). -/
structure Packet where
  buf : Bytes
  pos : Nat
deriving DecidableEq, Repr

/-- `strBuf[i]` read as a number. -/
def Packet.at (p : Packet) (i : Nat) : Nat := (p.buf.getD i 0).toNat

/-- `strBuf[i] = v` (conversion to `char` keeps 8 bits). -/
def Packet.put (p : Packet) (i v : Nat) : Packet := { p with buf := p.buf.set i (UInt8.ofNat v) }

/-- `updPos`: `ts_packet.cpp` 136-138. -/
def Packet.updPos (p : Packet) (n : Nat) : Packet := { p with pos := max p.pos n }

/-- `clear`: `ts_packet.cpp` 176-183. -/
def clear : Packet := ⟨0x47 :: 0 :: 0 :: 0x10 :: List.replicate 184 0, 4⟩

/-- `setPID`: `ts_packet.cpp` 142-146. -/
def Packet.setPID (p : Packet) (pid : Nat) : Packet :=
  ((p.put 1 ((p.at 1 &&& 0xE0) + ((pid &&& 0x1F00) >>> 8))).put 2 (pid &&& 0xFF)).updPos 2

/-- `getPID`: `ts_packet.cpp` 150-152. -/
def Packet.getPID (p : Packet) : Nat := ((p.at 1 &&& 0x1F) <<< 8) + p.at 2

/-- `setContinuityCounter`: `ts_packet.cpp` 156-159. -/
def Packet.setCC (p : Packet) (c : Nat) : Packet :=
  (p.put 3 ((p.at 3 &&& 0xF0) ||| (c &&& 0x0F))).updPos 3

/-- `getContinuityCounter`: `ts_packet.cpp` 163. -/
def Packet.getCC (p : Packet) : Nat := p.at 3 &&& 0x0F

/-- `getBytesFree`: `ts_packet.cpp` 167-173 (a position above 188 crashes; all positions in
this file stay at most 188, see `Lemmas`). -/
def Packet.bytesFree (p : Packet) : Nat := 188 - p.pos

/-- `setAdaptationField`: `ts_packet.cpp` 190-197. -/
def Packet.setAF (p : Packet) (sel : Nat) : Packet :=
  let p := p.put 3 ((p.at 3 &&& 0xCF) + ((sel &&& 3) <<< 4))
  if sel &&& 2 ≠ 0 then p.put 4 0 else { p with pos := 4 }

/-- `getAdaptationField`: `ts_packet.cpp` 203. -/
def Packet.getAF (p : Packet) : Nat := (p.at 3 &&& 0x30) >>> 4

/-- `getUnitStart`: `ts_packet.cpp` 256. -/
def Packet.getUnitStart (p : Packet) : Bool := p.at 1 &&& 0x40 ≠ 0

/-- `setUnitStart`: `ts_packet.cpp` 362-368. -/
def Packet.setUnitStart (p : Packet) (v : Bool) : Packet :=
  if v then p.put 1 (p.at 1 ||| 0x40) else p.put 1 (p.at 1 &&& 0xBF)

/-- The common body of `setDiscontinuity` (372-390), `setRandomAccess` (418-436) and
`setESPriority` (440-458) of `ts_packet.cpp`, for flag bit `bit`. -/
def Packet.setFlag (p : Packet) (bit : Nat) (v : Bool) : Packet :=
  let p := p.updPos 6
  if p.getAF = 3 then
    let p := if p.at 4 = 0 then p.put 4 1 else p
    if v then p.put 5 (p.at 5 ||| bit) else p.put 5 (p.at 5 &&& (0xFF - bit))
  else
    ((p.setAF 3).put 4 1).put 5 (if v then bit else 0)

/-- `setRandomAccess`: `ts_packet.cpp` 418-436. -/
def Packet.setRandomAccess (p : Packet) (v : Bool) : Packet := p.setFlag 0x40 v

/-- `setESPriority`: `ts_packet.cpp` 440-458. -/
def Packet.setESPriority (p : Packet) (v : Bool) : Packet := p.setFlag 0x20 v

/-- `getRandomAccess`: `ts_packet.cpp` 394-397. -/
def Packet.getRandomAccess (p : Packet) : Bool := if p.getAF < 2 then false else p.at 5 &&& 0x40 ≠ 0

/-- `setPCR`: `ts_packet.cpp` 207-222, for a non-negative value. -/
def Packet.setPCR (p : Packet) (v : Nat) : Packet :=
  let p := ((p.updPos 12).setAF 3).put 4 7
  let p := p.put 5 (p.at 5 ||| 0x10)
  let t := v / 300
  let r := v % 300
  (((((p.put 6 (((t >>> 1) >>> 24) &&& 0xFF)).put 7 (((t >>> 1) >>> 16) &&& 0xFF)).put 8
    (((t >>> 1) >>> 8) &&& 0xFF)).put 9 ((t >>> 1) &&& 0xFF)).put 10
    (0x7E + ((t &&& 1) <<< 7) + ((r &&& 0x100) >>> 8))).put 11 (r &&& 0xFF)

/-- Conversion of a bit pattern to a 32-bit `int`. -/
def int32 (n : Nat) : Int :=
  if n % 2 ^ 32 < 2 ^ 31 then (n % 2 ^ 32 : Nat) else (n % 2 ^ 32 : Nat) - (2 ^ 32 : Nat)

/-- Conversion of a bit pattern to a 64-bit `int64_t`. -/
def int64 (n : Nat) : Int :=
  if n % 2 ^ 64 < 2 ^ 63 then (n % 2 ^ 64 : Nat) else (n % 2 ^ 64 : Nat) - (2 ^ 64 : Nat)

/-- `getPCR`: `ts_packet.cpp` 226-234. The first expression is computed in `int` (32 bits,
two's complement; the shift of a value that does not fit keeps the low 32 bits), then
widened to 64 bits, multiplied, and or-ed with the extension. -/
def Packet.getPCR (p : Packet) : Int :=
  if p.getAF = 0 then -1
  else if p.at 5 &&& 0x10 = 0 then -1
  else
    let base := int32 (((p.at 6 <<< 24 ||| p.at 7 <<< 16 ||| p.at 8 <<< 8 ||| p.at 9) <<< 1) |||
      (p.at 10 >>> 7))
    let r := base * 300
    int64 ((r % (2 ^ 64 : Nat)).toNat ||| (((p.at 10 &&& 1) <<< 8) + p.at 11))

/-- `getPayloadLength`: `ts_packet.cpp` 756-758. -/
def Packet.payloadLen (p : Packet) : Nat := 184 - (if p.getAF > 1 then p.at 4 + 1 else 0)

/-- `getPayload` with `getPayloadLength`: `ts_packet.cpp` 751-758. -/
def Packet.payload (p : Packet) : Bytes :=
  (p.buf.drop (4 + (if p.getAF > 1 then p.at 4 + 1 else 0))).take p.payloadLen

/-- `memcpy(strBuf + i, d, d.size())`. -/
def blit (b : Bytes) (i : Nat) (d : Bytes) : Bytes := b.take i ++ d ++ b.drop (i + d.length)

/-- `fillFree`: `ts_packet.cpp` 685-690. Returns the packet and the number of bytes taken. -/
def Packet.fillFree (p : Packet) (d : Bytes) : Packet × Nat :=
  let n := min p.bytesFree d.length
  (⟨blit p.buf p.pos (d.take n), p.pos + n⟩, n)

/-- The beginning of `FILLER_DATA` (`ts_packet.cpp` 14-30); no more than 183 bytes of it are
ever used in one packet. -/
def fillerText : Bytes :=
  ("Lorem ipsum dolor sit amet, consectetur adipiscing elit. Praesent commodo vulputate urna eu " ++
  "commodo. Cras tempor velit nec nulla placerat volutpat. Proin eleifend blandit quam sit amet " ++
  "suscipit. Pellentesque vitae tristique lorem. Maecenas facilisis consequat neque, vitae ").toList.map
    fun c => UInt8.ofNat c.toNat

/-- `n` bytes of filler. -/
def filler (n : Nat) : Bytes := (List.range n).map fun i => fillerText.getD i 0

/-- First step of `addStuffing` (`ts_packet.cpp` 705-715): make room for an adaptation field. -/
def Packet.openAF (p : Packet) : Packet :=
  if p.getAF = 1 then
    (if p.bytesFree = 184 then ({ p.put p.pos 0 with pos := p.pos + 1 } : Packet)
     else ⟨blit p.buf 5 ((p.buf.drop 4).take 183), p.pos + 1⟩).setAF 3
  else p

/-- Second step of `addStuffing` (`ts_packet.cpp` 717-732): move the payload to the end of the
packet. `none` when the length handed to `memmove` underflows. -/
def Packet.shiftPayload (p : Packet) (n : Nat) : Option Packet :=
  if p.getAF = 3 ∧ n ≠ 0 then
    let o := 5 + (if p.at 4 = 0 then 0 else p.at 4)
    if o + n > 188 then none
    else
      let b := blit p.buf (o + n) ((p.buf.drop o).take (188 - o - n))
      let b := blit b o (List.replicate n 0x24)
      some (({ p with buf := b, pos := p.pos + n } : Packet).put 4 (p.at 4 + n))
  else some p

/-- Last step of `addStuffing` (`ts_packet.cpp` 733-741): prettier filler bytes. -/
def Packet.prettify (p : Packet) (n : Nat) : Packet :=
  if n = 0 then p
  else if n = p.at 4 then
    let p := p.put 5 0
    { p with buf := blit p.buf (5 + (p.at 4 - (n - 1))) (filler (n - 1)) }
  else { p with buf := blit p.buf (5 + (p.at 4 - n)) (filler n) }

/-- `addStuffing`: `ts_packet.cpp` 695-742. -/
def Packet.addStuffing (p : Packet) : Option Packet :=
  if p.bytesFree = 0 then some p
  else if p.getAF = 2 then some p
  else
    let q := p.openAF
    (q.shiftPayload q.bytesFree).map fun r => r.prettify q.bytesFree

/-! ## PES lead-ins -/

/-- `encodePESTimestamp`: `ts_packet.cpp` 485-496. -/
def encodePESTimestamp (lead time : Nat) : Bytes :=
  [UInt8.ofNat (lead ||| ((time &&& 0x1C0000000) >>> 29) ||| 1),
   UInt8.ofNat ((time &&& 0x3FC00000) >>> 22),
   UInt8.ofNat (((time &&& 0x3F8000) >>> 14) ||| 1),
   UInt8.ofNat ((time &&& 0x7F80) >>> 7),
   UInt8.ofNat (((time &&& 0x7F) <<< 1) ||| 1)]

/-- The elementary stream rate field: `Bit::htob24(rate_buf, (bps / 50) | 0x800001)`. -/
def rateField (bps : Nat) : Bytes :=
  if 50 ≤ bps then
    [UInt8.ofNat (((bps / 50) ||| 0x800001) >>> 16), UInt8.ofNat (((bps / 50) ||| 0x800001) >>> 8),
      UInt8.ofNat ((bps / 50) ||| 0x800001)]
  else []

/-- `getPESVideoLeadIn`: `ts_packet.cpp` 502-530 (the second overload, 538-569, appends the same
bytes to an empty string). `len` is a 32-bit number, `PTS` and `offset` 64-bit. -/
def videoLeadIn (len pts offset : Nat) (aligned : Bool) (bps : Nat) : Bytes :=
  let len1 := if len ≠ 0 then (len + (if offset ≠ 0 then 13 else 8)) % 2 ^ 32 else len
  let len2 := if 50 ≤ bps ∧ len1 ≠ 0 then (len1 + 3) % 2 ^ 32 else len1
  [0, 0, 1, 0xE0, UInt8.ofNat (len2 >>> 8), UInt8.ofNat len2, if aligned then 0x84 else 0x80,
    UInt8.ofNat ((if offset ≠ 0 then 0xC0 else 0x80) ||| (if 50 ≤ bps then 0x10 else 0)),
    UInt8.ofNat ((if offset ≠ 0 then 10 else 5) + (if 50 ≤ bps then 3 else 0))] ++
  encodePESTimestamp (if offset ≠ 0 then 0x30 else 0x20) ((pts + offset) % 2 ^ 64) ++
  (if offset ≠ 0 then encodePESTimestamp 0x10 pts else []) ++ rateField bps

/-- `getPESAudioLeadIn` (`ts_packet.cpp` 575-598, 604-629), `getPESMetaLeadIn` (635-660) and
`getPESPS1LeadIn` (666-691) only differ in the stream id byte: `0xC0`, `0xFC`, `0xBD`. -/
def plainLeadIn (sid : Byte) (len pts bps : Nat) : Bytes :=
  let len1 := if 50 ≤ bps then (len + 3) % 2 ^ 32 else len
  let len2 := (len1 + 8) % 2 ^ 32
  [0, 0, 1, sid, UInt8.ofNat ((len2 &&& 0xFF00) >>> 8), UInt8.ofNat (len2 &&& 0xFF), 0x84,
    UInt8.ofNat (0x80 ||| (if 50 ≤ bps then 0x10 else 0)),
    UInt8.ofNat (5 + (if 50 ≤ bps then 3 else 0))] ++
  encodePESTimestamp 0x20 pts ++ rateField bps

/-! ## Multiplexing -/

/-- What `fillPacket` hands to `sendTS`: program tables (their contents are not modelled) or a
media packet. -/
inductive Sent where
  | tables
  | media (p : Bytes)
deriving DecidableEq, Repr

/-- The members of `TSOutput` used by `fillPacket`: the packet being filled, this track's
continuity counter (`uint16_t`), `firstPack`, whether tables are due at each coming flush (they
depend on the clock and on `packCounter`), and everything sent so far. -/
structure Mux where
  pack : Packet
  cont : Nat
  first : Bool
  due : List Bool
  sent : List Sent
deriving DecidableEq, Repr

/-- Per-frame parameters of `fillPacket`. -/
structure Par where
  video : Bool
  keyframe : Bool
  pid : Nat
  time : Nat
deriving DecidableEq, Repr

/-- The first block of the loop of `fillPacket`: `output_ts_base.cpp` 18-39. -/
def Mux.flush (m : Mux) : Mux :=
  if m.pack.bytesFree = 0 then
    { m with
      pack := clear
      due := m.due.tail
      sent := m.sent ++ (if m.due.headD false then [Sent.tables] else []) ++ [Sent.media m.pack.buf] }
  else m

/-- The header of a fresh packet: `output_ts_base.cpp` 44-57. -/
def startPacket (m : Mux) (a : Par) : Packet :=
  let p := (clear.setPID a.pid).setCC ((m.cont + 1) % 2 ^ 16)
  if m.first then
    let p := p.setUnitStart true
    if a.video then
      (if a.keyframe then (p.setRandomAccess true).setESPriority true else p).setPCR (a.time * 27000)
    else p
  else p

/-- The second block of the loop of `fillPacket`: `output_ts_base.cpp` 43-59. -/
def Mux.start (m : Mux) (a : Par) : Mux :=
  if m.pack.bytesFree = 184 then
    { m with pack := startPacket m a, cont := (m.cont + 1) % 2 ^ 16, first := false }
  else m

/-- The loop of `TSOutput::fillPacket`: `output_ts_base.cpp` 15-66. `fuel` bounds the number of
iterations; `fillPacket` supplies one more than the number of bytes, and every iteration consumes
at least one byte. -/
def fillLoop (a : Par) : Nat → Mux → Bytes → Mux
  | 0, m, _ => m
  | fuel + 1, m, d =>
    let m := m.flush
    if d = [] then m
    else
      let m := m.start a
      let r := m.pack.fillFree d
      let m := { m with pack := r.1 }
      if d.drop r.2 = [] then m else fillLoop a fuel m (d.drop r.2)

/-- `TSOutput::fillPacket`: `output_ts_base.cpp` 15-66. -/
def fillPacket (a : Par) (m : Mux) (d : Bytes) : Mux := fillLoop a (d.length + 1) m d

/-- The end of `sendNext`: `output_ts_base.cpp` 260-263. -/
def finishFrame (a : Par) (m : Mux) : Option Mux :=
  if m.pack.bytesFree < 184 then
    m.pack.addStuffing.map fun p => fillPacket a { m with pack := p } []
  else some m

/-- One frame: `firstPack = true`, a series of `fillPacket` calls, the final stuffing
(`sendNext`, `output_ts_base.cpp` 68-264, seen as the list of pieces it passes on). -/
def sendPieces (a : Par) (m : Mux) (ds : List Bytes) : Option Mux :=
  finishFrame a (ds.foldl (fillPacket a) { m with first := true })

/-- The length-prefixed NAL units of a frame in Annex B form, as separate pieces:
`output_ts_base.cpp` 176-199, with `lenSize` 4, 2 or anything else (one byte). -/
def naluPieces (lenSize : Nat) (d : Bytes) (i : Nat) : List Bytes :=
  if _h : i + lenSize < d.length ∧ 0 < lenSize then
    let n := if lenSize = 4 then beVal ((d.drop i).take 4)
      else if lenSize = 2 then beVal ((d.drop i).take 2) else beVal ((d.drop i).take 1)
    if (n + i + lenSize) % 2 ^ 64 > d.length then []
    else [0, 0, 0, 1] :: (d.drop (i + lenSize)).take n :: naluPieces lenSize d (i + (n + lenSize))
  else []
termination_by d.length - i
decreasing_by omega

/-- Which lead-in `sendNext` asks for: video (`output_ts_base.cpp` 143-146, 205) or one of the
three others (231, 239, 262). `len` is the length passed in. -/
inductive Lead where
  | video (len offset bps : Nat) (aligned : Bool)
  | plain (sid : Byte) (len bps : Nat)
deriving DecidableEq, Repr

/-- The lead-in bytes for a frame at `time` milliseconds (`packTime *= 90`, line 106; the offset is
multiplied by 90 as well, lines 142 and 203). -/
def Lead.bytes (time : Nat) : Lead → Bytes
  | .video len offset bps al => videoLeadIn len (time * 90) (offset * 90) al bps
  | .plain sid len bps => plainLeadIn sid len (time * 90) bps

/-- A frame as `sendNext` sees it: parameters, lead-in and the pieces that follow it. -/
structure FrameIn where
  par : Par
  lead : Lead
  pieces : List Bytes
deriving DecidableEq, Repr

/-- The multiplexer between frames: one packet buffer, one counter per track
(`contCounters`), the table schedule and what has been sent. -/
structure Session where
  pack : Packet
  conts : Nat → Nat
  due : List Bool
  sent : List Sent

/-- `sendNext` for one frame: `output_ts_base.cpp` 68-264, without track selection, live seeking,
the `rawts` and `SCTE35` cases, and the sample alignment of AAC time stamps. -/
def sendFrame (s : Session) (f : FrameIn) : Option Session :=
  (sendPieces f.par ⟨s.pack, s.conts f.par.pid, true, s.due, s.sent⟩ (f.lead.bytes f.par.time :: f.pieces)).map
    fun m => ⟨m.pack, fun p => if p = f.par.pid then m.cont else s.conts p, m.due, m.sent⟩

/-- A whole session. -/
def sendAll (s : Session) : List FrameIn → Option Session
  | [] => some s
  | f :: r => (sendFrame s f).bind fun s' => sendAll s' r

/-- The pieces and the lead-in of an H264 or HEVC frame: `output_ts_base.cpp` 113-201. `endNal` and
`init` are the bytes inserted before the frame (access unit delimiter, parameter sets), empty when not
inserted; the announced length is that of the frame in its stored form plus the inserted bytes, or 0
above `MAX_PES_SIZE`. -/
def h26xFrame (par : Par) (offset bps lenSize : Nat) (endNal init data : Bytes) : FrameIn :=
  let total := data.length + (endNal.length + init.length)
  ⟨par, .video (if total > 65490 - 13 then 0 else total) offset bps true,
    endNal :: init :: naluPieces lenSize data 0⟩

/-! ## Demultiplexing -/

/-- The number before the division by 90 in `decodePTS`: `ts_stream.cpp` 398-406. -/
def decode33 (d : Bytes) : Nat :=
  let g := fun i => (d.getD i 0).toNat
  let t := (g 0 >>> 1) &&& 7
  let t := (t <<< 15) ||| ((g 1 <<< 7) ||| ((g 2 >>> 1) &&& 0x7F))
  (t <<< 15) ||| ((g 3 <<< 7) ||| ((g 4 >>> 1) &&& 0x7F))

/-- `decodePTS`: `ts_stream.cpp` 398-407. -/
def decodePTS (d : Bytes) : Nat := decode33 d / 90

/-- A frame handed to `parseBitstream`: payload, time, offset, byte position, alignment. -/
structure Unit' where
  data : Bytes
  time : Nat
  offset : Int
  bpos : Nat
  aligned : Bool
deriving DecidableEq, Repr

/-- Per-track state of the demultiplexer (`pesStreams`, `pesPositions`, `seenUnitStart`, `lastms`,
`rolloverCount` for one `tid`) and the frames found so far. -/
structure Demux where
  queue : List Packet
  bpos : List Nat
  seen : Nat
  lastms : Nat
  roll : Nat
  found : List Unit'
deriving DecidableEq, Repr

/-- A fresh track. -/
def Demux.init : Demux := ⟨[], [], 0, 0, 0, []⟩

/-- `FromPointer`: `ts_packet.cpp` 124-132. -/
def fromPointer (b : Bytes) : Packet := ⟨b, 188⟩

/-- `Stream::add` for a packet of a known media track: `ts_stream.cpp` 214-236. -/
def Demux.add (s : Demux) (p : Packet) (bpos : Nat) : Demux :=
  if p.getUnitStart ∨ s.queue ≠ [] then
    { s with
      queue := s.queue ++ [p]
      bpos := if p.getUnitStart then s.bpos ++ [bpos] else s.bpos
      seen := if p.getUnitStart then s.seen + 1 else s.seen }
  else s

/-- The copying loop of `parsePES`: `ts_stream.cpp` 487-503; a packet whose counter equals the
previous one is skipped. -/
def gather : Int → List Packet → Bytes
  | _, [] => []
  | last, p :: r =>
    if (p.getCC : Int) = last then gather last r
    else p.payload ++ gather p.getCC r

/-- `TS_PTS_ROLLOVER`: `ts_stream.h` line 8. -/
def rollover : Nat := 95443718

/-- The rollover test of `parsePES`: `ts_stream.cpp` 562-563. The comparisons with
`0.1 * TS_PTS_ROLLOVER` and `0.9 * TS_PTS_ROLLOVER` are done on integers scaled by ten. -/
def rolled (time last : Nat) : Bool :=
  time < last && 10 * (time % rollover) < rollover && 9 * rollover < 10 * (last % rollover)

/-- Time stamps of a PES header: time, offset and number of bytes read so far
(`ts_stream.cpp` 541-558). -/
def pesTimes (h : Bytes) : Nat × Int × Nat :=
  let f := (h.getD 7 0).toNat
  if (f >>> 6) &&& 2 ≠ 0 then
    let pts := decodePTS (h.drop 9)
    if ((f &&& 0xC0) >>> 6) &&& 1 ≠ 0 then
      let dts := decodePTS (h.drop 14)
      if dts > pts then (pts, (pts : Int), 19) else (dts, (pts : Int) - dts, 19)
    else (pts, 0, 14)
  else (0, 0, 9)

/-- Sizes of the ignored optional fields: `ts_stream.cpp` 569-583. -/
def pesSkip (f : Nat) : Nat :=
  (if f &&& 0x20 ≠ 0 then 6 else 0) + (if f &&& 0x10 ≠ 0 then 3 else 0) +
  (if f &&& 0x08 ≠ 0 then 1 else 0) + (if f &&& 0x04 ≠ 0 then 1 else 0) +
  (if f &&& 0x02 ≠ 0 then 2 else 0)

/-- The announced payload size: `ts_stream.cpp` 528-536 (unsigned 64-bit arithmetic). -/
def pesReal (paySize : Nat) (h : Bytes) : Nat :=
  let l := (h.getD 4 0).toNat * 256 + (h.getD 5 0).toNat
  ((if l = 0 then paySize else l + 6) + 2 ^ 64 - (9 + (h.getD 8 0).toNat)) % 2 ^ 64

/-- What follows the fixed part of one PES header: `ts_stream.cpp` 519-598. The result is the new
state and the amount the offset advances by. `rest` is the data from `offset` on. -/
def pesOne (s : Demux) (paySize bpos : Nat) (rest : Bytes) : Demux × Nat :=
  let tt := pesTimes rest
  let time := tt.1 + s.roll * rollover
  let rolledOver := rolled time s.lastms
  let time := if rolledOver then time + rollover else time
  let roll := if rolledOver then s.roll + 1 else s.roll
  let po := tt.2.2 + pesSkip (rest.getD 7 0).toNat
  let left := (rest.length + 2 ^ 64 - po) % 2 ^ 64
  let real := pesReal paySize rest
  let hl := 9 + (rest.getD 8 0).toNat
  if left ≠ real then ({ s with roll := roll }, left + hl)
  else
    ({ s with
        roll := roll
        lastms := time
        found := s.found ++ [⟨(rest.drop po).take real, time, tt.2.1, bpos,
          (rest.getD 6 0).toNat &&& 4 ≠ 0⟩] }, real + hl)

/-- The header loop of `parsePES`: `ts_stream.cpp` 508-599. The offset is a 32-bit number; an
advance of 0 (possible only when the 64-bit arithmetic wraps) is cut off by the fuel. -/
def pesLoop (paySize bpos : Nat) : Nat → Demux → Bytes → Demux
  | 0, s, _ => s
  | fuel + 1, s, rest =>
    if rest.length = 0 then s
    else if rest.length < 9 ∨ rest.length < 9 + (rest.getD 8 0).toNat then s
    else if rest.getD 0 0 ≠ 0 ∨ rest.getD 1 0 ≠ 0 ∨ rest.getD 2 0 ≠ 1 then s
    else
      let r := pesOne s paySize bpos rest
      pesLoop paySize bpos fuel r.1 (rest.drop (r.2 % 2 ^ 32))

/-- Number of packets before the next unit start: `ts_stream.cpp` 441-456 (the shortcut for
exactly two unit starts computes the same number). -/
def unitLen : List Packet → Nat
  | [] => 0
  | _ :: r => 1 + (r.takeWhile fun p => !p.getUnitStart).length

/-- `Stream::parsePES` for a codec other than SCTE35: `ts_stream.cpp` 409-606. The positions
queue is never empty when a unit is parsed. -/
def Demux.parsePES (s : Demux) (finished : Bool) : Demux :=
  if s.queue = [] ∨ (!finished ∧ s.queue.length ≤ 1) then { s with seen := 0 }
  else
    let n := unitLen s.queue
    if !finished ∧ n = s.queue.length then { s with seen := 0 }
    else
      let unit := s.queue.take n
      let pay := gather ((unit.head?.map fun p => (p.getCC : Int) - 1).getD 0) unit
      let s' := { s with queue := s.queue.drop n, bpos := s.bpos.tail, seen := s.seen - 1 }
      pesLoop pay.length (s.bpos.headD 0) pay.length s' pay

/-- One packet arriving on a media track: `add`, then one `parsePES` when a second unit start has
been seen (`Stream::parse`, `ts_stream.cpp` 262-330: `while (seenUnitStart[tid] > 1) parsePES`,
which leaves at most one unit in the queue). -/
def Demux.push (s : Demux) (b : Bytes) (bpos : Nat) : Demux :=
  let s := s.add (fromPointer b) bpos
  if s.seen > 1 then s.parsePES false else s

/-- A whole file: all packets, then `finish` (`ts_stream.cpp` 200-206). -/
def demux (bs : List Bytes) : List Unit' :=
  ((bs.foldl (fun (s : Demux) b => s.push b 0) .init).parsePES true).found

end Verif.Ts
