import Verif.Base.Bytes
import Verif.Bit.Model

/-!
# Model of RTP packets, senders and receivers (`/repo/lib/rtp.cpp`, `rtp.h`)

A packet buffer is a list of bytes. A read outside a buffer gives `none` (undefined behaviour in
C++). `char` is unsigned.

The senders write the payload of each packet behind the header of one fixed buffer, always
overwriting the part they hand to the callback, so a sender is modelled by the header bytes
(everything before `data + getHsize()`) and the capacity `maxDataLen`; the bytes given to the
callback are the header followed by the payload part. The statistics counters `sentPackets` and
`sentBytes` are left out.
-/
namespace Verif.Rtp

/-- `Packet::getContribCount` (rtp.cpp 43): `data[0] & 0xE`. -/
def contribCount (b0 : UInt8) : Nat := (b0 &&& 0x0E).toNat

/-- `Packet::getPadding` (rtp.cpp 39). -/
def hasPadding (b0 : UInt8) : Bool := (b0 >>> 5) &&& 1 = 1

/-- `Packet::getExtension` (rtp.cpp 41). -/
def hasExtension (b0 : UInt8) : Bool := (b0 >>> 4) &&& 1 = 1

/-- `Packet::getMarker` (rtp.cpp 45). -/
def getMarker (d : Bytes) : Option Bool := (d[1]?).map fun (b : UInt8) => decide ((b >>> 7) &&& 1 = 1)

/-- `Packet::getPayloadType` (rtp.cpp 47). -/
def getPayloadType (d : Bytes) : Option Nat := (d[1]?).map fun (b : UInt8) => (b &&& 0x7F).toNat

/-- `Packet::getSequence` (rtp.cpp 49). -/
def getSequence (d : Bytes) : Option Nat := Bit.btoh .s (d.drop 2)

/-- `Packet::getTimeStamp` (rtp.cpp 51). -/
def getTimeStamp (d : Bytes) : Option Nat := Bit.btoh .l (d.drop 4)

/-- `Packet::getSSRC` (rtp.cpp 53). -/
def getSSRC (d : Bytes) : Option Nat := Bit.btoh .l (d.drop 8)

/-- `Packet::getHsize` (rtp.cpp 20-24). -/
def getHsize (d : Bytes) : Option Nat := do
  let b0 ← d[0]?
  let r := 12 + 4 * contribCount b0
  if hasExtension b0 then
    let n ← Bit.btoh .s (d.drop (r + 2))
    some (r + (1 + n) * 4)
  else some r

/-- The padding length used by `getPayloadSize` (rtp.cpp 28, 32):
`getPadding() ? data[maxDataLen - 1] : 0`. -/
def paddingLen (d : Bytes) : Option Nat := do
  let b0 ← d[0]?
  if hasPadding b0 then (d[d.length - 1]?).map UInt8.toNat else some 0

/-- `Packet::getPayloadSize` (rtp.cpp 26-33); a received packet's `maxDataLen` is the number of
bytes received (`Packet(const char*, uint64_t)`, rtp.cpp 770-777). -/
def getPayloadSize (d : Bytes) : Option Nat := do
  let h ← getHsize d
  let p ← paddingLen d
  if h + p ≥ d.length then some 0 else some (d.length - h - p)

/-- The bytes a receiver works on: `getPayloadSize()` bytes from `getPayload()` (rtp.cpp 26-35). -/
def getPayload (d : Bytes) : Option Bytes := do
  let h ← getHsize d
  let n ← getPayloadSize d
  some ((d.drop h).take n)

/-! ## Senders -/

/-- `Packet::Packet(payloadType, sequence, timestamp, ssrc, csrcCount)` (rtp.cpp 705-728): the
header part of the buffer, without contributing sources (`csrcCount = 0`, the only way it is
called in the tree). -/
def newHeader (payloadType sequence timestamp ssrc : Nat) : Bytes :=
  [0x80, UInt8.ofNat payloadType &&& 0x7F] ++ Bit.htob .s (sequence + 65535) ++
    Bit.htob .l timestamp ++ Bit.htob .l ssrc

/-- `maxDataLen` of that packet (rtp.cpp 709, `MAX_SEND` 16): `12 + 4 * 0 + 2 + 1472`. -/
def maxDataLen : Nat := 12 + 2 + (1500 - 28)

/-- `data[1] |= 0x80` / `data[1] &= 0x7F` (e.g. rtp.cpp 285-287). -/
def setMarker (h : Bytes) (m : Bool) : Bytes :=
  h.modify 1 fun b => if m then b ||| 0x80 else b &&& 0x7F

/-- `Packet::setTimestamp` (rtp.cpp 57). -/
def setTimestamp (h : Bytes) (t : Nat) : Bytes := h.take 4 ++ Bit.htob .l t ++ h.drop 8

/-- `Packet::setSequence` (rtp.cpp 59). -/
def setSequence (h : Bytes) (s : Nat) : Bytes := h.take 2 ++ Bit.htob .s s ++ h.drop 4

/-- `Packet::increaseSequence` (rtp.cpp 63); on headers shorter than four bytes, which no packet
has, nothing is changed. -/
def increaseSequence (h : Bytes) : Bytes :=
  match getSequence h with
  | some s => setSequence h (s + 1)
  | none => h

/-- What a sender leaves behind: the packets given to the callback, and the header. -/
abbrev Sent := List Bytes × Bytes

/-- The descriptor byte `sendVP8` writes (rtp.cpp 426-428). -/
def vp8Desc (key start : Bool) : UInt8 :=
  (0x00 ||| (if start then 0x10 else 0x00)) ||| (if key then 0x00 else 0x20)

/-- The loop of `Packet::sendVP8` (rtp.cpp 421-438); `pl` is what is left of the payload. -/
def vp8Loop (key : Bool) (start : Bool) (h : Bytes) (pl : Bytes) : Sent :=
  if _h : pl = [] then ([], h)
  else
    let chunk := min 1200 pl.length
    let h1 := setMarker h (decide (pl.length - chunk = 0))
    let r := vp8Loop key false (increaseSequence h1) (pl.drop chunk)
    ((h1 ++ vp8Desc key start :: pl.take chunk) :: r.1, r.2)
  termination_by pl.length
  decreasing_by
    have : 0 < pl.length := List.length_pos_iff.mpr _h
    simp only [List.length_drop]; omega

/-- `Packet::sendVP8` (rtp.cpp 413-439). An empty payload reads `payload[0]`: `none`. -/
def sendVP8 (h : Bytes) (pl : Bytes) : Option Sent := do
  let b ← pl[0]?
  some (vp8Loop (b &&& 1 = 0) true h pl)

/-- The keyframe test of `Packet::sendVP9` (rtp.cpp 445-452). -/
def vp9Key (b : UInt8) : Bool :=
  if b &&& 0x30 = 0x30 then b &&& 0x04 = 0 ∧ b &&& 0x02 = 0
  else b &&& 0x08 = 0 ∧ b &&& 0x04 = 0

/-- The descriptor byte `sendVP9` writes (rtp.cpp 463-467). -/
def vp9Desc (key start last : Bool) : UInt8 :=
  ((if start then 0x08 else 0x00) ||| (if last then 0x04 else 0x00)) |||
    (if key then 0x00 else 0x40)

/-- The loop of `Packet::sendVP9` (rtp.cpp 458-477). -/
def vp9Loop (key : Bool) (start : Bool) (h : Bytes) (pl : Bytes) : Sent :=
  if _h : pl = [] then ([], h)
  else
    let chunk := min 1200 pl.length
    let last := decide (pl.length - chunk = 0)
    let h1 := setMarker h last
    let r := vp9Loop key false (increaseSequence h1) (pl.drop chunk)
    ((h1 ++ vp9Desc key start last :: pl.take chunk) :: r.1, r.2)
  termination_by pl.length
  decreasing_by
    have : 0 < pl.length := List.length_pos_iff.mpr _h
    simp only [List.length_drop]; omega

/-- `Packet::sendVP9` (rtp.cpp 441-478). -/
def sendVP9 (h : Bytes) (pl : Bytes) : Option Sent := do
  let b ← pl[0]?
  some (vp9Loop (vp9Key b) true h pl)

/-- `memcpy(dst, mem + pos, n)`: `none` when it would read past the end of `mem`. -/
def readMem (mem : Bytes) (pos n : Nat) : Option Bytes :=
  if pos + n ≤ mem.length then some ((mem.drop pos).take n) else none

/-- The fragmentation loops of `sendH264` (rtp.cpp 305-327) and `sendH265` (rtp.cpp 496-518).
`pre` are the bytes in front of the flag byte (FU indicator, or the two HEVC header bytes), `ser`
the unit type put in the flag byte, `skip` the number of header bytes of the unit that are not
copied, `mem` the memory from `payload` on, `total` is `payloadlen`, `sending` the piece size,
`mark` whether the last piece gets the marker bit. A piece size of zero would never end:
`none`. -/
def fuLoop (mem : Bytes) (pre : Bytes) (ser : UInt8) (skip total sending : Nat) (mark : Bool)
    (h : Bytes) (sent : Nat) : Option Sent :=
  if _h : sent < total ∧ 0 < sending then do
    let last := decide (sent + sending ≥ total)
    let n := if last then total - sent else sending
    let flag := (if sent = 0 then ser ||| 0x80 else ser &&& 0x7F) ||| (if last then 0x40 else 0)
    let h1 := if last && mark then setMarker h true else h
    let piece ← readMem mem (skip + sent) n
    let r ← fuLoop mem pre ser skip total sending mark (increaseSequence h1) (sent + n)
    some ((h1 ++ pre ++ flag :: piece) :: r.1, r.2)
  else if sent < total then none
  else some ([], h)
  termination_by total - sent
  decreasing_by
    split <;> omega

/-- `Packet::sendH264` (rtp.cpp 281-328): `pl` is the unit to send, `after` the memory behind it,
`last` is `lastOfAccesUnit`, `max` is `maxDataLen`. -/
def sendH264 (max : Nat) (h pl after : Bytes) (last : Bool) : Option Sent := do
  let b ← (pl ++ after)[0]?
  if pl.length + h.length + 2 ≤ max then
    let t := (b &&& 0x1F).toNat
    let h1 := setMarker h (last && !(decide (t < 1 ∨ t > 5)))
    some ([h1 ++ pl], increaseSequence h1)
  else
    fuLoop (pl ++ after) [(b &&& 0xE0) ||| 0x1C] (b &&& 0x1F) 1 pl.length (max - h.length - 2) last
      (setMarker h false) 0

/-- `Packet::sendH265` (rtp.cpp 480-519). -/
def sendH265 (max : Nat) (h pl after : Bytes) : Option Sent :=
  if pl.length + h.length + 3 ≤ max then
    let h1 := setMarker h true
    some ([h1 ++ pl], increaseSequence h1)
  else do
    let b0 ← (pl ++ after)[0]?
    let b1 ← (pl ++ after)[1]?
    fuLoop (pl ++ after) [(b0 &&& 0x81) ||| 0x62, b1] ((b0 &&& 0x7E) >>> 1) 2 pl.length
      (max - h.length - 3) true (setMarker h false) 0

/-! ## Receivers -/

/-- The part of `toDTSC` (rtp.h 160-200) that turns timestamps into a running clock. -/
structure Clock where
  /-- `firstTime`, zero until the first packet -/
  firstTime : Nat
  wrapArounds : Nat
  recentWrap : Bool
  prevTime : Nat
  deriving DecidableEq, Repr

/-- `toDTSC::toDTSC` (rtp.cpp 931-943). -/
def Clock.init : Clock := ⟨0, 0, false, 0⟩

/-- The time calculation of `toDTSC::addRTP` (rtp.cpp 1013-1042) for a packet with timestamp `ts`:
the new state and `(uint64_t)pTime - firstTime + 1 + 0x100000000 * wrapArounds`, in timestamp
units. The conversion to milliseconds (division by the floating point `multiplier`, plus
`milliSync`) is left out. Arithmetic on `uint64_t` is modulo 2^64; `wrapArounds` is unbounded
here. -/
def Clock.add (c : Clock) (ts : Nat) : Clock × Nat :=
  let fresh := c.firstTime = 0
  let first := if fresh then ts + 1 else c.firstTime
  let wrapped := !fresh && !c.recentWrap &&
    decide (c.prevTime > ts ∧ ts < 0x40000000 ∧ c.prevTime > 0x80000000)
  let minus := !fresh && c.recentWrap && decide (ts > 0x80000000)
  let recent :=
    if fresh then c.recentWrap
    else if c.recentWrap then !(decide (ts < 0x80000000 ∧ ts > 0x40000000))
    else wrapped
  let wraps := if wrapped then c.wrapArounds + 1 else c.wrapArounds
  let pTime : Int := if minus then (ts : Int) - 0x100000000 else ts
  let first' := if wraps = 0 ∧ (first : Int) > (pTime + 1) % 2 ^ 64 then (pTime + 1).toNat else first
  (⟨first', wraps, recent, ts⟩,
    ((pTime - first' + 1 + 0x100000000 * wraps) % 2 ^ 64).toNat)

/-- `missed` (rtp.cpp 1045): `lastSeq != (pkt.getSequence() - 1)`, where the right hand side is an
`int` (-1 for sequence number zero) converted to `unsigned int`. -/
def missed (lastSeq seq : Nat) : Bool := lastSeq ≠ (seq + (2 ^ 32 - 1)) % 2 ^ 32

/-- A frame given to `outPacket`. -/
structure Frame where
  time : Nat
  data : Bytes
  key : Bool
  deriving DecidableEq, Repr

/-- `vp8FrameBuffer` and `vp8BufferHasKeyframe`. -/
structure Vp8 where
  buf : Bytes
  key : Bool
  deriving DecidableEq, Repr

/-- The length of the VP8 payload descriptor (rtp.cpp 1543-1566); `has_extended_pictureid` is
`(buffer[2] & 0x80) > 7`. -/
def vp8HeaderSize (b0 b1 b2 : UInt8) : Nat :=
  if (b0 &&& 0x80) >>> 7 = 1 then
    let pid := (b1 &&& 0x80) >>> 7
    2 + pid.toNat + ((b1 &&& 0x40) >>> 6).toNat +
      (if (b1 &&& 0x20) >>> 5 = 1 ∨ (b1 &&& 0x10) >>> 4 = 1 then 1 else 0) +
      (if pid = 1 ∧ (b2 &&& 0x80) > 7 then 1 else 0)
  else 1

/-- `toDTSC::handleVP8` (rtp.cpp 1521-1626) with `hasPadding = false`, as it is always called.
The result is the new state and the frames given out; `none` is a read past the payload. -/
def handleVP8 (s : Vp8) (msTime : Nat) (pl : Bytes) (missed : Bool) :
    Option (Vp8 × List Frame) :=
  match pl with
  | b0 :: b1 :: b2 :: _ =>
    let hs := vp8HeaderSize b0 b1 b2
    if hs > pl.length then some (s, [])
    else
      let body := pl.drop hs
      let startOfFrame := (b0 &&& 0x10) >>> 4 = 1 ∧ b0 &&& 0x07 = 0
      let out := if s.buf ≠ [] ∧ startOfFrame ∧ ¬ missed then [⟨msTime, s.buf, s.key⟩] else []
      let s1 : Vp8 := if s.buf ≠ [] ∧ (startOfFrame ∨ missed) then ⟨[], false⟩ else s
      if s1.buf = [] ∧ ¬ startOfFrame then some (s1, out)
      else do
        let c ← body[0]?
        let key := c &&& 0x01 = 0
        some (⟨s1.buf ++ body, s1.key || (startOfFrame && key)⟩, out)
  | _ => some (s, [])

/-- The clusters of `handleH264`/`handleHEVC` that read aggregated units (rtp.cpp 1312-1325 and
1162-1175): starting at `pos`, a two byte length and that many bytes, while `pos + lim <
plSize`. The units are passed to `handle*Single`; `none` is a read past the payload. The type
byte `pl[pos + 2]` is read for a log message whatever the length is. -/
def aggLoop (lim : Nat) (pl : Bytes) (pos : Nat) : Option (List Bytes) :=
  if _h : pos + lim < pl.length then do
    let n ← Bit.btoh .s (pl.drop pos)
    let u ← readMem pl (pos + 2) n
    let r ← aggLoop lim pl (pos + 2 + n)
    some (u :: r)
  else some []
  termination_by pl.length - pos

/-- `toDTSC::handleH264` (rtp.cpp 1289-1375), with `hasPadding = false`: `fua` is the content of
`fuaBuffer` without its four byte length prefix (it is empty exactly when `fuaBuffer` is). The
result is the new buffer and the units passed to `handleH264Single` (without the length prefix).
A completed SPS or PPS goes through `handleH264Multi`, which is not modelled: it is passed on
whole, which is what `handleH264Multi` does when there is no start code in it. -/
def handleH264 (fua : Bytes) (pl : Bytes) (missed : Bool) : Option (Bytes × List Bytes) :=
  match pl with
  | [] => some (fua, [])
  | b0 :: rest =>
    let t := b0 &&& 0x1F
    if t = 0 then some (fua, [])
    else if t < 24 then some (fua, [pl])
    else if t = 24 then (aggLoop 1 pl 1).map fun us => (fua, us)
    else if t = 28 then
      match rest with
      | [] => none
      | b1 :: frag =>
        if fua = [] ∧ b1 &&& 0x80 = 0 then some (fua, [])
        else if fua ≠ [] ∧ (b1 &&& 0x80 ≠ 0 ∨ missed) then some ([], [])
        else
          let fua1 := if fua = [] then ((b1 &&& 0x1F) ||| (b0 &&& 0xE0)) :: frag else fua ++ frag
          if b1 &&& 0x40 ≠ 0 then some ([], [fua1]) else some (fua1, [])
    else some (fua, [])

/-- `toDTSC::handleHEVC` (rtp.cpp 1155-1223): like `handleH264`; an interrupted unit is passed on
with the error bit set (1187-1196). A two byte fragmentation packet reads `pl[2]`: `none`. -/
def handleHEVC (fua : Bytes) (pl : Bytes) (missed : Bool) : Option (Bytes × List Bytes) :=
  match pl with
  | b0 :: b1 :: rest =>
    let t := (b0 &&& 0x7E) >>> 1
    if t = 48 then (aggLoop 2 pl 2).map fun us => (fua, us)
    else if t = 49 then
      match rest with
      | [] => none
      | b2 :: frag =>
        if fua = [] ∧ b2 &&& 0x80 = 0 then some (fua, [])
        else if fua ≠ [] ∧ (b2 &&& 0x80 ≠ 0 ∨ missed) then
          some ([], [fua.modify 0 (· ||| 0x80)])
        else
          let fua1 := if fua = [] then (((b2 &&& 0x3F) <<< 1) ||| (b0 &&& 0x81)) :: b1 :: frag
            else fua ++ frag
          if b2 &&& 0x40 ≠ 0 then some ([], [fua1]) else some (fua1, [])
    else if t = 50 then some (fua, [])
    else some (fua, [pl])
  | _ => some (fua, [])

/-- `toDTSC::addRTP` (rtp.cpp 1004-1060) around a codec's handler: RTCP payload types are ignored;
the handler is called with the time for the packet's timestamp (`clk`: the clock of `Clock.add` and
the conversion to milliseconds), the payload and whether a packet was missed. `lastSeq` is updated.
The state is `lastSeq` and the handler's own. -/
def addRTP {σ α : Type} (handle : σ → Nat → Bytes → Bool → Option (σ × List α)) (clk : Nat → Nat)
    (st : Nat × σ) (d : Bytes) : Option ((Nat × σ) × List α) := do
  let pt ← getPayloadType d
  if 72 ≤ pt ∧ pt ≤ 76 then some (st, [])
  else
    let ts ← getTimeStamp d
    let pl ← getPayload d
    let seq ← getSequence d
    let r ← handle st.2 (clk ts) pl (missed st.1 seq)
    some ((seq, r.1), r.2)

/-- A sequence of packets given to `addRTP`. -/
def recv {σ α : Type} (handle : σ → Nat → Bytes → Bool → Option (σ × List α)) (clk : Nat → Nat)
    (st : Nat × σ) : List Bytes → Option ((Nat × σ) × List α)
  | [] => some (st, [])
  | d :: r => do
    let x ← addRTP handle clk st d
    let y ← recv handle clk x.1 r
    some (y.1, x.2 ++ y.2)

/-- Sending a sequence of VP8 frames: `setTimestamp`, then `sendVP8` (rtp.cpp 57, 413-439), as
`OutWebRTC`/`OutSDP` do for each frame. -/
def sendFramesVP8 (h : Bytes) : List (Nat × Bytes) → Option Sent
  | [] => some ([], h)
  | (ts, f) :: r => do
    let a ← sendVP8 (setTimestamp h ts) f
    let b ← sendFramesVP8 a.2 r
    some (a.1 ++ b.1, b.2)

end Verif.Rtp
