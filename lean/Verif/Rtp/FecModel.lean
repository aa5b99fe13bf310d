import Verif.Rtp.Model

/-!
# Model of the Pro-MPEG forward error correction (`/repo/lib/rtp.cpp` 65-279, `rtp.h` 22-50)

The sender of a transport stream over RTP calls, for every group of transport packets, `sendTS` and then
`parseFEC` (`/repo/src/output/output_ts.cpp` 196-210).

Pointers to bitstrings are modelled by their contents: the row buffer and the column buffers never
share memory that is written later (lines 229-233 make the copy needed for that). The statistics
counters and log messages are left out.
-/
namespace Verif.Rtp

/-- `FecData` (rtp.h 22-27). -/
structure FecData where
  sequence : Nat := 0
  timestamp : Nat := 0
  bits : Bytes := []

/-- `FEC` (rtp.h 29-50). `fecBufferColumns` is a map with default values. -/
structure Fec where
  needsInit : Bool := true
  isFirst : Bool := true
  maxIndex : Nat
  columnSN : Nat := 0
  rowSN : Nat := 0
  rows : Nat
  columns : Nat
  index : Nat := 0
  lengthRecovery : Nat := 0
  row : FecData := {}
  cols : Nat → FecData := fun _ => {}

/-- `Packet::configureFEC` (rtp.cpp 66-84); the arguments are `uint8_t`. -/
def configureFEC (rows columns : UInt8) : Option Fec :=
  if rows < 4 ∨ rows > 20 then none
  else if columns < 1 ∨ columns > 20 then none
  else if rows.toNat * columns.toNat > 100 then none
  else some { maxIndex := rows.toNat * columns.toNat, rows := rows.toNat, columns := columns.toNat }

/-- `Packet::initFEC` (rtp.cpp 86-101), called with `payloadlen + 12`. -/
def Fec.init (f : Fec) (payloadlen : Nat) : Fec :=
  { f with needsInit := false, isFirst := true, index := 0, lengthRecovery := payloadlen % 65536
           row := { f.row with bits := [] }, cols := fun _ => {}, columnSN := 0, rowSN := 0 }

/-- `Packet::generateBitstring` (rtp.cpp 104-118); `data` is the header of the packet. -/
def generateBitstring (data payload : Bytes) (lengthRecovery : Nat) : Bytes :=
  [data.getD 0 0 &&& 0x3f, data.getD 1 0, data.getD 4 0, data.getD 5 0, data.getD 6 0, data.getD 7 0,
    UInt8.ofNat (lengthRecovery >>> 8), UInt8.ofNat lengthRecovery] ++ payload.take lengthRecovery

/-- `Packet::applyXOR` (rtp.cpp 120-125). -/
def applyXOR (a b : Bytes) : Bytes := List.zipWith (· ^^^ ·) a b

/-- `Packet::sendFec` (rtp.cpp 131-178): the bytes given to the socket; `thisSN` is the incremented
counter. -/
def fecBytes (f : Fec) (d : FecData) (isColumn : Bool) (thisSN : Nat) : Bytes :=
  let b := fun i => d.bits.getD i 0
  [0x80 ||| (b 0 &&& 0x3f), (b 1 &&& 0x80) ||| 0x60, UInt8.ofNat (thisSN >>> 8), UInt8.ofNat thisSN,
    UInt8.ofNat (d.timestamp >>> 24), UInt8.ofNat (d.timestamp >>> 16), UInt8.ofNat (d.timestamp >>> 8), UInt8.ofNat d.timestamp,
    0, 0, 0, 0,
    UInt8.ofNat (d.sequence >>> 8), UInt8.ofNat d.sequence, b 6, b 7, 0x80 ||| b 1, 0, 0, 0,
    b 2, b 3, b 4, b 5, if isColumn then 0 else 0x40, if isColumn then UInt8.ofNat f.columns else 1,
    if isColumn then UInt8.ofNat f.rows else UInt8.ofNat f.columns, 0] ++ (d.bits.drop 8).take f.lengthRecovery

/-- What is sent, and where: media packets, row parity and column parity go to three ports. -/
inductive Out where
  | media (b : Bytes)
  | row (b : Bytes)
  | col (b : Bytes)
  deriving DecidableEq

/-- The first half of `parseFEC` (rtp.cpp 203-225): a complete row is sent when the next one starts. -/
def fecRow (f : Fec) (bits : Bytes) (sequence timestamp : Nat) : Fec × List Out :=
  if f.index % f.columns = 0 then
    let f' := { f with row := { sequence := sequence, timestamp := timestamp, bits := bits } }
    if !f.isFirst ∨ f.index > 0 then
      ({ f' with rowSN := (f.rowSN + 1) % 65536 }, [.row (fecBytes f f.row false ((f.rowSN + 1) % 65536))])
    else (f', [])
  else ({ f with row := { f.row with bits := applyXOR f.row.bits bits } }, [])

/-- The column buffers (rtp.cpp 226-242). -/
def fecCol (f : Fec) (bits : Bytes) (sequence timestamp : Nat) : Fec :=
  let c := f.index % f.columns
  let d : FecData :=
    if (f.index / f.columns) % f.rows = 0 then { sequence := sequence, timestamp := timestamp, bits := bits }
    else { f.cols c with bits := applyXOR (f.cols c).bits bits }
  { f with cols := fun k => if k = c then d else f.cols k }

/-- Sending a complete column (rtp.cpp 244-250). -/
def fecColSend (f : Fec) : Fec × List Out :=
  if (f.index / f.columns) % f.rows = f.rows - 1 then
    ({ f with columnSN := (f.columnSN + 1) % 65536 },
      [.col (fecBytes f (f.cols (f.index % f.columns)) true ((f.columnSN + 1) % 65536))])
  else (f, [])

/-- rtp.cpp 252-257. -/
def fecNext (f : Fec) : Fec :=
  if f.index + 1 ≥ f.maxIndex then { f with isFirst := false, index := 0 } else { f with index := f.index + 1 }

/-- `Packet::parseFEC` (rtp.cpp 181-257); `data` is the packet header, whose sequence number is already
that of the next packet. -/
def parseFEC (f : Fec) (data payload : Bytes) : Fec × List Out :=
  let f := if f.needsInit then f.init payload.length else f
  if payload.length ≠ f.lengthRecovery then (f, [])
  else
    let bits := generateBitstring data payload f.lengthRecovery
    let sequence := (((getSequence data).getD 0) + 65535) % 65536
    let timestamp := (getTimeStamp data).getD 0
    let r := fecRow f bits sequence timestamp
    let c := fecColSend (fecCol r.1 bits sequence timestamp)
    (fecNext c.1, r.2 ++ c.2)

/-- `Packet::sendTS` (rtp.cpp 267-279) at time `now` (`Util::bootMS() * 90`): the packet sent and the
new header. -/
def sendTS (h payload : Bytes) (now : Nat) : Bytes × Bytes :=
  let h := setTimestamp h now
  (h ++ payload, increaseSequence h)

/-- One group of transport packets (output_ts.cpp 196-210, without simulated loss). -/
def fecStep (s : Bytes × Fec) (p : Bytes × Nat) : (Bytes × Fec) × List Out :=
  let t := sendTS s.1 p.1 p.2
  let f := parseFEC s.2 t.2 p.1
  ((t.2, f.1), .media t.1 :: f.2)

/-- A whole session: payloads with the times at which they are sent. -/
def fecRun (s : Bytes × Fec) (ps : List (Bytes × Nat)) : (Bytes × Fec) × List Out :=
  ps.foldl (fun acc p => let r := fecStep acc.1 p; (r.1, acc.2 ++ r.2)) (s, [])

end Verif.Rtp
