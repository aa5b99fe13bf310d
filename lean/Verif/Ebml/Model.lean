import Verif.Bit.Model

/-!
# Model of EBML numbers and elements (`/repo/lib/ebml.cpp`, `/repo/lib/ebml_socketglue.cpp`)

A pointer is the list of bytes from it on; reading past the end gives `none`. What a
`Socket::Connection` is sent is the list of bytes sent. `uint64_t` values are naturals
(theorems carry `< 2^64`), `int64_t` values are integers.
-/
namespace Verif.Ebml
open Verif.Bit

/-- `UniInt::readSize` (ebml.cpp 11-21), on the first byte. -/
def readSize1 (b : UInt8) : Nat :=
  if b &&& 0x80 ≠ 0 then 1
  else if b &&& 0x40 ≠ 0 then 2
  else if b &&& 0x20 ≠ 0 then 3
  else if b &&& 0x10 ≠ 0 then 4
  else if b &&& 0x08 ≠ 0 then 5
  else if b &&& 0x04 ≠ 0 then 6
  else if b &&& 0x02 ≠ 0 then 7
  else if b &&& 0x01 ≠ 0 then 8
  else 1

def readSize : Bytes → Option Nat
  | [] => none
  | b :: _ => some (readSize1 b)

/-- `UniInt::writeSize` (ebml.cpp 24-34). -/
def writeSize (val : Nat) : Nat :=
  if val ≤ 0x7E then 1
  else if val ≤ 0x3FFE then 2
  else if val ≤ 0x1FFFFE then 3
  else if val ≤ 0xFFFFFFE then 4
  else if val ≤ 0x7FFFFFFFE then 5
  else if val ≤ 0x3FFFFFFFFFE then 6
  else if val ≤ 0x1FFFFFFFFFFFE then 7
  else if val ≤ 0xFFFFFFFFFFFFFE then 8
  else 0

/-- `UniInt::readInt` (ebml.cpp 38-52). -/
def readInt (p : Bytes) : Option Nat :=
  match p with
  | [] => none
  | b :: _ =>
    match readSize1 b with
    | 1 => some (if b = 0xFF then 0xFFFFFFFFFFFFFFFF else (b &&& 0x7F).toNat)
    | 2 => (btoh .s p).map (· &&& 0x3FFF)
    | 3 => (btoh .b24 p).map (· &&& 0x1FFFFF)
    | 4 => (btoh .l p).map (· &&& 0xFFFFFFF)
    | 5 => (btoh .b40 p).map (· &&& 0x7FFFFFFFF)
    | 6 => (btoh .b48 p).map (· &&& 0x3FFFFFFFFFF)
    | 7 => (btoh .b56 p).map (· &&& 0x1FFFFFFFFFFFF)
    | 8 => (btoh .ll p).map (· &&& 0xFFFFFFFFFFFFFF)
    | _ => some 0

/-- The bytes `UniInt::writeInt` (ebml.cpp 54-65) stores at `p`. -/
def writeInt (val : Nat) : Bytes :=
  match writeSize val with
  | 1 => [UInt8.ofNat (val ||| 0x80)]
  | 2 => htob .s (val ||| 0x4000)
  | 3 => htob .b24 (val ||| 0x200000)
  | 4 => htob .l (val ||| 0x10000000)
  | 5 => htob .b40 (val ||| 0x800000000)
  | 6 => htob .b48 (val ||| 0x40000000000)
  | 7 => htob .b56 (val ||| 0x2000000000000)
  | 8 => htob .ll (val ||| 0x100000000000000)
  | _ => []

/-- `UniInt::readSInt` (ebml.cpp 69-81). -/
def readSInt (p : Bytes) : Option Int :=
  match p with
  | [] => none
  | b :: _ =>
    match readSize1 b with
    | 1 => (readInt p).map fun v => (v : Int) - 0x3F
    | 2 => (readInt p).map fun v => (v : Int) - 0x1FFF
    | 3 => (readInt p).map fun v => (v : Int) - 0xFFFFF
    | 4 => (readInt p).map fun v => (v : Int) - 0x7FFFFFF
    | 5 => (readInt p).map fun v => (v : Int) - 0x3FFFFFFFF
    | 6 => (readInt p).map fun v => (v : Int) - 0x1FFFFFFFFFF
    | 7 => (readInt p).map fun v => (v : Int) - 0xFFFFFFFFFFFF
    | 8 => (readInt p).map fun v => (v : Int) - 0x7FFFFFFFFFFFFF
    | _ => some 0

/-- `sendUniInt` (ebml_socketglue.cpp 7-16). -/
def sendUniInt (val : Nat) : Bytes := if writeSize val = 0 then [0xFF] else writeInt val

/-- `sizeElemHead` (ebml_socketglue.cpp 18-21). -/
def sizeElemHead (id size : Nat) : Nat :=
  writeSize id + (if writeSize size = 0 then 1 else writeSize size)

/-- `sendElemHead` (ebml_socketglue.cpp 85-88). -/
def sendElemHead (id size : Nat) : Bytes := sendUniInt id ++ sendUniInt size

/-- `sizeUInt` (ebml_socketglue.cpp 23-40). -/
def sizeUInt (val : Nat) : Nat :=
  if val ≥ 0x100000000000000 then 8
  else if val ≥ 0x1000000000000 then 7
  else if val ≥ 0x10000000000 then 6
  else if val ≥ 0x100000000 then 5
  else if val ≥ 0x1000000 then 4
  else if val ≥ 0x10000 then 3
  else if val ≥ 0x100 then 2
  else 1

/-- `sizeElemUInt` (ebml_socketglue.cpp 42-45). -/
def sizeElemUInt (id val : Nat) : Nat := sizeElemHead id (sizeUInt val) + sizeUInt val

/-- `sizeInt` (ebml_socketglue.cpp 47-64). -/
def sizeInt (val : Int) : Nat :=
  if val ≥ 0x100000000000000 ∨ val ≤ -0x100000000000000 then 8
  else if val ≥ 0x1000000000000 ∨ val ≤ -0x1000000000000 then 7
  else if val ≥ 0x10000000000 ∨ val ≤ -0x10000000000 then 6
  else if val ≥ 0x100000000 ∨ val ≤ -0x100000000 then 5
  else if val ≥ 0x1000000 ∨ val ≤ -0x1000000 then 4
  else if val ≥ 0x10000 ∨ val ≤ -0x10000 then 3
  else if val ≥ 0x100 ∨ val ≤ -0x100 then 2
  else 1

/-- `sizeElemInt` (ebml_socketglue.cpp 66-69). -/
def sizeElemInt (id : Nat) (val : Int) : Nat := sizeElemHead id (sizeInt val) + sizeInt val

/-- `sizeElemID` (ebml_socketglue.cpp 71-74). -/
def sizeElemID (id val : Nat) : Nat := sizeElemHead id (writeSize val) + writeSize val

/-- A `double` as the code sees it: its bit pattern, and, if `val == (float)val`, the bit
pattern of the equal `float`. -/
structure Dbl where
  bits : Nat
  float? : Option Nat

/-- `sizeElemDbl` (ebml_socketglue.cpp 76-79). -/
def sizeElemDbl (id : Nat) (val : Dbl) : Nat :=
  let iSize := if val.float?.isSome then 4 else 8
  sizeElemHead id iSize + iSize

/-- `sizeElemStr` (ebml_socketglue.cpp 81-83); the result is a `uint32_t`. -/
def sizeElemStr (id : Nat) (val : Bytes) : Nat := (sizeElemHead id val.length + val.length) % 2 ^ 32

/-- The switch in `sendElemUInt` / `sendElemInt` (92-101, 110-119): the bytes left in `tmp`. -/
def payloadInt (wSize val : Nat) : Bytes :=
  match wSize with
  | 8 => htob .ll val
  | 7 => htob .b56 val
  | 6 => htob .b48 val
  | 5 => htob .b40 val
  | 4 => htob .l val
  | 3 => htob .b24 val
  | 2 => htob .s val
  | 1 => [UInt8.ofNat val]
  | _ => []

/-- `sendElemUInt` (ebml_socketglue.cpp 90-105). -/
def sendElemUInt (id val : Nat) : Bytes :=
  sendElemHead id (sizeUInt val) ++ payloadInt (sizeUInt val) val

/-- `sendElemInt` (ebml_socketglue.cpp 107-122); the conversion to the unsigned parameter of
the store functions is modulo 2^64. -/
def sendElemInt (id : Nat) (val : Int) : Bytes :=
  sendElemHead id (sizeInt val) ++ payloadInt (sizeInt val) (val % 2 ^ 64).toNat

/-- `sendElemID` (ebml_socketglue.cpp 124-128). -/
def sendElemID (id val : Nat) : Bytes := sendElemHead id (writeSize val) ++ sendUniInt val

/-- `sendElemDbl` (ebml_socketglue.cpp 130-139); `htobd` keeps only the low 32 bits of the
pattern (bitfields.h 135). -/
def sendElemDbl (id : Nat) (val : Dbl) : Bytes :=
  match val.float? with
  | some f => sendElemHead id 4 ++ htob .l f
  | none => sendElemHead id 8 ++ htob .ll (val.bits % 2 ^ 32)

/-- `sendElemStr` (ebml_socketglue.cpp 141-144). -/
def sendElemStr (id : Nat) (val : Bytes) : Bytes := sendElemHead id val.length ++ val

/-! Element identifiers (ebml.h 30-82). -/
def EID_EBML : Nat := 0x0A45DFA3
def EID_EBMLVERSION : Nat := 0x286
def EID_EBMLREADVERSION : Nat := 0x2F7
def EID_EBMLMAXIDLENGTH : Nat := 0x2F2
def EID_EBMLMAXSIZELENGTH : Nat := 0x2F3
def EID_DOCTYPE : Nat := 0x282
def EID_DOCTYPEVERSION : Nat := 0x287
def EID_DOCTYPEREADVERSION : Nat := 0x285
def EID_DURATION : Nat := 0x489
def EID_DATEUTC : Nat := 0x461
def EID_TIMECODESCALE : Nat := 0xAD7B1
def EID_MUXINGAPP : Nat := 0xD80
def EID_WRITINGAPP : Nat := 0x1741
def EID_INFO : Nat := 0x0549A966
def EID_SIMPLEBLOCK : Nat := 0x23
def EID_SEEK : Nat := 0xDBB
def EID_SEEKID : Nat := 0x13AB
def EID_SEEKPOSITION : Nat := 0x13AC
def EID_CUETRACK : Nat := 0x77
def EID_CUECLUSTERPOSITION : Nat := 0x71
def EID_CUERELATIVEPOSITION : Nat := 0x70
def EID_CUETRACKPOSITIONS : Nat := 0x37
def EID_CUETIME : Nat := 0x33
def EID_CUEPOINT : Nat := 0x3B

/-- The text "matroska". -/
def matroska : Bytes := [109, 97, 116, 114, 111, 115, 107, 97]

/-- `sendElemEBML` (ebml_socketglue.cpp 146-160). -/
def sendElemEBML (doctype : Bytes) : Bytes :=
  sendElemHead EID_EBML (27 + doctype.length) ++
  sendElemUInt EID_EBMLVERSION 1 ++
  sendElemUInt EID_EBMLREADVERSION 1 ++
  sendElemUInt EID_EBMLMAXIDLENGTH 4 ++
  sendElemUInt EID_EBMLMAXSIZELENGTH 8 ++
  sendElemStr EID_DOCTYPE doctype ++
  (if doctype = matroska then
    sendElemUInt EID_DOCTYPEVERSION 4 ++ sendElemUInt EID_DOCTYPEREADVERSION 1
  else
    sendElemUInt EID_DOCTYPEVERSION 1 ++ sendElemUInt EID_DOCTYPEREADVERSION 1)

/-- `sizeElemEBML` (ebml_socketglue.cpp 182-184); the result is a `uint32_t`. -/
def sizeElemEBML (doctype : Bytes) : Nat :=
  (27 + doctype.length + sizeElemHead EID_EBML (27 + doctype.length)) % 2 ^ 32

/-- The rescaled date (165-166 and 193-194). Overflow of the `int64_t` product is undefined
behaviour; theorems keep `date` in range. -/
def rescale (date : Int) : Int := if date = 0 then 0 else (date - 978307200000) * 1000000

/-- Lines 164-166 and 188-190: size of the optional duration. -/
def durSize : Option Dbl → Nat
  | some d => sizeElemDbl EID_DURATION d
  | none => 0

/-- Line 176. -/
def durSend : Option Dbl → Bytes
  | some d => sendElemDbl EID_DURATION d
  | none => []

/-- `contentLen` in `sendElemInfo` and `sizeElemInfo` (163-172, 187-195). `none` stands for
a duration that is not positive. -/
def infoLen (appName : Bytes) (duration : Option Dbl) (date : Int) : Nat :=
  13 + 2 * appName.length +
  durSize duration +
  (if date = 0 then 0 else sizeElemInt EID_DATEUTC (rescale date))

/-- `sendElemInfo` (ebml_socketglue.cpp 162-180). The second `if (date)` tests the rescaled
date. -/
def sendElemInfo (appName : Bytes) (duration : Option Dbl) (date : Int) : Bytes :=
  sendElemHead EID_INFO (infoLen appName duration date) ++
  sendElemUInt EID_TIMECODESCALE 1000000 ++
  durSend duration ++
  (if rescale date = 0 then [] else sendElemInt EID_DATEUTC (rescale date)) ++
  sendElemStr EID_MUXINGAPP appName ++
  sendElemStr EID_WRITINGAPP appName

/-- `sizeElemInfo` (ebml_socketglue.cpp 186-197). -/
def sizeElemInfo (appName : Bytes) (duration : Option Dbl) (date : Int) : Nat :=
  (infoLen appName duration date + sizeElemHead EID_INFO (infoLen appName duration date)) % 2 ^ 32

/-- `sendSimpleBlock` (ebml_socketglue.cpp 199-209); `blockSize` is a `uint32_t`, and the
relative time is stored modulo 2^16. -/
def sendSimpleBlock (data : Bytes) (trackId : Nat) (time : Nat) (key : Bool) (clusterTime : Nat) :
    Bytes :=
  sendElemHead EID_SIMPLEBLOCK ((writeSize trackId + 3 + data.length) % 2 ^ 32) ++
  sendUniInt trackId ++
  htob .s (((time : Int) - clusterTime) % 2 ^ 16).toNat ++ [if key then 0x80 else 0] ++ data

/-- `sizeSimpleBlock` (ebml_socketglue.cpp 211-214). -/
def sizeSimpleBlock (trackId dataSize : Nat) : Nat :=
  let ret := (writeSize trackId + 3 + dataSize) % 2 ^ 32
  (ret + sizeElemHead EID_SIMPLEBLOCK ret) % 2 ^ 32

/-- `sendElemSeek` (ebml_socketglue.cpp 216-221). -/
def sendElemSeek (id bytePos : Nat) : Bytes :=
  let elems := sizeElemUInt EID_SEEKID id + sizeElemUInt EID_SEEKPOSITION bytePos
  sendElemHead EID_SEEK elems ++ sendElemID EID_SEEKID id ++ sendElemUInt EID_SEEKPOSITION bytePos

/-- `sizeElemSeek` (ebml_socketglue.cpp 223-226). -/
def sizeElemSeek (id bytePos : Nat) : Nat :=
  let elems := sizeElemID EID_SEEKID id + sizeElemUInt EID_SEEKPOSITION bytePos
  sizeElemHead EID_SEEK elems + elems

/-- `sendElemCuePoint` (ebml_socketglue.cpp 228-241). -/
def sendElemCuePoint (time track clusterPos relaPos : Nat) : Bytes :=
  let elemsA := sizeElemUInt EID_CUETRACK track + sizeElemUInt EID_CUECLUSTERPOSITION clusterPos +
    sizeElemUInt EID_CUERELATIVEPOSITION relaPos
  let elemsB := elemsA + sizeElemUInt EID_CUETIME time + sizeElemHead EID_CUETRACKPOSITIONS elemsA
  sendElemHead EID_CUEPOINT elemsB ++
  sendElemUInt EID_CUETIME time ++
  sendElemHead EID_CUETRACKPOSITIONS elemsA ++
  sendElemUInt EID_CUETRACK track ++
  sendElemUInt EID_CUECLUSTERPOSITION clusterPos ++
  sendElemUInt EID_CUERELATIVEPOSITION relaPos

/-- `sizeElemCuePoint` (ebml_socketglue.cpp 243-251). -/
def sizeElemCuePoint (time track clusterPos relaPos : Nat) : Nat :=
  let e := sizeElemUInt EID_CUETRACK track + sizeElemUInt EID_CUECLUSTERPOSITION clusterPos +
    sizeElemUInt EID_CUERELATIVEPOSITION relaPos
  let elems := e + sizeElemHead EID_CUETRACKPOSITIONS e + sizeElemUInt EID_CUETIME time
  sizeElemHead EID_CUEPOINT elems + elems

/-! ## Reading elements -/

/-- `Element::getID` (ebml.cpp 231); truncated to `uint32_t`. -/
def getID (p : Bytes) : Option Nat := (readInt p).map (· % 2 ^ 32)

/-- `Element::getPayloadLen` (ebml.cpp 233-236). -/
def getPayloadLen (p : Bytes) : Option Nat := do
  let o ← readSize p
  readInt (p.drop o)

/-- `Element::getHeaderLen` (ebml.cpp 238-241). -/
def getHeaderLen (p : Bytes) : Option Nat := do
  let o ← readSize p
  let s ← readSize (p.drop o)
  return o + s

/-- `Element::getOuterLen` (ebml.cpp 245-252); `uint64_t` addition. -/
def getOuterLen (minimal : Bool) (p : Bytes) : Option Nat := do
  let o ← readSize p
  let v ← readInt (p.drop o)
  let s ← readSize (p.drop o)
  return if minimal ∧ v = 0xFFFFFFFFFFFFFFFF then o + s else (v + o + s) % 2 ^ 64

/-- The switch of `getValUInt` (ebml.cpp 471-482) on the payload length. -/
def payUInt (n : Nat) (d : Bytes) : Option Nat :=
  match n with
  | 0 => some 0
  | 1 => d.head?.map (·.toNat)
  | 2 => btoh .s d
  | 3 => btoh .b24 d
  | 4 => btoh .l d
  | 5 => btoh .b40 d
  | 6 => btoh .b48 d
  | 7 => btoh .b56 d
  | 8 => btoh .ll d
  | _ => some 0

/-- `Element::getValUInt` (ebml.cpp 468-484). -/
def getValUInt (p : Bytes) : Option Nat := do
  let h ← getHeaderLen p
  let n ← getPayloadLen p
  payUInt n (p.drop h)

/-- Reading the low `n` bits of a number as two's complement: the effect of
`((int64_t)x << (64-n)) >> (64-n)` and of the casts to `int8_t` and `int32_t`. -/
def signed (n x : Nat) : Int :=
  if x % 2 ^ n < 2 ^ (n - 1) then (x % 2 ^ n : Nat) else (x % 2 ^ n : Nat) - (2 ^ n : Nat)

/-- `Element::getValInt` (ebml.cpp 486-502). -/
def getValInt (p : Bytes) : Option Int := do
  let h ← getHeaderLen p
  let n ← getPayloadLen p
  let d := p.drop h
  match n with
  | 0 => return 0
  | 1 => d.head?.map (fun b => signed 8 b.toNat)
  | 2 => (btoh .s d).map (signed 16)
  | 3 => (btoh .b24 d).map (signed 24)
  | 4 => (btoh .l d).map (signed 32)
  | 5 => (btoh .b40 d).map (signed 40)
  | 6 => (btoh .b48 d).map (signed 48)
  | 7 => (btoh .b56 d).map (signed 56)
  | 8 => (btoh .ll d).map (signed 64)
  | _ => return 0

/-- `Element::getValDate` (ebml.cpp 504-506); C++ division truncates toward zero. -/
def getValDate (p : Bytes) : Option Int := (getValInt p).map fun v => 978307200000 + v.tdiv 1000000

/-- `Element::getValFloat` (ebml.cpp 508-517): which pattern width is read, and the pattern. -/
def getValFloat (p : Bytes) : Option (Nat × Nat) := do
  let h ← getHeaderLen p
  let n ← getPayloadLen p
  let d := p.drop h
  match n with
  | 4 => (btoh .l d).map fun x => (32, x)
  | 8 => (btoh .ll d).map fun x => (64, x)
  | _ => return (64, 0)

/-- `Element::getValStringUntrimmed` (ebml.cpp 526-530). -/
def getValStringUntrimmed (p : Bytes) : Option Bytes := do
  let h ← getHeaderLen p
  let n ← getPayloadLen p
  if h + n ≤ p.length then return (p.drop h).take n else none

/-- `Element::getValString` (ebml.cpp 519-524): trailing zero bytes removed. -/
def getValString (p : Bytes) : Option Bytes :=
  (getValStringUntrimmed p).map fun s => (s.reverse.dropWhile (· == 0)).reverse

/-! ## Blocks (ebml.cpp 532-566) -/

/-- Payload pointer of an element (ebml.cpp 243). -/
def getPayload (p : Bytes) : Option Bytes := (getHeaderLen p).map p.drop

/-- `Block::getTrackNum` (ebml.cpp 532). -/
def getTrackNum (p : Bytes) : Option Nat := do readInt (← getPayload p)

/-- `Block::getTimecode` (ebml.cpp 534-536), as `int16_t`. -/
def getTimecode (p : Bytes) : Option Int := do
  let d ← getPayload p
  let o ← readSize d
  (btoh .s (d.drop o)).map (signed 16)

/-- `Block::isKeyframe` (ebml.cpp 538). -/
def isKeyframe (p : Bytes) : Option Bool := do
  let d ← getPayload p
  let o ← readSize d
  let b ← d[o + 2]?
  return b &&& 0x80 ≠ 0

/-- `Block::getLacing` (ebml.cpp 548-550). -/
def getLacing (p : Bytes) : Option Nat := do
  let d ← getPayload p
  let o ← readSize d
  let b ← d[o + 2]?
  return ((b &&& 0x6) >>> 1).toNat

/-- `Block::getFrameSize` case 0 and `getFrameData` case 0 (no lacing): the frame bytes. -/
def frameNoLacing (p : Bytes) : Option Bytes := do
  let d ← getPayload p
  let o ← readSize d
  let n ← getPayloadLen p
  if o + 3 ≤ n ∧ n ≤ d.length then return (d.drop (o + 3)).take (n - (o + 3)) else none

end Verif.Ebml
