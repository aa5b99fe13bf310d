import Verif.Index.Seek
import Verif.Bit.Model

/-!
# Model of the boxes of MP4 files and of the segments of fragmented MP4
(`/repo/lib/mp4.cpp`, `mp4_generic.cpp`, `mp4_dash.cpp`, `cmaf.cpp`)

A box is the memory it manages: `data` up to `data_size`, with its size in the first four bytes and its type in the next four.
Allocation never fails. Sizes that need the 16-byte header are not modelled (nothing here writes one).
-/
namespace Verif.Mp4
open Verif.Bit Verif.Index

/-! ## Boxes -/

/-- mp4.cpp 184-189: `Box::boxedSize`. -/
def boxSize (b : Bytes) : Nat := beVal (b.take 4)

/-- Writing at a position. (Writing outside of the memory is not modelled; the lemmas show that it does not happen.) -/
def poke (b : Bytes) (i : Nat) (bs : Bytes) : Bytes := b.take i ++ bs ++ b.drop (i + bs.length)

/-- mp4.cpp 203-213 (`clear`), and the constructors of the box types, which then set the type. -/
def newBox (ty : Bytes) : Bytes := htob .l 8 ++ ty

/-- mp4.cpp 571-596: `Box::reserve`. -/
def reserve (b : Bytes) (pos current wanted : Nat) : Bytes :=
  if current = wanted then b else
  let n := boxSize b
  let wanted := if pos > n then wanted + (pos - n) else wanted
  let b := if current < wanted ∧ n + (wanted - current) > b.length then b.take n ++ List.replicate (wanted - current) 0 else b
  let b := if n > pos + current then poke b (pos + wanted) ((b.take n).drop (pos + current)) else b
  poke b 0 (htob .l (n + wanted - current))

/-- mp4.cpp 334-340, 397-403, 429-435, 461-467: `setInt8`, `setInt24`, `setInt32`, `setInt64`; `v` are the bytes of the number. -/
def setBytes (b : Bytes) (v : Bytes) (index : Nat) : Bytes :=
  let i := index + 8
  let b := if i + (v.length - 1) ≥ boxSize b then reserve b i 0 v.length else b
  poke b i v

/-- mp4.cpp 334-340. -/
def setInt8 (b : Bytes) (v index : Nat) : Bytes := setBytes b [byteAt v 0] index
/-- mp4.cpp 397-403. -/
def setInt24 (b : Bytes) (v index : Nat) : Bytes := setBytes b (htob .b24 v) index
/-- mp4.cpp 429-435. -/
def setInt32 (b : Bytes) (v index : Nat) : Bytes := setBytes b (htob .l v) index
/-- mp4.cpp 461-467. -/
def setInt64 (b : Bytes) (v index : Nat) : Bytes := setBytes b (htob .ll v) index

/-- mp4.cpp 356-360, 420-424, 452-456, 484-488: `getInt8`, `getInt24`, `getInt32`, `getInt64` for `w` bytes. (The functions that are not
`const` first make room; for boxes in foreign memory that fails and gives zero as well, mp4.cpp 578.) -/
def getInt (b : Bytes) (w index : Nat) : Nat :=
  let i := index + 8
  if i + (w - 1) ≥ boxSize b then 0 else beVal ((b.drop i).take w)

/-- mp4.cpp 99-103: `calcBoxSize`. -/
def calcBoxSize (p : Bytes) : Nat :=
  let r := beVal (p.take 4)
  if r = 1 then beVal ((p.drop 8).take 8) else r

/-- mp4.cpp 553-556: `getBoxLen`. -/
def getBoxLen (b : Bytes) (index : Nat) : Nat :=
  if index + 8 + 8 ≥ boxSize b then 0 else calcBoxSize (b.drop (index + 8))

/-- mp4.cpp 560-566: `setBox`. -/
def setBox (b new : Bytes) (index : Nat) : Bytes :=
  let oldlen := getBoxLen b index
  let newlen := boxSize new
  if newlen > new.length then b else
  let b := if oldlen ≠ newlen then reserve b (index + 8) oldlen newlen else b
  poke b (index + 8) (new.take newlen)

/-- mp4.cpp 620-623: the loop of `getContentCount`, for at most `fuel` boxes. (It would not end with a box of size zero.) -/
def countLoop (b : Bytes) : Nat → Nat → Nat
  | 0, _ => 0
  | fuel + 1, loc => if loc < boxSize b - 8 then countLoop b fuel (loc + boxSize (b.drop (loc + 8))) + 1 else 0

/-- mp4.cpp 617-625: `containerBox::getContentCount`. -/
def contentCount (b : Bytes) : Nat := countLoop b (boxSize b) 0

/-- mp4.cpp 630-638: the place of the `no`-th box. (If fewer boxes are there, room is made in a wrong place; nothing here does so.) -/
def contentLoc (b : Bytes) : Nat → Nat → Nat
  | 0, loc => loc
  | no + 1, loc => contentLoc b no (loc + getBoxLen b loc)

/-- mp4.cpp 627-641: `containerBox::setContent`. -/
def setContent (b new : Bytes) (no : Nat) : Bytes :=
  if no ≤ contentCount b then setBox b new (contentLoc b no 0) else b

/-! ## The boxes of a fragment -/

/-- The types, as they stand in the boxes. -/
def tyMfhd : Bytes := [0x6D, 0x66, 0x68, 0x64]
/-- `moof` -/
def tyMoof : Bytes := [0x6D, 0x6F, 0x6F, 0x66]
/-- `traf` -/
def tyTraf : Bytes := [0x74, 0x72, 0x61, 0x66]
/-- `tfhd` -/
def tyTfhd : Bytes := [0x74, 0x66, 0x68, 0x64]
/-- `tfdt` -/
def tyTfdt : Bytes := [0x74, 0x66, 0x64, 0x74]
/-- `trun` -/
def tyTrun : Bytes := [0x74, 0x72, 0x75, 0x6E]
/-- `mdat` -/
def tyMdat : Bytes := [0x6D, 0x64, 0x61, 0x74]

/-- Whether a flag is set. -/
def has (flags f : Nat) : Bool := flags &&& f != 0

/-- mp4_generic.cpp 7-13: `MFHD`. -/
def mfhd (seq : Nat) : Bytes := setInt32 (setInt32 (newBox tyMfhd) 0 0) seq 4

/-- mp4_generic.cpp 243, 62: `setFlags` of `TFHD` and `TRUN`. -/
def setFlags (b : Bytes) (f : Nat) : Bytes := setInt24 b f 1
/-- mp4_generic.cpp 245, 64: `getFlags` of `TFHD` and `TRUN`. -/
def getFlags (b : Bytes) : Nat := getInt b 3 1

/-- mp4_generic.cpp 247. -/
def tfhdSetTrack (b : Bytes) (id : Nat) : Bytes := setInt32 b id 4

/-- mp4_generic.cpp 263-268, 277-283, 293-300, 311-319: the place of a field of `TFHD`, after those of `before`. -/
def tfhdPlace (flags : Nat) (before : List Nat) : Nat :=
  8 + (if has flags 1 then 8 else 0) + ((before.map fun f => if has flags f then 4 else 0).sum)

/-- mp4_generic.cpp 263-268. -/
def tfhdSetDescription (b : Bytes) (v : Nat) : Bytes :=
  if has (getFlags b) 2 then setInt32 b v (tfhdPlace (getFlags b) []) else b
/-- mp4_generic.cpp 277-283. -/
def tfhdSetDuration (b : Bytes) (v : Nat) : Bytes :=
  if has (getFlags b) 8 then setInt32 b v (tfhdPlace (getFlags b) [2]) else b
/-- mp4_generic.cpp 293-300. -/
def tfhdSetSize (b : Bytes) (v : Nat) : Bytes :=
  if has (getFlags b) 0x10 then setInt32 b v (tfhdPlace (getFlags b) [2, 8]) else b
/-- mp4_generic.cpp 311-319. -/
def tfhdSetSampleFlags (b : Bytes) (v : Nat) : Bytes :=
  if has (getFlags b) 0x20 then setInt32 b v (tfhdPlace (getFlags b) [2, 8, 0x10]) else b

/-- mp4_dash.cpp 108-114: `TFDT::setBaseMediaDecodeTime`. -/
def tfdtSetBase (b : Bytes) (v : Nat) : Bytes := if getInt b 1 0 = 1 then setInt64 b v 4 else setInt32 b v 4

/-- mp4_dash.cpp 101-106 (after mp4.cpp 598): a new `TFDT`. -/
def tfdt : Bytes := tfdtSetBase (setInt24 (setInt8 (setInt8 (newBox tyTfdt) 0 0) 1 0) 0 1) 0

/-- mp4_generic.h: `trunSampleInformation`. -/
structure Sample where
  dur : Nat
  size : Nat
  flags : Nat
  off : Nat
  deriving DecidableEq, Repr

/-- mp4_generic.cpp 66-68. -/
def trunSetDataOffset (b : Bytes) (v : Nat) : Bytes := if has (getFlags b) 1 then setInt32 b v 8 else b

/-- mp4_generic.cpp 78-85. -/
def trunSetFirstFlags (b : Bytes) (v : Nat) : Bytes :=
  if has (getFlags b) 4 then (if has (getFlags b) 1 then setInt32 b v 12 else setInt32 b v 8) else b

/-- mp4_generic.cpp 96. -/
def trunCount (b : Bytes) : Nat := getInt b 4 4

/-- mp4_generic.cpp 100-104, 136-140: the bytes for one sample. -/
def trunRowSize (flags : Nat) : Nat :=
  (if has flags 0x100 then 4 else 0) + (if has flags 0x200 then 4 else 0) + (if has flags 0x400 then 4 else 0) + (if has flags 0x800 then 4 else 0)

/-- mp4_generic.cpp 105-107, 141-146: the place of the first sample. -/
def trunStart (flags : Nat) : Nat := 8 + (if has flags 1 then 4 else 0) + (if has flags 4 then 4 else 0)

/-- mp4_generic.cpp 98-126: `TRUN::setSampleInformation`. -/
def trunSetSample (b : Bytes) (s : Sample) (no : Nat) : Bytes :=
  let flags := getFlags b
  let at0 := trunStart flags + no * trunRowSize flags
  let b := if has flags 0x100 then setInt32 b s.dur at0 else b
  let at1 := at0 + if has flags 0x100 then 4 else 0
  let b := if has flags 0x200 then setInt32 b s.size at1 else b
  let at2 := at1 + if has flags 0x200 then 4 else 0
  let b := if has flags 0x400 then setInt32 b s.flags at2 else b
  let at3 := at2 + if has flags 0x400 then 4 else 0
  let b := if has flags 0x800 then setInt32 b s.off at3 else b
  if trunCount b < no + 1 then setInt32 b (no + 1) 4 else b

/-! ## Segments (`cmaf.cpp`) -/

/-- cmaf.cpp 167-173. -/
structure SortPart where
  time : Nat
  part : Nat
  pos : Nat
  deriving DecidableEq, Repr

/-- `std::set::insert`, with the order of cmaf.cpp 172: sorted by time, and nothing is inserted if an entry of the same time is there. -/
def setInsert (x : SortPart) : List SortPart → List SortPart
  | [] => [x]
  | y :: r => if x.time < y.time then x :: y :: r else if y.time < x.time then y :: setInsert x r else y :: r

/-- A number in a field of 32 bits, as the two's complement. -/
def word (x : Int) : Nat := (x % 2 ^ 32).toNat

/-- cmaf.cpp 225-230: the loop over `k` packets. -/
def orderLoop (parts : Tab Part) : Nat → SortPart → List SortPart → List SortPart
  | 0, _, s => s
  | k + 1, x, s =>
    orderLoop parts k ⟨(x.time + (parts.get x.part).dur) % 2 ^ 64, x.part + 1, x.pos + (parts.get x.part).size⟩ (setInsert x s)

/-- cmaf.cpp 195-201: `keyHeaderSize`. -/
def keyHeaderSize (t : Track) (startTime endTime : Nat) : Nat :=
  8 + 16 + 32 + 20 + (24 + sub64 (partIndex t endTime) (partIndex t startTime) * 12)

/-- cmaf.cpp 9-16: the loop of `payloadSize`. -/
def sizeLoop (parts : Tab Part) : Nat → Nat → Nat
  | 0, _ => 0
  | k + 1, i => (parts.get i).size + sizeLoop parts k (i + 1)

/-- cmaf.cpp 9-16: `payloadSize`. -/
def payloadSize (t : Track) (startTime endTime : Nat) : Nat :=
  sizeLoop t.parts (partIndex t endTime - partIndex t startTime) (partIndex t startTime)

/-- cmaf.cpp 212-230: the packets in the order of their times. -/
def order (t : Track) (startTime endTime : Nat) : List SortPart :=
  orderLoop t.parts (partIndex t endTime - partIndex t startTime)
    ⟨startTime, partIndex t startTime, keyHeaderSize t startTime endTime + 8⟩ []

/-- cmaf.cpp 270-274: the information on a packet. -/
def sampleOf (t : Track) (endTime : Nat) (lst : Bool) (x : SortPart) : Sample where
  dur := if lst then sub64 endTime x.time else (t.parts.get x.part).dur
  size := (t.parts.get x.part).size
  flags := 0
  off := word (t.parts.get x.part).off

/-- cmaf.cpp 269-276: the loop over the packets. -/
def samplesOf (t : Track) (endTime : Nat) : List SortPart → List Sample
  | [] => []
  | [x] => [sampleOf t endTime true x]
  | x :: y :: r => sampleOf t endTime false x :: samplesOf t endTime (y :: r)

/-- cmaf.cpp 269-276: the samples are set one after the other. -/
def setSamples : Bytes → Nat → List Sample → Bytes
  | b, _, [] => b
  | b, no, s :: r => setSamples (trunSetSample b s no) (no + 1) r

/-- What `keyHeader` uses besides the track: the number of the track and of the segment, whether the stream is a recording, and the
difference to the time of day, if that is asked for (`UTCTime ? M.getBootMsOffset() + unixBootDiff : 0`). -/
structure Setting where
  track : Nat
  seq : Nat
  vod : Bool
  shift : Nat

/-- cmaf.cpp 232-243. -/
def headerTfhd (t : Track) (c : Setting) : Bytes :=
  let b := setFlags (newBox tyTfhd) (0x20 ||| 0x20000 ||| 0x2)
  let b := tfhdSetTrack b (c.track + 1)
  let b := tfhdSetDuration b 444
  let b := tfhdSetSize b 444
  let b := tfhdSetSampleFlags b (if t.video then 0x01000000 ||| 0x00010000 else 0x02000000 ||| 0)
  tfhdSetDescription b 1

/-- cmaf.cpp 245-253. -/
def headerTfdt (t : Track) (c : Setting) (startTime : Nat) : Bytes :=
  tfdtSetBase tfdt (if c.vod then sub64 startTime t.firstms else (startTime + c.shift) % 2 ^ 64)

/-- cmaf.cpp 255-284. (Without packets, line 259 reads past the end of an empty set; zero here.) -/
def headerTrun (t : Track) (startTime endTime : Nat) : Bytes :=
  let o := order t startTime endTime
  let b := setFlags (newBox tyTrun) (0x1 ||| 0x4 ||| 0x200 ||| 0x100 ||| 0x800)
  let b := trunSetDataOffset b ((o.head?.map SortPart.pos).getD 0)
  let b := trunSetFirstFlags b (0x02000000 ||| 0)
  setSamples b 0 (samplesOf t endTime o)

/-- cmaf.cpp 204-293: `keyHeader`. -/
def keyHeader (t : Track) (c : Setting) (startTime endTime : Nat) : Bytes :=
  let moof := setContent (newBox tyMoof) (mfhd c.seq) 0
  let traf := setContent (newBox tyTraf) (headerTfhd t c) 0
  let traf := setContent traf (headerTfdt t c startTime) 1
  let traf := setContent traf (headerTrun t startTime endTime) 2
  setContent moof traf 1

/-- output_cmaf.cpp 445-455 and 466-479: the segment: its header, the start of the box with the data, and the data of the packets from
`startTime` on up to `endTime` (`fetch` of C70). -/
def segment (t : Track) (c : Setting) (data : List Bytes) (startTime endTime : Nat) : Bytes :=
  keyHeader t c startTime endTime ++ htob .l (8 + payloadSize t startTime endTime) ++ tyMdat ++ data.flatten

end Verif.Mp4
