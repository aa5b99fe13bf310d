import Verif.Play.Model
import Verif.Index.Model

/-!
# Model of MP4 files of recordings (`/repo/src/output/output_mp4.cpp`: `mp4Header`, `findSeekPoint`, `respondHTTP`, `sendNext`)

A recording is sent as one MP4 file: first a header with the tables of the samples, then the samples of all tracks in order of
time. Requests may ask for a range of bytes of that file.

Simplifications: nothing of the recording was deleted and it is not limited, so that its first part is number zero
(dtsc.cpp 4121-4136). The output offers only codecs of video and audio (126-139), so the branches for text are left out. The
boxes of tables are lists of their entries here. Of the header only its length matters for what is here; it is a parameter.
-/
namespace Verif.Prog
open Verif.Index (Part Part.zero cut16)

/-! ## The index of a recording -/

/-- A packet of a recording. -/
structure Sample where
  time : Nat
  off : Int
  key : Bool
  data : Bytes
  deriving DecidableEq

/-- A selected track: `video` is `getType() == "video"`. -/
structure Trk where
  id : Nat
  video : Bool
  samples : List Sample
  deriving DecidableEq

/-- dtsc.cpp 2886-2893: a packet sets the duration of the part before it, and its own to the same; a field of 16 bits (2181).
Without a part before it, the duration is zero. -/
def durations : Nat → List Nat → List Nat
  | _, [] => []
  | d, [_] => [d]
  | _, a :: b :: r => (b - a) % 2 ^ 16 :: durations ((b - a) % 2 ^ 16) (b :: r)

/-- The table of parts after all packets (dtsc.cpp 2884-2893; sizes have 32 bits, offsets 16 bits: 2180-2182). -/
def partsOf (l : List Sample) : List Part :=
  (l.zip (durations 0 (l.map Sample.time))).map fun x => ⟨x.1.data.length % 2 ^ 32, x.2, cut16 x.1.off⟩

/-- A record of the table of parts (dtsc.cpp 4042-4044). -/
def part (t : Trk) (i : Nat) : Part := (partsOf t.samples).getD i Part.zero

/-- dtsc.cpp 2890-2892, 2981: the times of the first and last packets. -/
def firstms (t : Trk) : Nat := (t.samples.head?.map Sample.time).getD 0
/-- dtsc.cpp 2981. -/
def lastms (t : Trk) : Nat := (t.samples.getLast?.map Sample.time).getD 0

/-- The numbers of parts of the keys of a video track: a packet starts a key if it is a key frame or the first packet
(dtsc.cpp 2897-2901, 2970-2971). -/
def keyParts : List Sample → List Nat
  | [] => []
  | _ :: l =>
    match l with
    | [] => [1]
    | b :: _ => if b.key then 1 :: keyParts l else
      match keyParts l with
      | [] => [1]
      | n :: r => (n + 1) :: r

/-! ## Tables of the header -/

/-- A box of rows of two numbers of 32 bits after a number of entries. -/
structure Rows where
  count : Nat
  rows : List (Nat × Nat)
  deriving DecidableEq

/-- mp4_generic.cpp 2479-2488, 2523-2527: `setSTTSEntry`, `setCTTSEntry`; rows that were not written are zero. All numbers have 32
bits: for the last of them, `no + 1` is zero, and the two values are written over version and flags (zero like the first value
then), and over the number of entries. Simplification: rows before the last number and after 2^29 do not exist. -/
def setRow (b : Rows) (e : Nat × Nat) (no : Nat) : Rows :=
  if no + 1 = 2 ^ 32 then { b with count := e.2 }
  else ⟨if no + 1 > b.count then no + 1 else b.count, (b.rows ++ List.replicate (no + 1 - b.rows.length) (0, 0)).set no e⟩

/-- output_mp4.cpp 557-579: counts how often the duration changes; the first comparison is with a size. -/
def preStts : List Part → Nat × Nat → Nat × Nat
  | [], s => s
  | p :: ps, s => preStts ps (if p.dur ≠ s.2 then (s.1 + 1, p.dur) else s)

/-- output_mp4.cpp 552-575: counts how often the offset changes. -/
def preCtts : List Part → Nat × Int → Nat × Int
  | [], s => s
  | p :: ps, s => preCtts ps (if p.off ≠ s.2 then (s.1 + 1, p.off) else s)

/-- output_mp4.cpp 601-609, 628: writes runs of the same duration. -/
def fillStts : List Part → Rows → Nat → Nat × Nat → Rows
  | [], b, c, e => setRow b e c
  | p :: ps, b, c, e => if e.2 ≠ p.dur then fillStts ps (setRow b e c) (c + 1) (1, p.dur) else fillStts ps b c (e.1 + 1, e.2)

/-- The bits of a number, as they are written (mp4_generic.cpp 2525). -/
def bits32 (x : Int) : Nat := (x % 2 ^ 32).toNat

/-- output_mp4.cpp 616-625, 633: writes runs of the same offset. -/
def fillCtts : List Part → Rows → Nat → Nat × Int → Rows
  | [], b, c, e => setRow b (e.1, bits32 e.2) c
  | p :: ps, b, c, e => if p.off ≠ e.2 then fillCtts ps (setRow b (e.1, bits32 e.2) c) (c + 1) (1, p.off) else fillCtts ps b c (e.1 + 1, e.2)

/-- output_mp4.cpp 555-628: the table of durations of a track. The last row is written first, to reserve the memory. -/
def sttsOf (t : Trk) : Rows :=
  let pre := preStts (partsOf t.samples) (0, (part t 0).size)
  fillStts (partsOf t.samples) (setRow ⟨0, []⟩ (0, pre.2) ((pre.1 + 2 ^ 32 - 1) % 2 ^ 32)) 0 (0, (part t 0).dur)

/-- output_mp4.cpp 545-634: the table of offsets of a track, of version 0, if there is one. -/
def cttsOf (t : Trk) : Option Rows :=
  let pre := preCtts (partsOf t.samples) (0, (part t 0).off)
  if pre.1 ≠ 0 ∨ pre.2 ≠ 0 then
    some (fillCtts (partsOf t.samples) (setRow ⟨0, []⟩ (0, bits32 pre.2) pre.1) 0 (0, (part t 0).off))
  else none

/-- output_mp4.cpp 611-612: sizes are written one by one (to a table that is long enough, 585). -/
def fillStsz : List Part → Nat → List Nat → List Nat
  | [], _, b => b
  | p :: ps, i, b => fillStsz ps (i + 1) (b.set i p.size)

/-- output_mp4.cpp 585, 600-626: the table of sizes. -/
def stszOf (t : Trk) : List Nat := fillStsz (partsOf t.samples) 0 (List.replicate (partsOf t.samples).length 0)

/-- output_mp4.cpp 645-648: numbers of key frames. -/
def stssLoop : List Nat → Nat → List Nat
  | [], _ => []
  | n :: r, c => (c + 1) :: stssLoop r (c + n)

/-- output_mp4.cpp 640-650: the table of key frames, for video. -/
def stssOf (t : Trk) : Option (List Nat) := if t.video then some (stssLoop (keyParts t.samples) 0) else none

/-- output_mp4.cpp 655-657: every chunk has one sample. -/
def stsc : List (Nat × Nat) := [(1, 1)]

/-! ## Order of the samples -/

/-- output_mp4.h 6-22: a part of a track; `firstIndex` is zero here. -/
structure KeyPart where
  time : Nat
  track : Nat
  index : Nat
  deriving DecidableEq

/-- output_mp4.h 8-13. -/
def less (a b : KeyPart) : Bool :=
  if a.time < b.time then true
  else if a.time > b.time then false
  else if a.track < b.track then true
  else a.track == b.track && decide (a.index < b.index)

/-- output_mp4.h 24-39: slots with a mark whether they are in use, and the number of the first one. -/
structure SortSet where
  slots : List (Bool × KeyPart)
  cur : Nat
  has : Bool

/-- output_mp4.cpp 29-33. -/
def SortSet.new : SortSet := ⟨[], 0, false⟩

/-- output_mp4.cpp 40-49: the loop of `findBegin` from slot `i` on. -/
def findLoop (all : List (Bool × KeyPart)) : List (Bool × KeyPart) → Nat → Nat × Bool → Nat × Bool
  | [], _, s => s
  | x :: l, i, s =>
    if !s.2 && x.1 then findLoop all l (i + 1) (i, true)
    else if x.1 && less x.2 ((all.getD s.1 (false, ⟨0, 0, 0⟩)).2) then findLoop all l (i + 1) (i, s.2)
    else findLoop all l (i + 1) s

/-- output_mp4.cpp 36-50. -/
def SortSet.findBegin (s : SortSet) : SortSet :=
  if s.slots.isEmpty then s
  else
    let r := findLoop s.slots s.slots 0 (0, false)
    { s with cur := r.1, has := r.2 }

/-- output_mp4.cpp 53-57. -/
def SortSet.begin (s : SortSet) : KeyPart := if s.has then (s.slots.getD s.cur (false, ⟨0, 0, 0⟩)).2 else ⟨0, 0, 0⟩

/-- output_mp4.cpp 60-64. -/
def SortSet.erase (s : SortSet) : SortSet :=
  if s.has then SortSet.findBegin { s with slots := s.slots.set s.cur (false, (s.slots.getD s.cur (false, ⟨0, 0, 0⟩)).2) } else s

/-- output_mp4.cpp 70-71: the slot for a part: one that is not in use, or that of the track, or a new one. -/
def findSlot (k : KeyPart) : List (Bool × KeyPart) → Nat → Nat
  | [], i => i
  | x :: l, i => if !x.1 || x.2.track == k.track then i else findSlot k l (i + 1)

/-- output_mp4.cpp 68-90. -/
def SortSet.insert (s : SortSet) (k : KeyPart) : SortSet :=
  let i := findSlot k s.slots 0
  let slots := if i < s.slots.length then s.slots.set i (true, k) else s.slots ++ [(true, k)]
  if !s.has || less k (SortSet.begin { s with slots := slots }) then ⟨slots, i, true⟩ else { s with slots := slots }

/-- The track of a number. -/
def trkOf (R : List Trk) (id : Nat) : Trk := (R.find? fun t => t.id == id).getD ⟨id, false, []⟩

/-- output_mp4.cpp 749-755, 1150-1154: the first part of a track. -/
def firstPart (t : Trk) : KeyPart := ⟨firstms t, t.id, 0⟩

/-- output_mp4.cpp 777-781, 832-836, 1357-1361: the part after this one, if its time is before the time of the last packet. -/
def nextPart (R : List Trk) (k : KeyPart) : Option KeyPart :=
  if k.time + (part (trkOf R k.track) k.index).dur < lastms (trkOf R k.track) then
    some { k with time := k.time + (part (trkOf R k.track) k.index).dur, index := k.index + 1 }
  else none

/-- output_mp4.cpp 759-782: visits parts, first ones first; `pos` is `dataOffset + dataSize`. The result are the calls of
`setChunkOffset`: the part and the place. `fuel` bounds the number of rounds; it is chosen so that the loop ends by itself. -/
def layoutLoop (R : List Trk) : Nat → SortSet → Nat → List (KeyPart × Nat)
  | 0, _, _ => []
  | fuel + 1, s, pos =>
    if !s.has then [] else
    let k := s.begin
    let s := s.erase
    (k, pos) :: layoutLoop R fuel (match nextPart R k with | some n => s.insert n | none => s) (pos + (part (trkOf R k.track) k.index).size)

/-- output_mp4.cpp 745-782. -/
def layout (R : List Trk) (fuel dataOffset : Nat) : List (KeyPart × Nat) :=
  layoutLoop R fuel (R.foldl (fun s t => s.insert (firstPart t)) SortSet.new) dataOffset

/-- output_mp4.cpp 664-673, 768-772: places are zero until they are set; `large` chooses numbers of 64 bits. -/
def chunksOf (t : Trk) (large : Bool) (calls : List (KeyPart × Nat)) : List Nat :=
  calls.foldl (fun b c => if c.1.track = t.id then b.set c.1.index (c.2 % 2 ^ (if large then 64 else 32)) else b)
    (List.replicate (partsOf t.samples).length 0)

/-! ## Serving the file -/

/-- `std::set::insert`. -/
def setInsert (k : KeyPart) : List KeyPart → List KeyPart
  | [] => [k]
  | x :: l => if less k x then k :: x :: l else if less x k then x :: setInsert k l else x :: l

/-- output_mp4.cpp 1146-1155: the set of the first parts of all tracks. -/
def firstSet (R : List Trk) : List KeyPart := R.foldl (fun s t => setInsert (firstPart t) s) []

/-- The set with the part after `k`, if there is one. -/
def addNext (R : List Trk) (k : KeyPart) (s : List KeyPart) : List KeyPart :=
  match nextPart R k with
  | some n => setInsert n s
  | none => s

/-- output_mp4.cpp 809-841: walks over the parts up to the one with byte `start` (counted from the first one); the result are the
time, the bytes before, and the set. -/
def seekLoop (R : List Trk) : Nat → Nat → Nat × Nat × List KeyPart → Nat × Nat × List KeyPart
  | 0, _, s => s
  | fuel + 1, start, s =>
    match s.2.2 with
    | [] => s
    | k :: l =>
      let size := (part (trkOf R k.track) k.index).size
      if size > start then (k.time, s.2.1, k :: l)
      else seekLoop R fuel (start - size) (k.time, s.2.1 + size, (addNext R k (k :: l)).tail)

/-- output_mp4.cpp 802-806. -/
def findSeekPoint (R : List Trk) (fuel start seek headerSize : Nat) : Nat × Nat × List KeyPart :=
  if start ≤ headerSize then (seek, 0, firstSet R) else seekLoop R fuel (start - headerSize) (seek, 0, firstSet R)

/-- What is written to the connection: bytes, or more bytes than there are (whatever follows in memory). No bytes at all mark the
end of the response (http_parser.cpp 801-824, socket.cpp 1533-1541). -/
inductive Out where
  | bytes (b : Bytes)
  | beyond (n : Nat)
  deriving DecidableEq

/-- http_parser.cpp 801-824: `Chunkify` writes `n` bytes that start where `buf` does; the number has 32 bits. -/
def chunkify (buf : Bytes) (n : Int) : Out :=
  if (n % 2 ^ 32).toNat ≤ buf.length then .bytes (buf.take (n % 2 ^ 32).toNat) else .beyond (n % 2 ^ 32).toNat

/-- Where the output is in the file: `leftOver`, `currPos` and `sortSet` (output_mp4.h). -/
structure Place where
  left : Int
  pos : Nat
  set : List KeyPart
  deriving DecidableEq

/-- output_mp4.cpp 1336-1348: what is sent of a packet. -/
def sendPart (start : Nat) (s : Place) (data : Bytes) : List Out × Int :=
  if s.pos ≥ start then ([chunkify data (min s.left data.length)], s.left - data.length)
  else if s.pos + data.length > start then
    ([chunkify (data.drop (start - s.pos)) (min (s.left % 2 ^ 64) (data.length - (start - s.pos) : Nat))], s.left - (data.length - (start - s.pos) : Nat))
  else ([], s.left)

/-- output_mp4.cpp 1350-1362: the next place. -/
def advance (R : List Trk) (s : Place) : Place :=
  match s.set with
  | [] => s
  | k :: l => { s with pos := s.pos + (part (trkOf R k.track) k.index).size, set := addNext R k l }

/-- output_mp4.cpp 1213-1363: packets of a recording, as `sendNext` gets them. -/
def sendAll (R : List Trk) (start : Nat) : Place → List Bytes → List Out
  | _, [] => []
  | s, d :: ds => (sendPart start s d).1 ++ sendAll R start (advance R { s with left := (sendPart start s d).2 }) ds

/-- output.cpp 840-860: the first time of all selected tracks. -/
def startTime (R : List Trk) : Nat := (R.map firstms).foldl min (2 ^ 64 - 1)

/-- output_mp4.cpp 1157-1211 for a range of bytes from `start` to `stop`: what is sent of the header, and where the output is
then. `header` is the header, `size` its length by `mp4HeaderSize`. -/
def respond (R : List Trk) (fuel : Nat) (header : Bytes) (size start stop : Nat) : List Out × Nat × Place :=
  let r := findSeekPoint R fuel start (startTime R) size
  let n := min size (stop + 1) - start
  if start < size then ([chunkify (header.drop start) n], r.1, ⟨(stop : Int) - start + 1 - n, r.2.1 + size, r.2.2⟩)
  else ([], r.1, ⟨(stop : Int) - start + 1, r.2.1 + size, r.2.2⟩)

/-- output_mp4.cpp 318-340, 360: the length of the file that is announced (1159, 1181, 1186). -/
def fileSize (R : List Trk) (size : Nat) : Nat := size + (R.map fun t => ((partsOf t.samples).map Part.size).sum).sum

end Verif.Prog
