import Verif.Mp4.Model
import Verif.Stbl.Model

/-!
# Model of the reading of fragments of MP4 files
(`/repo/lib/mp4_stream.cpp`: `TrackHeader` with fragments; `mp4.cpp`, `mp4_generic.cpp`, `mp4_dash.cpp`: the boxes; `src/input/input_mp4.cpp`)

A box in foreign memory is the memory from its first byte on. Reading past the end of the memory gives zeros or nothing here; the
lemmas show that this does not happen for fragments as they should be. The 16-byte header of boxes is not modelled.
-/
namespace Verif.Fmp4
open Verif.Mp4 Verif.Stbl

/-- mp4.cpp 663, 652: the box that stands for a missing one. -/
def erro : Bytes := [0, 0, 0, 8, 0x65, 0x72, 0x72, 0x6F]

/-- mp4.cpp 87: `isType`. -/
def isType (b ty : Bytes) : Bool := (b.drop 4).take 4 == ty

/-- mp4.cpp 666-676: the loop of `getChildren`, for at most `fuel` boxes. (It would not end with a box of size zero.) -/
def childLoop (b ty : Bytes) : Nat → Nat → List Bytes
  | 0, _ => []
  | fuel + 1, loc =>
    if loc < boxSize b - 8 then
      (if isType (b.drop loc) ty then [b.drop loc] else []) ++ childLoop b ty fuel (loc + calcBoxSize (b.drop loc))
    else []

/-- mp4.cpp 666-676: `getChildren`. -/
def getChildren (b ty : Bytes) : List Bytes := childLoop b ty (boxSize b) 8

/-- mp4.cpp 655-664: `getChild`: the first one. -/
def getChild (b ty : Bytes) : Bytes := (getChildren b ty).headD erro

/-- mp4_generic.cpp 249: `TFHD::getTrackID`. -/
def tfhdTrack (b : Bytes) : Nat := getInt b 4 4
/-- mp4_generic.cpp 285-291: `getDefaultSampleDuration`. -/
def tfhdDuration (b : Bytes) : Nat := if has (getFlags b) 8 then getInt b 4 (tfhdPlace (getFlags b) [2]) else 0
/-- mp4_generic.cpp 302-309: `getDefaultSampleSize`. -/
def tfhdSize (b : Bytes) : Nat := if has (getFlags b) 0x10 then getInt b 4 (tfhdPlace (getFlags b) [2, 8]) else 0
/-- mp4_generic.cpp 321-329: `getDefaultSampleFlags`. -/
def tfhdFlags (b : Bytes) : Nat := if has (getFlags b) 0x20 then getInt b 4 (tfhdPlace (getFlags b) [2, 8, 0x10]) else 0
/-- mp4_generic.cpp 331: `getDefaultBaseIsMoof`. -/
def tfhdBaseIsMoof (b : Bytes) : Bool := has (getFlags b) 0x20000

/-- mp4_dash.cpp 116-119: `TFDT::getBaseMediaDecodeTime`. -/
def tfdtBase (b : Bytes) : Nat := if getInt b 1 0 = 1 then getInt b 8 4 else getInt b 4 4

/-- What is used of the `TREX` box (mp4_generic.h 80-84). -/
structure Trex where
  dur : Nat
  size : Nat
  flags : Nat

/-- mp4_generic.cpp 70-76: `TRUN::getDataOffset`. -/
def trunDataOffset (b : Bytes) : Nat := if has (getFlags b) 1 then getInt b 4 8 else 0
/-- mp4_generic.cpp 87-94: `TRUN::getFirstSampleFlags`. -/
def trunFirstFlags (b : Bytes) : Nat := if has (getFlags b) 4 then (if has (getFlags b) 1 then getInt b 4 12 else getInt b 4 8) else 0

/-- mp4_generic.cpp 128-185: `TRUN::getSampleInformation` for sample `no`. -/
def trunInfo (b : Bytes) (no : Nat) (tfhd : Bytes) (trex : Option Trex) : Sample :=
  let no := no % 2 ^ 32
  if trunCount b < (no + 1) % 2 ^ 32 then ⟨0, 0, 0, 0⟩ else
  let flags := getFlags b
  let at0 := trunStart flags + no * trunRowSize flags
  let at1 := at0 + if has flags 0x100 then 4 else 0
  let at2 := at1 + if has flags 0x200 then 4 else 0
  let at3 := at2 + if has flags 0x400 then 4 else 0
  { dur := if has flags 0x100 then getInt b 4 (at0 % 2 ^ 32) else if has (getFlags tfhd) 8 then tfhdDuration tfhd else (trex.map Trex.dur).getD 0
    size := if has flags 0x200 then getInt b 4 (at1 % 2 ^ 32) else if has (getFlags tfhd) 0x10 then tfhdSize tfhd else (trex.map Trex.size).getD 0
    flags := if has flags 0x400 then getInt b 4 (at2 % 2 ^ 32) else if has flags 4 ∧ no = 0 then trunFirstFlags b
      else if has (getFlags tfhd) 0x20 then tfhdFlags tfhd else (trex.map Trex.flags).getD 0
    off := if has flags 0x800 then getInt b 4 (at3 % 2 ^ 32) else 0 }

/-- What `TrackHeader` keeps while it reads fragments (mp4_stream.h 58-93). -/
structure Header where
  scale : Nat
  trex : Option Trex
  trafs : List Bytes := []
  timeTotal : Nat := 0
  timeExtra : Nat := 0
  timeSample : Nat := 0

/-- mp4_stream.cpp 79-86: `nextMoof`. -/
def nextMoof (h : Header) : Header := { h with trafs := [], timeTotal := 0, timeExtra := 0, timeSample := 0 }

/-- mp4_stream.cpp 263-271, mp4.cpp 71-82: `read`; the box is copied. -/
def readTraf (h : Header) (b : Bytes) : Header := { h with trafs := h.trafs ++ [b.take (boxSize b)] }

/-- input_mp4.cpp 355-369: the `traf` boxes of a track in a `moof` box. -/
def readMoof (h : Header) (moof : Bytes) (track : Nat) : Header :=
  (getChildren moof tyTraf).foldl (fun h b =>
    let tfhd := getChild b tyTfhd
    if isType tfhd [0x65, 0x72, 0x72, 0x6F] then h else if tfhdTrack tfhd = track then readTraf h b else h) (nextMoof h)

/-- mp4_stream.cpp 294-306: `size`. -/
def headerSize (h : Header) : Nat := (h.trafs.flatMap fun b => (getChildren b tyTrun).map trunCount).sum

/-- mp4_stream.cpp 273-291: `increaseTime`. -/
def increaseTime (h : Header) (delta : Nat) : Header :=
  let s := increase h.scale (h.timeTotal, h.timeExtra) delta
  { h with timeTotal := s.1, timeExtra := s.2, timeSample := h.timeSample + 1 }

/-- mp4_stream.cpp 500-504: the run box that contains the sample `no`, and the samples before it. -/
def findRun (no : Nat) : List Bytes → Nat → Option (Bytes × Nat)
  | [], _ => none
  | r :: l, skipped => if no ≥ skipped + trunCount r then findRun no l (skipped + trunCount r) else some (r, skipped)

/-- mp4_stream.cpp 489-511: the loop that increases the time, at most `fuel` times; `r` is the run box of the sample and `skipped` the samples
before it; `runs` are those of the `traf` box and `first` the samples before that. -/
def timeLoop (runs : List Bytes) (first : Nat) (r : Bytes) (skipped : Nat) (tfhd : Bytes) (index : Nat) : Nat → Header → Header
  | 0, h => h
  | fuel + 1, h =>
    if h.timeSample < index then
      if h.timeSample ≥ skipped ∧ h.timeSample < skipped + trunCount r then
        timeLoop runs first r skipped tfhd index fuel (increaseTime h (trunInfo r (h.timeSample - skipped) tfhd h.trex).dur)
      else
        match findRun h.timeSample runs first with
        | none => h
        | some (q, s) => timeLoop runs first r skipped tfhd index fuel (increaseTime h (trunInfo q ((h.timeSample + 2 ^ 64 - s) % 2 ^ 64) tfhd h.trex).dur)
    else h

/-- mp4_stream.cpp 480-513: the time. -/
def getTime (h : Header) (traf : Bytes) (first : Nat) (r : Bytes) (skipped : Nat) (tfhd : Bytes) (index : Nat) : Header × Nat :=
  let h := if index = 0 ∨ index < h.timeSample then { h with timeSample := 0, timeExtra := 0, timeTotal := tfdtBase (getChild traf tyTfdt) } else h
  let h := timeLoop (getChildren traf tyTrun) first r skipped tfhd index (index - h.timeSample) h
  (h, millis h.scale h.timeTotal)

/-- mp4_stream.cpp 464-478: the place. -/
def getPos (h : Header) (r : Bytes) (no : Nat) (tfhd : Bytes) (moofPos : Nat) : Nat :=
  (if tfhdBaseIsMoof tfhd then moofPos else 0) +
    if has (getFlags r) 1 then trunDataOffset r + ((List.range no).map fun i => (trunInfo r i tfhd h.trex).size).sum else 0

/-- mp4_stream.cpp 460-524: what is said about a sample in run box `r`. -/
def inRun (h : Header) (traf : Bytes) (first : Nat) (r : Bytes) (skipped : Nat) (index moofPos : Nat) : Header × Part :=
  let tfhd := getChild traf tyTfhd
  let si := trunInfo r (index - skipped) tfhd h.trex
  let t := getTime h traf first r skipped tfhd index
  (t.1, ⟨t.2, int32 ((si.off * 1000 % 2 ^ 32 / h.scale : Nat) : Int), !has si.flags 0x10000, getPos h r (index - skipped) tfhd moofPos, si.size⟩)

/-- mp4_stream.cpp 453-459: the loop over the run boxes: the one with the sample, and the samples before it; or the samples of all. -/
def runLoop (index : Nat) : List Bytes → Nat → (Bytes × Nat) ⊕ Nat
  | [], skipped => .inr skipped
  | r :: l, skipped => if index ≥ skipped + trunCount r then runLoop index l (skipped + trunCount r) else .inl (r, skipped)

/-- mp4_stream.cpp 450-529: the loop over the `traf` boxes. -/
def trafLoop (h : Header) (index moofPos : Nat) : List Bytes → Nat → Header × Option Part
  | [], _ => (h, none)
  | t :: l, skipped =>
    match runLoop index (getChildren t tyTrun) skipped with
    | .inr s => trafLoop h index moofPos l s
    | .inl (r, s) => let x := inRun h t skipped r s index moofPos; (x.1, some x.2)

/-- mp4_stream.cpp 447-530: `getPart` with fragments. Without the sample, nothing is filled in. -/
def getPart (h : Header) (index moofPos : Nat) : Header × Option Part := trafLoop h index moofPos h.trafs 0

/-- Any lookups, one after the other. -/
def lookups (h : Header) (moofPos : Nat) : List Nat → Header
  | [] => h
  | i :: r => lookups (getPart h i moofPos).1 moofPos r

/-- input_mp4.cpp 372-379: all samples, in order. -/
def allParts (h : Header) (moofPos : Nat) : Nat → Nat → List Part
  | 0, _ => []
  | k + 1, i =>
    let x := getPart h i moofPos
    x.2.toList ++ allParts x.1 moofPos k (i + 1)

end Verif.Fmp4
