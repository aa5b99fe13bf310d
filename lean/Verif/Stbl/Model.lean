import Verif.Index.Model

/-!
# Model of the sample tables of MP4 files (`/repo/lib/mp4_stream.cpp`: `TrackHeader::getPart` without fragments, `increaseTime`)

The boxes are lists of their entries here (mp4_generic.cpp 2477-2733, 3546-3556: entries are numbers of 32 bits at fixed places).
A time scale of zero divides by zero in the code; Lean's quotient is zero then. Overflow of signed numbers wraps around.
-/
namespace Verif.Stbl
open Verif.Index (sub64)

/-- What `TrackHeader::read` keeps (mp4_stream.cpp 105-150). -/
structure Tables where
  /-- units per second -/
  scale : Nat
  video : Bool
  /-- `sType == "tx3g"` -/
  text : Bool := false
  /-- number of samples (mp4_generic.cpp 2713) -/
  count : Nat
  /-- the size of all samples, and those of single ones -/
  allSize : Nat := 0
  sizes : List Nat
  /-- numbers of samples and the time up to the next one -/
  stts : List (Nat × Nat)
  /-- numbers of samples and their offsets -/
  ctts : Option (List (Nat × Int))
  /-- numbers of key frames, from one on -/
  stss : Option (List Nat)
  /-- first chunk, from one on, and samples in each chunk -/
  stsc : List (Nat × Nat)
  /-- places of chunks -/
  chunks : List Nat

/-- mp4_stream.h 71-83: where the last lookup ended. -/
structure Cursor where
  posIndex : Nat := 0
  posSample : Nat := 0
  timeIndex : Nat := 0
  timeSample : Nat := 0
  timeFirst : Nat := 0
  timeTotal : Nat := 0
  timeExtra : Nat := 0
  offIndex : Nat := 0
  offSample : Nat := 0
  keyIndex : Nat := 0
  keySample : Nat := 0
  deriving DecidableEq

/-- A time in milliseconds (mp4_stream.cpp 275, 285, 340). -/
def millis (scale total : Nat) : Nat := total * 1000 % 2 ^ 64 / scale

/-- mp4_stream.cpp 273-291: the numbers that `increaseTime` changes: total and extra. -/
def increase (scale : Nat) (s : Nat × Nat) (delta : Nat) : Nat × Nat :=
  let prev := millis scale s.1
  let total := sub64 ((s.1 + delta) % 2 ^ 64) s.2
  if prev ≥ millis scale total then
    let want := (prev + 1) * scale % 2 ^ 64 / 1000 % 2 ^ 32
    (want, sub64 want total)
  else (total, 0)

/-- mp4_stream.cpp 273-291: `increaseTime`, `k` times with the same duration. -/
def advance (scale delta : Nat) : Nat → Cursor → Cursor
  | 0, c => c
  | k + 1, c =>
    let s := increase scale (c.timeTotal, c.timeExtra) delta
    advance scale delta k { c with timeTotal := s.1, timeExtra := s.2, timeSample := c.timeSample + 1 }

/-- mp4_stream.cpp 325-336: the loop over `k` entries. Without entries, the last argument, which is not initialised in the code, is left. -/
def timeLoop (t : Tables) (index : Nat) : Nat → Cursor → Nat × Nat → Cursor × (Nat × Nat)
  | 0, c, e => (c, e)
  | k + 1, c, _ =>
    let e := t.stts.getD c.timeIndex (0, 0)
    let next := c.timeFirst + e.1
    if next > index then (c, e) else
    let c := advance t.scale e.2 (next - c.timeSample) { c with timeFirst := next }
    timeLoop t index k { c with timeIndex := c.timeIndex + 1 } e

/-- mp4_stream.cpp 317-341: the time. -/
def getTime (t : Tables) (c : Cursor) (index : Nat) : Cursor × Nat :=
  let c := if index < c.timeSample then { c with timeIndex := 0, timeFirst := 0, timeSample := 0, timeExtra := 0, timeTotal := 0 } else c
  let r := timeLoop t index (t.stts.length - c.timeIndex) c (0, 0)
  let c := advance t.scale r.2.2 (index - r.1.timeSample) r.1
  (c, millis t.scale c.timeTotal)

/-- mp4_stream.cpp 353-361: the loop over `k` entries. -/
def offLoop (l : List (Nat × Int)) (index : Nat) : Nat → Cursor → Nat × Int → Cursor × (Nat × Int)
  | 0, c, e => (c, e)
  | k + 1, c, _ =>
    let e := l.getD c.offIndex (0, 0)
    let next := c.offSample + e.1
    if next > index then (c, e) else offLoop l index k { c with offSample := next, offIndex := c.offIndex + 1 } e

/-- A number of 32 bits with sign. -/
def int32 (x : Int) : Int := (x + 2 ^ 31) % 2 ^ 32 - 2 ^ 31

/-- mp4_stream.cpp 362: `(entry.sampleOffset * 1000) / timeScale`: a product of 32 bits with sign, a quotient of 64 bits without. -/
def offMillis (scale : Nat) (off : Int) : Int := int32 (((int32 (off * 1000) % 2 ^ 64).toNat / scale : Nat) : Int)

/-- mp4_stream.cpp 344-367: the offset. -/
def getOffset (t : Tables) (c : Cursor) (index : Nat) : Cursor × Int :=
  match t.ctts with
  | none => (c, 0)
  | some l =>
    let c := if index < c.offSample then { c with offIndex := 0, offSample := 0 } else c
    let r := offLoop l index (l.length - c.offIndex) c (0, 0)
    (r.1, offMillis t.scale r.2.2)

/-- mp4_stream.cpp 383-396: the loop over `k` entries. -/
def keyLoop (l : List Nat) (count index : Nat) : Nat → Cursor → Cursor
  | 0, c => c
  | k + 1, c =>
    let next := if c.keyIndex + 1 < l.length then (l.getD (c.keyIndex + 1) 0 + 2 ^ 32 - 1) % 2 ^ 32 else count
    if next > index then c else keyLoop l count index k { c with keySample := next, keyIndex := c.keyIndex + 1 }

/-- mp4_stream.cpp 370-402: whether it is a key frame. -/
def getKey (t : Tables) (c : Cursor) (index : Nat) : Cursor × Bool :=
  if t.video = false then (c, false) else
  match t.stss with
  | none => (c, true)
  | some l =>
    let c := if index < c.keySample then { c with keyIndex := 0, keySample := 0 } else c
    let c := keyLoop l t.count index (l.length - c.keyIndex) c
    (c, c.keySample == index)

/-- mp4_generic.cpp 2725-2733: the size of a sample. -/
def entrySize (t : Tables) (no : Nat) : Nat :=
  if no ≥ t.count then 0 else if t.sizes.getD no 0 = 0 then t.allSize else t.sizes.getD no 0

/-- mp4_stream.cpp 413-427: the loop over `k` entries. -/
def posLoop (t : Tables) (index : Nat) : Nat → Cursor → Nat × Nat → Cursor × (Nat × Nat)
  | 0, c, e => (c, e)
  | k + 1, c, _ =>
    let e := t.stsc.getD c.posIndex (0, 0)
    let next := if c.posIndex + 1 < t.stsc.length then
        c.posSample + ((t.stsc.getD (c.posIndex + 1) (0, 0)).1 + 2 ^ 32 - e.1) % 2 ^ 32 * e.2 % 2 ^ 32
      else t.count
    if next > index then (c, e) else posLoop t index k { c with posSample := next, posIndex := c.posIndex + 1 } e

/-- mp4_stream.cpp 435: adding the sizes of `k` samples from the `j`-th on. -/
def addSizes (t : Tables) : Nat → Nat → Nat → Nat
  | 0, _, p => p
  | k + 1, j, p => addSizes t k (j + 1) ((p + entrySize t j) % 2 ^ 64)

/-- mp4_stream.cpp 405-436: the place. (The counter of line 435 is a signed number of 32 bits; from 2^31 on it counts as larger than any index.) -/
def getPos (t : Tables) (c : Cursor) (index : Nat) : Cursor × Nat :=
  let c := if index < c.posSample then { c with posIndex := 0, posSample := 0 } else c
  let r := posLoop t index (t.stsc.length - c.posIndex) c (0, 0)
  let first := (r.2.1 + 2 ^ 32 - 1) % 2 ^ 32
  let chunk := first + (index - r.1.posSample) / r.2.2
  let start := r.1.posSample + (chunk - first) * r.2.2
  (r.1, if start < 2 ^ 31 then addSizes t (index - start) start (t.chunks.getD chunk 0) else t.chunks.getD chunk 0)

/-- What is known about a sample. -/
structure Part where
  time : Nat
  off : Int
  key : Bool
  pos : Nat
  size : Nat
  deriving DecidableEq, Repr

/-- mp4_stream.cpp 310-447: `getPart` without fragments, with all questions asked, as all callers do. -/
def getPart (t : Tables) (c : Cursor) (index : Nat) : Cursor × Part :=
  let a := getTime t c index
  let b := getOffset t a.1 index
  let k := getKey t b.1 index
  let p := getPos t k.1 index
  let size := entrySize t index
  (p.1, if t.text ∧ size ≥ 2 then ⟨a.2, b.2, k.2, p.2 + 2, size - 2⟩ else ⟨a.2, b.2, k.2, p.2, size⟩)

/-- Any lookups, one after the other. -/
def lookups (t : Tables) : Cursor → List Nat → Cursor
  | c, [] => c
  | c, i :: r => lookups t (getPart t c i).1 r

end Verif.Stbl
