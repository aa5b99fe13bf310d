import Verif.Hls.Model
import Verif.Index.Seek

/-!
# HLS media playlists with fragmented MP4 segments and parts (`/repo/lib/hls_support.cpp`, `/repo/src/output/output_cmaf.cpp`)

Modelled: which segments and parts of segments are listed, with their numbers, times and durations, the target duration, the media
sequence number, the number of skipped segments, the announced next part and the end mark. Left out: the text around them, the waiting for
parts that are not there yet (`blockPlaylistReload`), encryption, tokens, reports on other tracks (their loop starts at the end and does
nothing). The requested track is the one that the playlist is timed by.
-/
namespace Verif.Hls
open Verif.Index (Track Tab Frag sub64 biggest fragIndexForTime)

/-- An entry of a playlist: a segment, or parts of one (`addMediaTags`). -/
structure Entry where
  /-- its number (`msn`) -/
  num : Nat
  start : Nat
  dur : Nat
  /-- the durations of the parts that are listed (`EXT-X-PART`) -/
  parts : List Nat
  /-- whether the segment itself is listed (`EXTINF`) -/
  full : Bool
deriving DecidableEq, Repr

/-- A playlist. -/
structure Cmaf where
  /-- `EXT-X-TARGETDURATION` -/
  target : Nat
  /-- `EXT-X-MEDIA-SEQUENCE` -/
  seq : Nat
  /-- `EXT-X-SKIP` -/
  skipped : Nat
  entries : List Entry
  /-- `EXT-X-PRELOAD-HINT`: number of the segment, its start and the number of the part that comes next -/
  hint : Option (Nat × Nat × Nat)
  ended : Bool
deriving DecidableEq, Repr

/-- What is asked for, and the settings. -/
structure Request where
  live : Bool
  /-- no parts are wanted (`llhls=0`) -/
  noParts : Bool
  /-- `_HLS_skip=YES` -/
  skip : Bool
  /-- the setting `listlimit`; 0 for recordings (output_cmaf.cpp 285) -/
  limit : Nat
  /-- `iMsn`, the number of the first segment to list -/
  initMsn : Nat

/-- hls_support.h 7: `partDurationMaxMs`. -/
def partMs : Nat := 500

/-- hls_support.cpp 149-156: `lastFrag`. `edge` is the last time that may be sent: the last time of the track or, with jitter, a bit less
(`getLastms`, hls_support.cpp 49-60). -/
def lastFrag (live : Bool) (edge : Nat) (t : Track) : Nat :=
  if live then
    if t.frags.fin > fragIndexForTime t edge then t.frags.fin else fragIndexForTime t edge
  else sub64 t.frags.fin 1

/-- hls_support.cpp 157-173: where the playlist starts. -/
def firstListed (r : Request) (lst first : Nat) : Nat :=
  let cur := if r.limit ≠ 0 ∧ sub64 lst first > r.limit + 2 then sub64 lst r.limit else first
  if r.live ∧ sub64 lst cur > 2 then max r.initMsn (cur + 2) else cur

/-- hls_support.cpp 199-238: how many segments are skipped. `none`: a division by zero. -/
def skips (r : Request) (target lst cur : Nat) : Option Nat :=
  if r.skip then
    if target = 0 then none
    else
      let fromEnd := target * 6 % 2 ^ 32 / target + 2
      some (if sub64 lst cur > fromEnd then (sub64 lst cur - fromEnd) % 2 ^ 32 else 0)
  else some 0

/-- hls_support.cpp 356-380: the parts of a segment of `dur` milliseconds that starts at `start`. A duration of 2^63 or more is negative as a
`long` and has no parts. -/
def partsOf (r : Request) (target edge lst i start dur : Nat) : List Nat :=
  if r.noParts ∨ !r.live then []
  else if lst - i < 5 ∨ sub64 edge start ≤ 3 * target * 1000 % 2 ^ 32 then
    if dur ≥ 2 ^ 63 then []
    else List.replicate (dur / partMs) partMs ++ (if dur % partMs ≠ 0 ∧ lst - i > 1 then [dur % partMs] else [])
  else []

/-- hls_support.cpp 384-413: the entry of one fragment. -/
def entry (r : Request) (target edge lst i : Nat) (t : Track) : Entry :=
  let start0 := (t.keys.get (t.frags.get i).firstKey).time
  let start := if r.live then start0 else sub64 start0 t.firstms
  let dur := if (t.frags.get i).dur = 0 then sub64 edge start else (t.frags.get i).dur
  ⟨i, start, dur, partsOf r target edge lst i start dur, !(r.live && i == lst - 1)⟩

/-- hls_support.cpp 400-413: the loop over the fragments. -/
def entries (r : Request) (target edge lst : Nat) (t : Track) : Nat → Nat → List Entry
  | 0, _ => []
  | k + 1, i => entry r target edge lst i t :: entries r target edge lst t k (i + 1)

/-- hls_support.cpp 372-378: `partNum`, the number of the part after the listed whole ones. -/
def wholeParts (e : Entry) : Nat := if e.dur ≥ 2 ^ 63 then 0 else e.dur / partMs

/-- hls_support.cpp 442-451: the announced part. -/
def hintOf (r : Request) (l : List Entry) : Option (Nat × Nat × Nat) :=
  if r.live ∧ ¬ r.noParts then l.getLast?.map fun e => (e.num, e.start, wholeParts e) else none

/-- output_cmaf.cpp 251-308: `sendHlsMediaManifest`. `none`: the process crashes. -/
def cmaf (r : Request) (edge : Nat) (t : Track) : Option Cmaf :=
  let target := biggest t.frags (t.frags.fin - t.frags.del) t.frags.del 0 / 1000
  let lst := lastFrag r.live edge t
  let cur := firstListed r lst t.frags.del
  (skips r target lst cur).map fun k =>
    let es := entries r target edge lst t (lst - (cur + k)) (cur + k)
    ⟨target, if r.live then cur else t.frags.del, k, es, hintOf r es, !r.live⟩

/-- hls_support.cpp 751-782: the end of a part as it is sent (`getPartTargetTime`), after the waiting. -/
def partEnd (t : Track) (start msn part : Nat) : Nat :=
  let dur := (t.frags.get msn).dur
  if dur = 0 then start + (part + 1) * partMs % 2 ^ 32
  else
    let e := min (start + dur) (start + (part + 1) * partMs % 2 ^ 32)
    if e - start > dur then 0 else e

/-- output_cmaf.cpp 421-434: what is sent for a part, as a segment; `none` is the answer 404. -/
def partSeg (t : Track) (start msn part : Nat) : Option Seg :=
  if partEnd t start msn part = 0 then none
  else some ⟨start + part * partMs, partEnd t start msn part - (start + part * partMs)⟩

end Verif.Hls
