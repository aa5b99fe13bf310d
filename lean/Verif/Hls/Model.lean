import Verif.Index.Evict

/-!
# HLS media playlists with TS segments (`/repo/src/output/output_hls.cpp`)

`liveIndex` writes the playlist of one track from the index of the track that it is timed by (the track itself or the stream's main
video track). Modelled: which fragments are listed, their times and durations, the target duration, the media sequence number and
the end mark. Left out: the text around them (a line longer than 399 bytes is cut off), tokens, encryption tags, subtitles and
recordings that are limited to a part by the request.
-/
namespace Verif.Hls
open Verif.Index (Track Tab Frag sub64 biggest)

/-- A line of a playlist: a segment with its first time and its duration in milliseconds (output_hls.cpp 120-132: `EXTINF` and the
name `start_end.ts`). -/
structure Seg where
  start : Nat
  dur : Nat
deriving DecidableEq, Repr

/-- A playlist. -/
structure Playlist where
  /-- `EXT-X-TARGETDURATION`, in seconds -/
  target : Nat
  /-- `EXT-X-MEDIA-SEQUENCE`: the number of the first segment -/
  seq : Nat
  segs : List Seg
  /-- `EXT-X-ENDLIST`: there is nothing more to come -/
  ended : Bool
deriving DecidableEq, Repr

/-- Subtraction of numbers of 32 bits. -/
def sub32 (a b : Nat) : Nat := (a + 2 ^ 32 - b) % 2 ^ 32

/-- output_hls.cpp 114-119: the line of one fragment that starts at `start` and has `dur0` as its duration in the index. -/
def line (t : Track) (start dur0 : Nat) : Option Seg :=
  let dur := if dur0 = 0 then sub64 t.lastms start else dur0
  if (start + dur) % 2 ^ 64 < t.firstms then none
  else if start ≥ t.lastms then none
  else some ⟨start, if (start + dur) % 2 ^ 64 > t.lastms then sub64 t.lastms start else dur⟩

/-- output_hls.cpp 113-136: the loop over `k` fragments from the `i`-th on. (The loop counts with an `int`; here there are fewer than
2^31 fragments.) -/
def lines (t : Track) : Nat → Nat → List Seg
  | 0, _ => []
  | k + 1, i =>
    match line t (t.keys.get (t.frags.get i).firstKey).time (t.frags.get i).dur with
    | some s => s :: lines t k (i + 1)
    | none => lines t k (i + 1)

/-- output_hls.cpp 133: the sum of the durations, in 32 bits. -/
def total32 (l : List Seg) : Nat := (l.map Seg.dur).sum % 2 ^ 32

/-- output_hls.cpp 144-149: the first two segments of a live stream are left out, if enough is left. The durations are kept in 16 bits
(`std::deque<uint16_t>`). The result: the segments left, their total and how many were left out. -/
def skipTwo (bound : Nat) : List Seg → Nat → Nat → List Seg × Nat × Nat
  | [], total, k => ([], total, k)
  | s :: r, total, k =>
    if sub32 total (s.dur % 2 ^ 16) > bound ∧ k < 2 then skipTwo bound r (sub32 total (s.dur % 2 ^ 16)) (k + 1) else (s :: r, total, k)

/-- output_hls.cpp 155-160: segments are left out to get down to `limit` of them, if enough is left. -/
def skipLimit (limit bound : Nat) : List Seg → Nat → Nat → List Seg × Nat × Nat
  | [], total, k => ([], total, k)
  | s :: r, total, k =>
    if r.length + 1 > limit ∧ sub32 total (s.dur % 2 ^ 16) > bound then skipLimit limit bound r (sub32 total (s.dur % 2 ^ 16)) (k + 1)
    else (s :: r, total, k)

/-- output_hls.cpp 138-163: what is left out of the playlist of a live stream. -/
def hide (limit target : Nat) (l : List Seg) : List Seg × Nat × Nat :=
  if l.length > 1 then
    let bound := target * 4000 % 2 ^ 32
    let a := skipTwo bound l.dropLast (sub32 (total32 l) ((l.getLast?.map Seg.dur).getD 0 % 2 ^ 16)) 0
    if limit = 0 then a else skipLimit limit bound a.1 a.2.1 a.2.2
  else (l, total32 l, 0)

/-- output_hls.cpp 87-172: `liveIndex`, timed by the track `t`. `limit` is the setting `listlimit`. -/
def playlist (live : Bool) (limit : Nat) (t : Track) : Playlist :=
  let target := (biggest t.frags (t.frags.fin - t.frags.del) t.frags.del 0 / 1000 + 1) % 2 ^ 32
  let all := lines t (t.frags.fin - t.frags.del) t.frags.del
  let r := if live then hide limit target all else (all, total32 all, 0)
  ⟨target, t.frags.del + r.2.2, r.1, !live || r.2.1 == 0⟩

/-- output_hls.cpp 343-414 and 456-480: the packets of the timing track that a request for a segment gets: from the first one that is not
before its start (`seek`) up to the first one at its end or later. (Requests for times that are not in memory any more are refused.) -/
def fetch (ps : List Index.Packet) (s : Seg) : List Index.Packet :=
  (ps.dropWhile fun p => decide (p.time < s.start)).takeWhile fun p => !decide (p.time ≥ s.start + s.dur)

end Verif.Hls
