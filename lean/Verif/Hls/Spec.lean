import Verif.Hls.Model

/-!
# What a media playlist should say

Where a stream is cut into segments follows from its packets alone: a segment starts at the first key at least `m` milliseconds after
the start of the segment before it.
-/
namespace Verif.Hls
open Verif.Index (Packet)

/-- The times of the keys of a stream, after a key at `t`: packets that are marked so, the first packet, and in tracks without video a
packet 2047 milliseconds after the key before. -/
def keyTimes (video : Bool) : Option Nat → List Packet → List Nat
  | _, [] => []
  | none, p :: r => p.time :: keyTimes video (some p.time) r
  | some t, p :: r =>
    if p.key = true ∨ (video = false ∧ t + 2047 ≤ p.time) then p.time :: keyTimes video (some p.time) r else keyTimes video (some t) r

/-- The times at which segments start, after a segment that started at `t`. -/
def starts (m : Nat) : Option Nat → List Nat → List Nat
  | _, [] => []
  | none, x :: r => x :: starts m (some x) r
  | some t, x :: r => if t + m ≤ x then x :: starts m (some x) r else starts m (some t) r

/-- The times at which the segments of a stream start. -/
def cuts (video : Bool) (m : Nat) (ps : List Packet) : List Nat := starts m none (keyTimes video none ps)

/-- The `i`-th segment of a stream that is cut at `S`: from its start to the start of the next one. -/
def whole (S : List Nat) (i : Nat) : Seg := ⟨S.getD i 0, S.getD (i + 1) 0 - S.getD i 0⟩

/-- What a playlist says of the segment with number `n`. -/
def Playlist.number (P : Playlist) (n : Nat) : Option Seg := if n < P.seq then none else P.segs[n - P.seq]?

/-- The length of a playlist in milliseconds. -/
def Playlist.length (P : Playlist) : Nat := (P.segs.map Seg.dur).sum

/-- A duration in milliseconds, rounded to the nearest second. -/
def rounded (ms : Nat) : Nat := (ms + 500) / 1000

/-- The packets from one time up to another. -/
def between (a b : Nat) (ps : List Packet) : List Packet := ps.filter fun p => decide (a ≤ p.time ∧ p.time < b)

/-- Every segment, and the one that is being received, lasts less than 65536 milliseconds. -/
def Brief (S : List Nat) (l : Nat) : Prop := ∀ i, i < S.length → (S ++ [l]).getD (i + 1) 0 - S.getD i 0 < 2 ^ 16

end Verif.Hls
