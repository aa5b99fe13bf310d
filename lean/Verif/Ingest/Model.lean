import Verif.Base.Bytes

/-!
# The times of media that is received over RTMP

`OutRTMP::parseChunk` (src/output/output_rtmp.cpp 2419-2527): the times of messages are moved to the times of the stream, and rollovers and jumps
are compensated.
-/
namespace Verif.Ingest

/-- `uint64_t`. -/
def W : Nat := 2 ^ 64

/-- The state: `rtmpOffset` (modulo 2^64), `trackOffset` (0 if there is none, modulo 2^64) and `lastTagTime`. -/
structure St where
  base : Nat
  off : Nat → Nat
  ltt : Nat → Option Nat

/-- output_rtmp.cpp 2434: the key under which a track is known. -/
def reTrack (csId trackId : Nat) : Nat := csId * 1000 + trackId

/-- output_rtmp.cpp 2440-2449: the offset of the first message; `boot` is the time since boot, `bootOffset` the one of the stream (0: none).
The shift of the stream's offset for times in the future (2450-2457) does not touch the times of frames and is left out. -/
def firstBase (timeOffset boot tag bootOffset : Nat) : Nat :=
  if bootOffset = 0 then timeOffset % W else (boot + W - tag + W - bootOffset + timeOffset) % W

/-- output_rtmp.cpp 2465-2471 and 2483-2489: the windows around the rollovers of 24 and 32 bits. -/
def roll (diff : Nat) : Option Nat :=
  if diff > 0xfff000 ∧ diff < 0x1000fff then some 0x1000000
  else if diff > 0xfffff000 ∧ diff < 0x100000fff then some 0x100000000
  else none

/-- output_rtmp.cpp 2460-2497: the offset and the time, for the last time `l` of the track. -/
def adjust (off l x : Nat) : Nat × Nat :=
  if x < l then
    let d := (roll (l - x)).getD (l - x + 1)
    ((off + d) % W, (x + d) % W)
  else if x > (l + 600000) % W then
    let d := (roll (x - l)).getD (x - l - 1)
    if l ≠ 0 then ((off + W - d) % W, (x + W - d) % W) else (off, x)
  else (off, x)

/-- output_rtmp.cpp 2459-2521: a message with the time `t` on the track `k`: the state and the time with which it goes into the buffer. -/
def step (s : St) (k t : Nat) : St × Nat :=
  let x := (t + s.base + s.off k) % W
  let r := adjust (s.off k) ((s.ltt k).getD 0) x
  (⟨s.base, fun j => if j = k then r.1 else s.off j,
    fun j => if j = k then some r.2
      else (s.ltt j).map fun m => if r.2 ≠ 0 ∧ (m + 100) % W < r.2 then r.2 - 100 else m⟩, r.2)

/-- Messages one after the other: the state and what went into the buffer (track and time). -/
def run (s : St) : List (Nat × Nat) → St × List (Nat × Nat)
  | [] => (s, [])
  | (k, t) :: l => ((run (step s k t).1 l).1, (k, (step s k t).2) :: (run (step s k t).1 l).2)

/-- At the start. -/
def start (base : Nat) : St := ⟨base % W, fun _ => 0, fun _ => none⟩

end Verif.Ingest
