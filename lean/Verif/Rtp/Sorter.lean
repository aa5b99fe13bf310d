import Verif.Base.Arith

/-!
# Model of the RTP packet sorter (lib/rtp.cpp 835-929, lib/rtp.h 114-138)

The sorter looks at nothing but the sequence number of a packet, so the packet type is a parameter.
`packTotal`, `lostTotal` and friends (statistics), log messages, and the synchronisation with sender reports are not
modelled. The two tunables `PACKET_REORDER_WAIT` and `PACKET_DROP_TIMEOUT` (rtp.cpp 17-18) are parameters; values of
2^31 and more, which the cast to `int` in rtp.cpp 874 and 886 would turn around, are not modelled.
-/
namespace Verif.Rtp

/-- `(int16_t)(a - b)` for two `uint16_t` (rtp.cpp 874, 883, 886, 908, 913, 929). -/
def d16 (a b : Nat) : Int :=
  if (a + (65536 - b % 65536)) % 65536 < 32768 then (((a + (65536 - b % 65536)) % 65536 : Nat) : Int)
  else (((a + (65536 - b % 65536)) % 65536 : Nat) : Int) - 65536

/-- `RTP::Sorter` (rtp.h 114-138). `buf` is the `std::map<uint16_t, Packet>`: a list ascending in sequence numbers. -/
structure Sorter (P : Type) where
  seq : Nat
  wseq : Nat
  first : Bool
  pre : Bool
  buf : List P
  deriving DecidableEq

/-- The constructor (rtp.cpp 835-848). -/
def Sorter.init {P : Type} : Sorter P := ⟨0, 0, true, true, []⟩

section
variable {P : Type} (seqOf : P → Nat)

/-- `packBuffer.count(k)` (rtp.cpp 888, 895). -/
def bufHas (buf : List P) (k : Nat) : Bool := buf.any fun q => seqOf q == k

/-- `packBuffer[pack.getSequence()] = pack` (rtp.cpp 910). -/
def bufPut (p : P) : List P → List P
  | [] => [p]
  | q :: r => if seqOf p < seqOf q then p :: q :: r else if seqOf p = seqOf q then p :: r else q :: bufPut p r

/-- The loop giving up on packets (rtp.cpp 874-881). `fuel`: the distance to the packet, an upper bound for the
number of rounds. -/
def giveUp (drop p : Nat) : Nat → Nat → Nat
  | 0, s => s
  | fuel + 1, s => if d16 s p < -(drop : Int) then giveUp drop p fuel ((s + 1) % 65536) else s

/-- The loop asking for packets (rtp.cpp 886-892): the sequence numbers put in `wantedSeqs` and the new
`rtpWSeq`. -/
def wantLoop (wait p : Nat) (buf : List P) : Nat → Nat → List Nat × Nat
  | 0, w => ([], w)
  | fuel + 1, w =>
    if d16 w p < -(wait : Int) then
      ((if bufHas seqOf buf w then [] else [w]) ++ (wantLoop wait p buf fuel ((w + 1) % 65536)).1,
        (wantLoop wait p buf fuel ((w + 1) % 65536)).2)
    else ([], w)

/-- The loop sending buffered packets (rtp.cpp 895-901): the packets sent, `rtpSeq` and the buffer after it. -/
def drain : Nat → Nat → List P → List P × Nat × List P
  | 0, s, buf => ([], s, buf)
  | fuel + 1, s, buf =>
    match buf.find? fun q => seqOf q == s with
    | none => ([], s, buf)
    | some q =>
      (q :: (drain fuel ((s + 1) % 65536) (buf.filter fun q => seqOf q != s)).1,
        (drain fuel ((s + 1) % 65536) (buf.filter fun q => seqOf q != s)).2)

/-- rtp.cpp 858-863: the very first packet. -/
def sorterFirst (s : Sorter P) (p : Nat) : Sorter P :=
  if s.first then { s with wseq := p, seq := (p + 65536 - 5) % 65536, first := false } else s

/-- rtp.cpp 865-882: leaving the initial buffering, or giving up. -/
def sorterSkip (drop : Nat) (s : Sorter P) (p : Nat) : Sorter P :=
  if s.pre then
    if s.buf.length ≥ 5 then
      match s.buf with
      | [] => s
      | q :: _ => { s with pre := false, seq := seqOf q, wseq := seqOf q }
    else s
  else { s with seq := giveUp drop p ((p + 65536 - s.seq) % 65536) s.seq }

/-- rtp.cpp 883 and 929. -/
def sorterWanted (s : Sorter P) : Sorter P :=
  if d16 s.wseq s.seq < 0 then { s with wseq := s.seq } else s

/-- rtp.cpp 906-927: what happens to the packet itself. -/
def sorterPlace (s : Sorter P) (p : P) : Sorter P × List P :=
  if seqOf p = s.seq then ({ s with seq := (s.seq + 1) % 65536 }, [p])
  else if d16 s.seq (seqOf p) < 0 then ({ s with buf := bufPut seqOf p s.buf }, [])
  else (s, [])

/-- `Sorter::addPacket` (rtp.cpp 857-930). Gives the new state, the packets handed to the callback and the
sequence numbers added to `wantedSeqs`. -/
def addPacket (drop wait : Nat) (s : Sorter P) (p : P) : Sorter P × List P × List Nat :=
  let s1 := sorterWanted (sorterSkip seqOf drop (sorterFirst s (seqOf p)) (seqOf p))
  let w := wantLoop seqOf wait (seqOf p) s1.buf ((seqOf p + 65536 - s1.wseq) % 65536) s1.wseq
  let d := drain seqOf s1.buf.length s1.seq s1.buf
  let r := sorterPlace seqOf { s1 with wseq := w.2, seq := d.2.1, buf := d.2.2 } p
  (sorterWanted r.1, d.1 ++ r.2, w.1)

/-- A sequence of arrivals. Gives the state, the packets delivered and the sequence numbers asked for. -/
def sorterRun (drop wait : Nat) (s : Sorter P) : List P → Sorter P × List P × List Nat
  | [] => (s, [], [])
  | p :: r =>
    let a := addPacket seqOf drop wait s p
    let b := sorterRun drop wait a.1 r
    (b.1, a.2.1 ++ b.2.1, a.2.2 ++ b.2.2)

end
end Verif.Rtp
