import Verif.SockBuf.Model

/-!
# Raw H.264 from a program

`src/input/input_h264.cpp`, on the model of `Socket::Buffer` (`Verif.SockBuf`).

Simplifications: what is read from a sequence parameter set (`sps.chars.fps`) and the test for key frames are functions from outside; the clock is an input.
Reads return at most 4096 bytes (socket.cpp 1725-1731), and the buffer stays below 5000 blocks. Process control is left out.
-/

namespace Verif.H264In
open Verif

/-- What comes from outside. -/
structure Env where
  /-- frames per 1000 seconds of a sequence parameter set, 0 if not known (input_h264.cpp 83-89) -/
  fpks : Bytes → Nat
  /-- `h264::isKeyframe` -/
  key : Bytes → Bool

/-- A packet (input_h264.cpp 105-106). -/
structure Pkt where
  /-- time -/
  time : Nat
  /-- key frame -/
  key : Bool
  /-- the unit, to be written behind its length -/
  nal : Bytes
deriving DecidableEq

/-- The state of the input. -/
structure St where
  /-- `myConn.Received()` -/
  buf : SockBuf.Buf
  /-- `spsInfo` -/
  sps : Bytes
  /-- `ppsInfo` -/
  pps : Bytes
  /-- `Init` of the track (both sets) and its rate, once known -/
  init : Option (Bytes × Bytes × Nat)
  /-- `frameCount` -/
  count : Nat
deriving DecidableEq

/-- "\000\000\001" (input_h264.cpp 36). -/
def code : Bytes := [0, 0, 1]

/-- At the start (input_h264.cpp 19, 36). -/
def boot : St := { buf := { blocks := [], splitter := code }, sps := [], pps := [], init := none, count := 0 }

/-- Zero bytes at the end are left out (input_h264.cpp 73). -/
def strip (b : Bytes) : Bytes := (b.reverse.dropWhile (· = 0)).reverse

/-- The type of a unit (input_h264.cpp 75). -/
def kind (n : Bytes) : Nat := (n.getD 0 0).toNat % 32

/-- A parameter set (input_h264.cpp 77-100). -/
def paramSet (e : Env) (s : St) (n : Bytes) : St :=
  let sps := if kind n = 7 then n else s.sps
  let pps := if kind n = 8 then n else s.pps
  { s with sps := sps, pps := pps, init := if s.init = none ∧ sps ≠ [] ∧ pps ≠ [] then some (sps, pps, e.fpks sps) else s.init }

/-- One unit with the start code behind it (input_h264.cpp 71-110). -/
def nalUnit (e : Env) (now : Nat) (s : St) (x : Bytes) : St × Option Pkt :=
  let n := strip (x.take (x.length - 3))
  if n = [] then (s, none)
  else if kind n = 7 ∨ kind n = 8 then (paramSet e s n, none)
  else match s.init with
    | none => (s, none)
    | some i =>
      ({ s with count := s.count + 1 }, some { time := if i.2.2 = 0 then now else s.count * (1000000 / i.2.2), key := e.key n, nal := n })

/-- One pass of the loop of `getNext` (input_h264.cpp 59-111) with what was read, nothing if empty, at a time. -/
def step (e : Env) (s : St) (ev : Bytes × Nat) : St × Option Pkt :=
  if ev.1 = [] then (s, none)
  else
    let b := s.buf.append ev.1
    if b.bytesToSplit = 0 then ({ s with buf := b }, none)
    else nalUnit e ev.2 { s with buf := (b.remove b.bytesToSplit).2 } (b.remove b.bytesToSplit).1

/-- Pass after pass. -/
def run (e : Env) : St → List (Bytes × Nat) → List Pkt
  | _, [] => []
  | s, ev :: t => (step e s ev).2.toList ++ run e (step e s ev).1 t

end Verif.H264In
