import Verif.SockBuf.Model

/-!
# Lines over TCP

`OutJSONLine::requestHandler`, `src/output/output_jsonline.cpp`, on the model of `Socket::Buffer` (`Verif.SockBuf`) with its usual splitter, a line feed.

Simplifications: a packet is its data and time; the clock (`Util::bootMS() - offset`) is an input.
-/

namespace Verif.JsonLine
open Verif

/-- What is kept between calls. -/
structure St where
  /-- `myConn.Received()` -/
  buf : SockBuf.Buf
  /-- `dPtr` -/
  acc : Bytes
deriving DecidableEq

/-- At the start (output_jsonline.cpp 9-47, socket.cpp 646-648). -/
def boot : St := { buf := SockBuf.Buf.init, acc := [] }

/-- The loop over the blocks of the buffer (output_jsonline.cpp 112-122): packets, and `dPtr` afterwards. `size` drops the blocks that are empty. -/
def drain (now : Nat) : Bytes → List Bytes → List (Bytes × Nat) × Bytes
  | acc, [] => ([], acc)
  | acc, b :: r =>
    if b = [] then drain now acc r
    else if (acc ++ b).getLast? = some 10 then ((acc ++ b, now) :: (drain now [] r).1, (drain now [] r).2)
    else drain now (acc ++ b) r

/-- `requestHandler` (output_jsonline.cpp 110-126) with what `spool` read, nothing if empty, at a time. The loop ends when no blocks are left. -/
def handle (s : St) (ev : Bytes × Nat) : St × List (Bytes × Nat) :=
  if ev.1 = [] then (s, [])
  else
    ({ buf := { s.buf with blocks := [] }, acc := (drain ev.2 s.acc (s.buf.append ev.1).blocks).2 }, (drain ev.2 s.acc (s.buf.append ev.1).blocks).1)

/-- Call after call: the state, and the packets of each call. -/
def run : St → List (Bytes × Nat) → St × List (List (Bytes × Nat))
  | s, [] => (s, [])
  | s, ev :: t => ((run (handle s ev).1 t).1, (handle s ev).2 :: (run (handle s ev).1 t).2)

end Verif.JsonLine
