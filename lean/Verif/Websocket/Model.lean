import Verif.Bit.Model

/-!
# Model of `HTTP::Websocket` (`/repo/lib/websocket.cpp` 126-248)

The receive buffer is the byte queue that `Verif.SockBuf` proves `Socket::Buffer` to be; `avail` and
`rem` keep the truncation of byte counts to 32 bits (`Props` relates them to `Socket::Buffer`).
-/
namespace Verif.Websocket
open Verif.Bit

/-- `Socket::Buffer::available` (socket.cpp 746-754). -/
def avail (q : Bytes) (n : Nat) : Bool := decide (n % 2 ^ 32 ≤ q.length) && !q.isEmpty

/-- `Socket::Buffer::remove` (socket.cpp 782-818). -/
def rem (q : Bytes) (n : Nat) : Bytes × Bytes := if avail q n then (q.take n, q.drop n) else ([], q)

/-- The outcome of looking at the front of the receive buffer: not a whole frame; a frame (first
header byte, unmasked payload, what follows); or an access outside the received data. -/
inductive Front where
  | incomplete
  | frame (b0 : UInt8) (payload rest : Bytes)
  | oob
  deriving DecidableEq

/-- The unmasking loop (176): `i` is the index of the first byte of the list. -/
def xorLoop (mask : Bytes) : Nat → Bytes → Bytes
  | _, [] => []
  | i, b :: r => (b ^^^ mask.getD (i % 4) 0) :: xorLoop mask (i + 1) r

/-- Header size (140). -/
def headSize (b1 : UInt8) : Nat :=
  2 + (if b1 &&& 0x80 ≠ 0 then 4 else 0) + (if (b1 &&& 0x7F).toNat = 126 then 2 else 0) +
    (if (b1 &&& 0x7F).toNat = 127 then 8 else 0)

/-- Payload length (139, 152-156). -/
def payloadLen (b1 : UInt8) (afterTwo : Bytes) : Option Nat :=
  if (b1 &&& 0x7F).toNat = 126 then btoh .s afterTwo
  else if (b1 &&& 0x7F).toNat = 127 then btoh .ll afterTwo
  else some (b1 &&& 0x7F).toNat

/-- From the complete header on (158-177), `hs` header bytes and `n` announced payload bytes. A
masked payload shorter than announced is written past its end by the unmasking loop. -/
def takeFrame (q : Bytes) (b0 : UInt8) (masked : Bool) (hs n : Nat) : Front :=
  if !avail q (hs + n) then .incomplete
  else
    let p := rem (q.drop hs) n
    if masked then
      if p.1.length < n then .oob else .frame b0 (xorLoop ((q.take hs).drop (hs - 4)) 0 p.1) p.2
    else .frame b0 p.1 p.2

/-- `readFrame` 128-177: one frame from the front of the buffer. -/
def front (q : Bytes) : Front :=
  match q with
  | b0 :: b1 :: r =>
    if headSize b1 > 2 && !avail q (headSize b1) then .incomplete
    else
      match payloadLen b1 r with
      | none => .oob
      | some n => takeFrame q b0 (b1 &&& 0x80 ≠ 0) (headSize b1) n
  | _ => .incomplete

theorem front_shrinks {q : Bytes} {b0 : UInt8} {p r : Bytes} (h : front q = .frame b0 p r) : r.length < q.length := by
  have hrem : ∀ (l : Bytes) n, (rem l n).2.length ≤ l.length := by
    intro l n; unfold rem; split
    · simp
    · simp
  have hs : ∀ b1, 2 ≤ headSize b1 := by intro b1; unfold headSize; omega
  unfold front at h
  split at h
  next c0 c1 t =>
    split at h
    · cases h
    · split at h
      · cases h
      next n hn =>
        have hr := hrem ((c0 :: c1 :: t).drop (headSize c1)) n
        have := hs c1
        simp only [List.length_drop, List.length_cons] at hr ⊢
        unfold takeFrame at h
        split at h
        · cases h
        · simp only at h
          split at h
          · split at h
            · cases h
            · simp only [Front.frame.injEq] at h; obtain ⟨-, -, rfl⟩ := h; omega
          · simp only [Front.frame.injEq] at h; obtain ⟨-, -, rfl⟩ := h; omega
  · cases h

/-- Receiver state (websocket.h 20-21). -/
structure Ws where
  data : Bytes
  frameType : UInt8
  deriving DecidableEq

/-- Constructor (74-78). -/
def Ws.init : Ws := ⟨[], 0⟩

/-- What `readFrame` did when it returned. Only `message` returns true. -/
inductive Event where
  | message
  | ignored
  | closed
  | pinged (pong : Bytes)
  | ponged
  deriving DecidableEq

/-- 166-173, 177: how a frame changes the state. -/
def Ws.absorb (st : Ws) (b0 : UInt8) (payload : Bytes) : Ws :=
  if b0 &&& 0x0F ≠ 0 then ⟨payload, b0 &&& 0x0F⟩ else { st with data := st.data ++ payload }

/-- `sendFrameHead` (206-231): the header bytes; `len` and `frameType` are `unsigned int`. -/
def frameHead (maskOut : Bool) (len frameType : Nat) : Bytes :=
  let b0 := UInt8.ofNat (0x80 + frameType)
  let m : UInt8 := if maskOut then 128 else 0
  (if len < 126 then [b0, UInt8.ofNat len ||| m]
   else if len ≤ 0xFFFF then [b0, 126 ||| m] ++ htob .s len
   else [b0, 127 ||| m] ++ htob .ll len) ++ (if maskOut then [0, 0, 0, 0] else [])

/-- `sendFrame` (238-241): everything written to the connection. -/
def sendFrame (maskOut : Bool) (data : Bytes) (frameType : Nat) : Bytes :=
  frameHead maskOut data.length frameType ++ data

/-- The action on a final frame (178-201). -/
def Ws.finish (maskOut : Bool) (st : Ws) : Event :=
  if st.frameType = 0 then .ignored
  else if st.frameType = 8 then .closed
  else if st.frameType = 9 then .pinged (sendFrame maskOut st.data 0xA)
  else if st.frameType = 0xA then .ponged
  else .message

/-- What a call of `readFrame` leaves behind. -/
inductive Res where
  | wait (st : Ws) (q : Bytes)
  | done (e : Event) (st : Ws) (q : Bytes)
  | oob
  deriving DecidableEq

/-- `readFrame` (126-204) when `spool` brings no further data. -/
def readFrame (maskOut : Bool) (st : Ws) (q : Bytes) : Res :=
  match _h : front q with
  | .incomplete => .wait st q
  | .oob => .oob
  | .frame b0 p r =>
    if b0 &&& 0x80 ≠ 0 then .done ((st.absorb b0 p).finish maskOut) (st.absorb b0 p) r
    else readFrame maskOut (st.absorb b0 p) r
  termination_by q.length
  decreasing_by exact front_shrinks _h

/-- `readFrame(true)`: when it would wait, one `spool` may append `more` to the buffer (129-132). -/
def readFrameSpool (maskOut : Bool) (st : Ws) (q more : Bytes) : Res :=
  match readFrame maskOut st q with
  | .wait st' q' => readFrame maskOut st' (q' ++ more)
  | r => r

/-- A caller that keeps calling `readFrame` until it needs more data or the connection is closed:
the events with the `frameType` and `data` it sees after each call. -/
def readAll (maskOut : Bool) (st : Ws) (q : Bytes) : Option (List (Event × Ws)) :=
  match _h : readFrame maskOut st q with
  | .wait _ _ => some []
  | .oob => none
  | .done e st' r =>
    if _hl : r.length < q.length then
      if e = .closed then some [(e, st')] else (readAll maskOut st' r).map ((e, st') :: ·)
    else none
  termination_by q.length

end Verif.Websocket
