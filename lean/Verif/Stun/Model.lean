import Verif.Bit.Model
import Verif.Base.Strings
import Verif.Crc.Model
import Verif.Addr.Model

/-!
# Model of STUN messages (`/repo/lib/stun.cpp`) and of the answers of WebRTC outputs (`/repo/src/output/output_webrtc.cpp` 2006-2072)

A packet is its bytes. Reading or writing outside of them gives `none`. Memory is never short (the `allocate` checks succeed). HMAC-SHA1 is done
by mbedtls; it is a parameter `mac`, and gives 20 bytes.
-/
namespace Verif.Stun
open Verif.Bit Verif.Addr

/-- util.cpp 548-558 after 580-594: `data.allocate(size + n); data.append(0, n)` makes room for `n` bytes and does not write them. What is in
them is told by `junk`. -/
def grow (junk : Nat → UInt8) (d : Bytes) (n : Nat) : Bytes := d ++ (List.range n).map fun i => junk (d.length + i)

/-- stun.cpp 10-15: `Packet(type)`, with `setType` (24-27). -/
def create (junk : Nat → UInt8) (type : Nat) : Option Bytes :=
  (store .l (grow junk [] 20) 4 0x2112a442).bind fun d => if d.length < 2 then some d else store .s d 0 type

/-- stun.cpp 29-32: `genTID`, for the random bytes `tid`. -/
def genTID (d tid : Bytes) : Option Bytes := if d.length < 20 then some d else poke d 8 tid

/-- stun.cpp 34-38: `copyTID`. -/
def copyTID (d p : Bytes) : Option Bytes :=
  if d.length < 20 then some d else if p.length < 20 then some d else poke d 8 ((p.drop 8).take 12)

/-- socket.cpp 127-134: `is4in6`. -/
def is4in6 (a : Sock) : Bool := a.six && decide (a.ip.take 12 = mapped)

/-- stun.cpp 93, 98, 105, 108: `fam == AF_INET || four`. -/
def short (a : Sock) : Bool := !a.six || is4in6 a

/-- stun.cpp 116: `p`, of which 4 or 16 bytes are read. -/
def ipBytes (a : Sock) : Bytes := (a.ip.drop (if is4in6 a then 12 else 0)).take (if short a then 4 else 16)

/-- stun.cpp 83-120: `addXorMappedAddress`, for IPv4 and IPv6 addresses. `port` is the number of the port. The bytes read in the loop (118)
are before those written. -/
def addXorMappedAddress (junk : Nat → UInt8) (d : Bytes) (a : Sock) : Option Bytes :=
  let offset := d.length
  let d := grow junk d (if short a then 12 else 24)
  (store .s d 2 (d.length - 20)).bind fun d =>
  (store .s d offset 0x0020).bind fun d =>
  (store .s d (offset + 2) (if short a then 8 else 20)).bind fun d =>
  (poke d (offset + 4) [0]).bind fun d =>
  (poke d (offset + 5) [if short a then 1 else 2]).bind fun d =>
  (poke d (offset + 6) [UInt8.ofNat (a.port >>> 8) ^^^ d.getD 4 0]).bind fun d =>
  (poke d (offset + 7) [UInt8.ofNat (a.port &&& 0xFF) ^^^ d.getD 5 0]).bind fun d =>
  poke d (offset + 8) ((ipBytes a).zipWith (· ^^^ ·) (d.drop 4))

/-- stun.cpp 122-158: `addIntegrity`. -/
def addIntegrity (mac : Bytes → Bytes → Bytes) (junk : Nat → UInt8) (d pwd : Bytes) : Option Bytes :=
  let offset := d.length
  let d := grow junk d 24
  (store .s d 2 (d.length - 20)).bind fun d =>
  (store .s d offset 0x0008).bind fun d =>
  (store .s d (offset + 2) 20).bind fun d =>
  poke d (offset + 4) (mac pwd (d.take offset))

/-- stun.cpp 178: the fingerprint of some bytes. -/
def print (d : Bytes) : BitVec 32 := (Crc.crc32LE (0 ^^^ 0xFFFFFFFF) d ^^^ 0xFFFFFFFF) ^^^ 0x5354554e

/-- stun.cpp 160-181: `addFingerprint`. -/
def addFingerprint (junk : Nat → UInt8) (d : Bytes) : Option Bytes :=
  let offset := d.length
  let d := grow junk d 8
  (store .s d 2 (d.length - 20)).bind fun d =>
  (store .s d offset 0x8028).bind fun d =>
  (store .s d (offset + 2) 4).bind fun d =>
  store .l d (offset + 4) (print (d.take offset)).toNat

/-- stun.cpp 183-200: `addUseCandidate`. -/
def addUseCandidate (junk : Nat → UInt8) (d : Bytes) : Option Bytes :=
  let offset := d.length
  let d := grow junk d 4
  (store .s d 2 (d.length - 20)).bind fun d =>
  (store .s d offset 0x0025).bind fun d =>
  store .s d (offset + 2) 0

/-- stun.cpp 202-224: `addUsername`. -/
def addUsername (junk : Nat → UInt8) (d usr : Bytes) : Option Bytes :=
  let offset := d.length
  let padding := (4 - (usr.length % 4)) % 4
  let d := grow junk d (4 + usr.length + padding)
  (store .s d 2 (d.length - 20)).bind fun d =>
  (store .s d offset 0x0006).bind fun d =>
  (store .s d (offset + 2) usr.length).bind fun d =>
  (poke d (offset + 4) usr).bind fun d =>
  poke d (offset + 4 + usr.length) (List.replicate padding 0)

/-- One of the calls by which packets are built. -/
inductive Op where
  | username (usr : Bytes)
  | useCandidate
  | xorMapped (a : Sock)
  | integrity (pwd : Bytes)
  | fingerprint

def Op.run (mac : Bytes → Bytes → Bytes) (junk : Nat → UInt8) (d : Bytes) : Op → Option Bytes
  | .username u => addUsername junk d u
  | .useCandidate => addUseCandidate junk d
  | .xorMapped a => addXorMappedAddress junk d a
  | .integrity p => addIntegrity mac junk d p
  | .fingerprint => addFingerprint junk d

/-- A sequence of calls. -/
def runAll (mac : Bytes → Bytes → Bytes) (junk : Nat → UInt8) : Bytes → List Op → Option Bytes
  | d, [] => some d
  | d, o :: r => (o.run mac junk d).bind fun d => runAll mac junk d r

/-- stun.cpp 55, 76: `while ((offset & 0x03) != 0) { ++offset; }`. -/
def align (offset : Nat) : Nat := offset + (4 - offset % 4) % 4

/-- stun.cpp 40-59 and 61-80: the loop of `getAttributeByType` and `hasAttribute`: the outer `none` is a read outside of the packet, the inner
one the end of the search. The first argument bounds the number of steps. -/
def find (d : Bytes) (type : Nat) : Nat → Nat → Option (Option Bytes)
  | 0, _ => some none
  | k + 1, offset =>
    if offset + 4 < d.length then
      (load .s d offset).bind fun t => (load .s d (offset + 2)).bind fun l =>
      if offset + 4 + l > d.length then some none
      else if t = type then some (some ((d.drop (offset + 4)).take l))
      else find d type k (align (offset + 4 + l))
    else some none

/-- stun.cpp 40-59: `getAttributeByType`. -/
def getAttributeByType (d : Bytes) (type : Nat) : Option Bytes := (find d type d.length 20).map (·.getD [])

/-- stun.cpp 61-80: `hasAttribute`. -/
def hasAttribute (d : Bytes) (type : Nat) : Option Bool := (find d type d.length 20).map (·.isSome)

/-- stun.cpp 348-352: `operator bool`. -/
def valid (d : Bytes) : Option Bool :=
  if d.length < 20 then some false else (load .l d 4).map fun c => decide (c = 0x2112a442)

/-- stun.cpp 19-22: `getType`. -/
def getType (d : Bytes) : Option Nat := if d.length < 2 then some 0 else load .s d 0

/-- The members of a WebRTC track that are used. -/
structure Track where
  ufrag : Bytes
  pwd : Bytes

/-- output_webrtc.cpp 2041-2047: the password for a name. -/
def password : List Track → Bytes → Bytes
  | [], _ => []
  | t :: r, u => if t.ufrag = u then t.pwd else password r u

/-- What is known about the connection: whether this side is in control, the socket in use, and the sockets that the peer asked to use. -/
structure State where
  controlling : Bool
  current : Option Nat
  nominated : List Nat

/-- output_webrtc.cpp 2052-2065: the answer to a request that is accepted. -/
def answer (mac : Bytes → Bytes → Bytes) (junk : Nat → UInt8) (d : Bytes) (remote : Sock) (pwd : Bytes) (candidate : Bool) : Option Bytes :=
  (create junk 0x0101).bind fun r => (copyTID r d).bind fun r =>
  runAll mac junk r ([.xorMapped remote] ++ (if candidate then [.useCandidate] else []) ++ [.integrity pwd, .fingerprint])

/-- output_webrtc.cpp 2048-2067: what is done with a request for which there is a password. -/
def accept (mac : Bytes → Bytes → Bytes) (junk : Nat → UInt8) (s : State) (sock : Nat) (remote : Sock) (d pwd : Bytes) :
    Option (State × Option Bytes) :=
  (hasAttribute d 0x0025).bind fun use =>
  let current := if s.controlling ∧ s.current = none then some sock else s.current
  (answer mac junk d remote pwd (s.controlling && decide (current = some sock))).map fun r =>
    (⟨s.controlling, current, if use then sock :: s.nominated else s.nominated⟩, some r)

/-- output_webrtc.cpp 2006-2072: `handleReceivedSTUNPacket`: the new state and the answer that is sent to the sender, if any. -/
def handle (mac : Bytes → Bytes → Bytes) (junk : Nat → UInt8) (tracks : List Track) (s : State) (sock : Nat) (remote : Sock) (d : Bytes) :
    Option (State × Option Bytes) :=
  (valid d).bind fun v =>
  if v = false then some (s, none)
  else (getType d).bind fun t =>
  if t = 0x0101 then some (s, none)
  else if t ≠ 0x0001 then some (s, none)
  else (getAttributeByType d 0x0006).bind fun name =>
  if name = [] then some (s, none)
  else match findChar 58 name with
    | none => some (s, none)
    | some colon =>
      let pwd := password tracks (name.take colon)
      if pwd = [] then some (s, none) else accept mac junk s sock remote d pwd

end Verif.Stun
