import Verif.Base.Bytes

/-!
# RFC 6455 framing, written from the standard
-/
namespace Verif.Websocket.Spec

structure Frame where
  fin : Bool
  /-- reserved bits -/
  rsv : Nat
  opcode : Nat
  /-- masking key, if the sender is a client -/
  key : Option Bytes
  payload : Bytes

structure Frame.valid (f : Frame) : Prop where
  rsv_lt : f.rsv < 8
  opcode_lt : f.opcode < 16
  key_len : ∀ k, f.key = some k → k.length = 4
  len_lt : f.payload.length < 2 ^ 63

/-- The masked flag with the 7-bit length, and the extended length. -/
def Frame.lengthField (f : Frame) : Bytes :=
  let m := if f.key.isSome then 128 else 0
  if f.payload.length < 126 then [UInt8.ofNat (m + f.payload.length)]
  else if f.payload.length < 65536 then UInt8.ofNat (m + 126) :: beEnc 2 f.payload.length
  else UInt8.ofNat (m + 127) :: beEnc 8 f.payload.length

/-- Octet `i` is XORed with octet `i mod 4` of the key (RFC 6455 5.3). -/
def applyKey (k p : Bytes) : Bytes := p.mapIdx fun i b => b ^^^ k.getD (i % 4) 0

/-- The bytes of a frame (RFC 6455 5.2). -/
def Frame.encode (f : Frame) : Bytes :=
  UInt8.ofNat ((if f.fin then 128 else 0) + 16 * f.rsv + f.opcode) :: f.lengthField ++
    match f.key with
    | none => f.payload
    | some k => k ++ applyKey k f.payload

end Verif.Websocket.Spec
