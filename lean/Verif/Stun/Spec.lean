import Verif.Base.Bytes
import Verif.Crc.Spec

/-!
# STUN messages (RFC 5389)

Written without the model. A message is a header of 20 bytes (type, length of what follows, cookie, transaction) and attributes (type, length,
value, padding to a multiple of four bytes).
-/
namespace Verif.Stun.Spec

/-- The magic cookie. -/
def cookie : Bytes := [0x21, 0x12, 0xA4, 0x42]

/-- The header (section 6). -/
def header (type length : Nat) (tid : Bytes) : Bytes := beEnc 2 type ++ beEnc 2 length ++ cookie ++ tid

/-- An attribute (section 15). The bytes of the padding may have any value. -/
structure Attr where
  type : Nat
  value : Bytes
  padding : Bytes

/-- The padding that attributes are sent with: the least number of zeros that lets them end at a multiple of four bytes. -/
def attr (type : Nat) (value : Bytes) : Attr := ⟨type, value, List.replicate ((4 - value.length % 4) % 4) 0⟩

def Attr.bytes (a : Attr) : Bytes := beEnc 2 a.type ++ beEnc 2 a.value.length ++ a.value ++ a.padding

/-- Attributes that can be part of a message. -/
def Attr.Valid (a : Attr) : Prop := a.type < 65536 ∧ a.value.length < 65536 ∧ a.padding.length = (4 - a.value.length % 4) % 4

/-- Attributes one after another. -/
def body (l : List Attr) : Bytes := l.flatMap Attr.bytes

/-- The value of the first attribute of a type. Later ones are to be ignored (section 15). -/
def first (type : Nat) (l : List Attr) : Option Bytes := (l.find? fun a => a.type = type).map (·.value)

/-- The exclusive or of two byte strings. -/
def xor (a b : Bytes) : Bytes := a.zipWith (· ^^^ ·) b

/-- Section 15.2: an address with its port, hidden from meddlers. Four bytes for IPv4, sixteen for IPv6. -/
def mappedValue (tid : Bytes) (port : Nat) (ip : Bytes) : Bytes :=
  [0, if ip.length = 4 then 1 else 2] ++ xor (beEnc 2 port) cookie ++ xor ip (cookie ++ tid)

/-- What is to be added to a message. -/
inductive Item where
  | plain (type : Nat) (value : Bytes)
  | mapped (port : Nat) (ip : Bytes)
  | integrity (pwd : Bytes)
  | fingerprint

/-- One more attribute. Section 15.4: the value of MESSAGE-INTEGRITY is the MAC of the message before it, with the length as if the attribute
were the last. Section 15.5: the same for FINGERPRINT, with the CRC-32, changed by the text `STUN`. -/
def next (mac : Bytes → Bytes → Bytes) (crc : Bytes → Nat) (type : Nat) (tid : Bytes) (l : List Attr) : Item → Attr
  | .plain t v => attr t v
  | .mapped port ip => attr 0x0020 (mappedValue tid port ip)
  | .integrity pwd => attr 0x0008 (mac pwd (header type ((body l).length + 24) tid ++ body l))
  | .fingerprint => attr 0x8028 (xor (beEnc 4 (crc (header type ((body l).length + 8) tid ++ body l))) [0x53, 0x54, 0x55, 0x4E])

/-- The attributes of a message with these items. -/
def attrs (mac : Bytes → Bytes → Bytes) (crc : Bytes → Nat) (type : Nat) (tid : Bytes) (l : List Attr) : List Item → List Attr
  | [] => l
  | i :: r => attrs mac crc type tid (l ++ [next mac crc type tid l i]) r

/-- The message. -/
def message (mac : Bytes → Bytes → Bytes) (crc : Bytes → Nat) (type : Nat) (tid : Bytes) (items : List Item) : Bytes :=
  header type (body (attrs mac crc type tid [] items)).length tid ++ body (attrs mac crc type tid [] items)

/-- `crc` is the CRC-32 of ITU V.42, as it is used in HDLC: bits of bytes in the order of sending, started with ones, complemented. -/
def IsCrc32 (crc : Bytes → Nat) : Prop :=
  ∀ m, crc m < 2 ^ 32 ∧ Crc.Spec.IsCrc Crc.Spec.gen32 (List.replicate 32 true) (Crc.Spec.bitsLsbFirst m)
    ((toBits 32 (crc m)).reverse.map (!·))

end Verif.Stun.Spec
