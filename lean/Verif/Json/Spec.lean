import Verif.Base.Bytes

/-!
# JSON strings, by the standards

UTF-8 is `String.utf8EncodeChar` of Lean's core library, UTF-16 is spelled out below (RFC 2781 section 2.1), and `scan` is a
strict reader of JSON strings by RFC 8259 section 7, for strings written in printable ASCII only.
-/
namespace Verif.Json.Spec

/-- The UTF-8 text of a list of characters. -/
def text (cs : List Char) : Bytes := cs.flatMap String.utf8EncodeChar

/-- The UTF-16 units of a character. -/
def utf16 (c : Char) : List Nat :=
  if c.toNat < 0x10000 then [c.toNat]
  else [0xD800 + (c.toNat - 0x10000) / 1024, 0xDC00 + (c.toNat - 0x10000) % 1024]

/-- The value of a hexadecimal digit. -/
def hexDigit (b : UInt8) : Option Nat :=
  if 48 ≤ b.toNat ∧ b.toNat ≤ 57 then some (b.toNat - 48)
  else if 65 ≤ b.toNat ∧ b.toNat ≤ 70 then some (b.toNat - 55)
  else if 97 ≤ b.toNat ∧ b.toNat ≤ 102 then some (b.toNat - 87)
  else none

/-- The two-character escapes: `\"` `\\` `\/` `\b` `\f` `\n` `\r` `\t`. -/
def simple (b : UInt8) : Option Nat :=
  if b = 34 then some 34 else if b = 92 then some 92 else if b = 47 then some 47 else if b = 98 then some 8
  else if b = 102 then some 12 else if b = 110 then some 10 else if b = 114 then some 13 else if b = 116 then some 9
  else none

/-- Reads a string of which the opening quote has been read already: its UTF-16 units and what follows the closing quote.
Control characters, bytes outside ASCII and unknown or incomplete escapes are refused. -/
def scan : Bytes → Option (List Nat × Bytes)
  | [] => none
  | c :: r =>
    if c = 34 then some ([], r)
    else if c = 92 then
      match r with
      | [] => none
      | e :: r' =>
        if e = 117 then
          match r' with
          | d1 :: d2 :: d3 :: d4 :: r'' =>
            match hexDigit d1, hexDigit d2, hexDigit d3, hexDigit d4 with
            | some a, some b, some c, some d => (scan r'').map fun t => ((a * 4096 + b * 256 + c * 16 + d) :: t.1, t.2)
            | _, _, _, _ => none
          | _ => none
        else match simple e with
          | some u => (scan r').map fun t => (u :: t.1, t.2)
          | none => none
    else if 32 ≤ c.toNat ∧ c.toNat ≤ 126 then (scan r).map fun t => (c.toNat :: t.1, t.2)
    else none

end Verif.Json.Spec
