import Verif.Base.Bytes

/-!
# Model of `/repo/lib/encode.cpp`, `/repo/lib/encode.h`

Lengths are mathematical numbers here; the C++ keeps them in `unsigned int`
(encoders) and `int` (`Base64::decode`), so the model speaks about strings whose
encoded form is shorter than 2^31 bytes.
-/
namespace Verif.Enc

/-- encode.cpp 7-8: the two alphabets. -/
def b64Chars (url : Bool) : List UInt8 :=
  [65,66,67,68,69,70,71,72,73,74,75,76,77,78,79,80,81,82,83,84,85,86,87,88,89,90,
   97,98,99,100,101,102,103,104,105,106,107,108,109,110,111,112,113,114,115,116,117,118,119,120,
   121,122,48,49,50,51,52,53,54,55,56,57] ++ (if url then [45, 95] else [43, 47])

/-- `chars[v]` of encode.cpp 19-22 (every index used there is a 6-bit value; index 64
is the terminating NUL). -/
def b64Chr (url : Bool) (v : UInt8) : UInt8 := (b64Chars url).getD v.toNat 0

/-- encode.cpp 19-24: the four output characters for one triple of which `n` bytes are real. -/
def b64Quad (url : Bool) (t0 t1 t2 : UInt8) (n : Nat) : Bytes :=
  [ b64Chr url ((t0 &&& 0xFC) >>> 2),
    b64Chr url (((t0 &&& 0x03) <<< 4) ||| ((t1 &&& 0xF0) >>> 4)),
    if n < 2 then 61 else b64Chr url (((t1 &&& 0x0F) <<< 2) ||| ((t2 &&& 0xC0) >>> 6)),
    if n < 3 then 61 else b64Chr url (t2 &&& 0x3F) ]

/-- encode.cpp 14-26: the loop over triples (`x` advances by 3; `n` is 3 until fewer than
three bytes remain; missing bytes of the triple are zero). -/
def b64Loop (url : Bool) : Bytes → Bytes
  | [] => []
  | [a] => b64Quad url a 0 0 1
  | [a, b] => b64Quad url a b 0 2
  | a :: b :: c :: r => b64Quad url a b c 3 ++ b64Loop url r

/-- encode.cpp 27: `ret.erase(ret.find_last_not_of('=') + 1)`. -/
def stripPad (s : Bytes) : Bytes := (s.reverse.dropWhile (· == 61)).reverse

/-- `Encodings::Base64::encode` (encode.cpp 6-29). -/
def b64Encode (input : Bytes) (url : Bool) : Bytes :=
  if url then stripPad (b64Loop url input) else b64Loop url input

/-- `b64CharVal` (encode.cpp 31-38). -/
def b64CharVal (c : UInt8) : UInt8 :=
  if 65 ≤ c ∧ c ≤ 90 then c - 65
  else if 97 ≤ c ∧ c ≤ 122 then c - 97 + 26
  else if 48 ≤ c ∧ c ≤ 57 then c - 48 + 52
  else if c = 43 ∨ c = 45 then 62
  else if c = 47 ∨ c = 95 then 63
  else 64

/-- encode.cpp 54-57 and 63-66: combine four 6-bit values into three bytes
(stored in `unsigned char`, so modulo 256). -/
def b64Three (v0 v1 v2 v3 : UInt8) : Bytes :=
  [ (v0 <<< 2) + ((v1 &&& 0x30) >>> 4),
    ((v1 &&& 0xf) <<< 4) + ((v2 &&& 0x3c) >>> 2),
    ((v2 &&& 0x3) <<< 6) + v3 ]

/-- encode.cpp 60-68: flush of an incomplete group `p` (`i = p.length`, 1..3); the missing
characters are NUL, whose value is 64. -/
def b64Flush (p : List UInt8) : Bytes :=
  match p with
  | [] => []
  | [a] => (b64Three (b64CharVal a) (b64CharVal 0) (b64CharVal 0) (b64CharVal 0)).take 0
  | [a, b] => (b64Three (b64CharVal a) (b64CharVal b) (b64CharVal 0) (b64CharVal 0)).take 1
  | a :: b :: c :: _ => (b64Three (b64CharVal a) (b64CharVal b) (b64CharVal c) (b64CharVal 0)).take 2

/-- encode.cpp 49-60: the decoding loop; `p` holds the characters collected in `char_array_4`. -/
def b64DecLoop : Bytes → List UInt8 → Bytes
  | [], p => b64Flush p
  | c :: r, p =>
    if c = 61 ∨ b64CharVal c = 64 then b64Flush p
    else match p with
      | [x, y, z] =>
        b64Three (b64CharVal x) (b64CharVal y) (b64CharVal z) (b64CharVal c) ++ b64DecLoop r []
      | _ => b64DecLoop r (p ++ [c])

/-- `Encodings::Base64::decode` (encode.cpp 43-70). -/
def b64Decode (s : Bytes) : Bytes := b64DecLoop s []

/-- `Hex::chr` (encode.cpp 73-84). -/
def hexChr (dec : UInt8) : Bytes :=
  let dig1 := (dec &&& 0xF0) >>> 4
  let dig2 := dec &&& 0x0F
  let d1 := if dig1 ≤ 9 then dig1 + 48 else dig1
  let d1 := if 10 ≤ d1 ∧ d1 ≤ 15 then d1 + (97 - 10) else d1
  let d2 := if dig2 ≤ 9 then dig2 + 48 else dig2
  let d2 := if 10 ≤ d2 ∧ d2 ≤ 15 then d2 + (97 - 10) else d2
  [d1, d2]

/-- `Hex::encode` (encode.cpp 86-90). -/
def hexEncode (s : Bytes) : Bytes := s.flatMap hexChr

/-- `Hex::ord` (encode.h 30); the result is an `int` between 0 and 24. -/
def hexOrd (c : UInt8) : UInt8 :=
  (c &&& 15) + (((c &&& 64) >>> (6 : UInt8)) ||| ((c &&& 64) >>> (3 : UInt8)))

/-- `Hex::decode` (encode.cpp 93-100). Two characters are or-ed into each output byte, the
first shifted by 4. For an odd number of characters the last iteration writes to
`ret[size()]`, one past the end: undefined behaviour, outcome `none`. -/
def hexDecode : Bytes → Option Bytes
  | [] => some []
  | [_] => none
  | a :: b :: r => (hexDecode r).map (fun t => ((hexOrd a <<< 4) ||| hexOrd b) :: t)

/-- encode.cpp 107-110: characters that are passed through unescaped. -/
def urlPlain (c : UInt8) : Bool :=
  (48 ≤ c && c ≤ 57) || (97 ≤ c && c ≤ 122) || (65 ≤ c && c ≤ 90) ||
  (c == 36 || c == 45 || c == 95 || c == 46 || c == 44 || c == 33 || c == 126 || c == 59 ||
   c == 42 || c == 40 || c == 41 || c == 39)

/-- `URL::encode` (encode.cpp 103-122). -/
def urlEncode (ign : Bytes) (query : Bool) : Bytes → Bytes
  | [] => []
  | c :: r =>
    (if urlPlain c || ign.contains c then [c]
     else if c == 32 && query then [43]
     else 37 :: hexChr c) ++ urlEncode ign query r

/-- `URL::decode` (encode.cpp 125-144). A '%' with fewer than two characters after it uses
the characters that are there and zero for the rest. -/
def urlDecode (query : Bool) : Bytes → Bytes
  | [] => []
  | c :: r =>
    if c = 37 then
      match r with
      | [] => [0]
      | [x] => [hexOrd x <<< 4]
      | x :: y :: r' => ((hexOrd x <<< 4) + hexOrd y) :: urlDecode query r'
    else if c = 43 ∧ query then 32 :: urlDecode query r
    else c :: urlDecode query r

end Verif.Enc
