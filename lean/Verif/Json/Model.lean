import Verif.Base.Bytes

/-!
# Model of JSON text (`/repo/lib/json.cpp`)

A `std::istream` over a string is the list of the bytes not read yet. `none` is undefined behaviour: a use of the
indeterminate character that `istream::get(char&)` leaves behind at the end of the input, or a signed overflow.

Simplifications: doubles are kept as exact decimals, `strVal`, `intVal` and the other members of a value are all kept while
parsing, and only the ones that belong to the final type are kept afterwards; rendering doubles is left out (their text is
a parameter).
-/
namespace Verif.Json

/-- json.cpp 145-150. -/
def c2hex (c : UInt8) : Nat :=
  if 48 ≤ c.toNat ∧ c.toNat ≤ 57 then c.toNat - 48
  else if 97 ≤ c.toNat ∧ c.toNat ≤ 102 then c.toNat - 97 + 10
  else if 65 ≤ c.toNat ∧ c.toNat ≤ 70 then c.toNat - 65 + 10
  else 0

/-- json.cpp 152-156. -/
def hex2c (c : Nat) : UInt8 :=
  if c < 10 then UInt8.ofNat (48 + c) else if c < 16 then UInt8.ofNat (65 + (c - 10)) else 48

/-- json.cpp 158-183. The third branch has the condition of the second one, so it is never taken. -/
def utf8 (c : Nat) : Bytes :=
  if c ≤ 0x7F then [UInt8.ofNat c]
  else if c ≤ 0x7FF then [UInt8.ofNat (0xC0 ||| (c >>> 6)), UInt8.ofNat (0x80 ||| (c &&& 0x3F))]
  else if c ≤ 0x7FF then
    [UInt8.ofNat (0xC0 ||| (c >>> 12)), UInt8.ofNat (0x80 ||| ((c >>> 6) &&& 0x3F)), UInt8.ofNat (0x80 ||| (c &&& 0x3F))]
  else
    let c := (((c >>> 16) &&& 0x3ff) <<< 10) + ((c &&& 0xFFFF) &&& 0x3ff) + 0x10000
    [UInt8.ofNat (0xF0 ||| ((c >>> 18) &&& 0x07)), UInt8.ofNat (0x80 ||| ((c >>> 12) &&& 0x3F)),
      UInt8.ofNat (0x80 ||| ((c >>> 6) &&& 0x3F)), UInt8.ofNat (0x80 ||| (c &&& 0x3F))]

/-- json.cpp 189-257: `read_string` with `escaped`, `fullChar` and `out`, on what is left of the stream. The result is the
string and what is left after it. -/
def readString (sep : UInt8) : Bool → Nat → Bytes → Bytes → Option (Bytes × Bytes)
  | _, _, _, [] => none
  | false, full, out, c :: r =>
    if c = 92 then readString sep true full out r
    else
      let out := if full ≠ 0 then out ++ utf8 (full >>> 16) else out
      if c = sep then some (out, r) else readString sep false 0 (out ++ [c]) r
  | true, full, out, c :: r =>
    let out := if full ≠ 0 ∧ c ≠ 117 then out ++ utf8 (full >>> 16) else out
    let full := if full ≠ 0 ∧ c ≠ 117 then 0 else full
    if c = 98 then readString sep false full (out ++ [8]) r
    else if c = 92 then readString sep false full (out ++ [92]) r
    else if c = 102 then readString sep false full (out ++ [12]) r
    else if c = 110 then readString sep false full (out ++ [10]) r
    else if c = 114 then readString sep false full (out ++ [13]) r
    else if c = 116 then readString sep false full (out ++ [9]) r
    else if c = 120 then
      match r with
      | d1 :: d2 :: r' => readString sep false full (out ++ [UInt8.ofNat (c2hex d2 + (c2hex d1 <<< 4))]) r'
      | _ => none
    else if c = 117 then
      let stop := if full ≠ 0 then out ++ utf8 (full >>> 16) else out
      match r with
      | [] => none
      | d1 :: r1 =>
        if d1 = sep then some (stop, r1)
        else match r1 with
          | [] => none
          | d2 :: r2 =>
            if d2 = sep then some (stop, r2)
            else match r2 with
              | [] => none
              | d3 :: r3 =>
                if d3 = sep then some (stop, r3)
                else match r3 with
                  | [] => none
                  | d4 :: r4 =>
                    if d4 = sep then some (stop, r4)
                    else
                      let tmp := c2hex d4 + (c2hex d3 <<< 4) + (c2hex d2 <<< 8) + (c2hex d1 <<< 12)
                      let flush := full ≠ 0 ∧ (tmp < 0xDC00 ∨ tmp > 0xDFFF)
                      let out := if flush then out ++ utf8 (full >>> 16) else out
                      let full := (if flush then 0 else full) ||| tmp
                      if 0xD800 ≤ full ∧ full ≤ 0xDBFF then readString sep false (full <<< 16) out r4
                      else readString sep false 0 (out ++ utf8 full) r4
    else readString sep false full (out ++ [c]) r

/-- json.cpp 265-270: one UTF-16 unit. -/
def utf16Unit (c : Nat) : Bytes :=
  [92, 117, hex2c ((c >>> 12) &&& 0xf), hex2c ((c >>> 8) &&& 0xf), hex2c ((c >>> 4) &&& 0xf), hex2c (c &&& 0xf)]

/-- json.cpp 260-271. The recursive calls are for numbers below 0xE000. -/
def utf16 (c : Nat) : Bytes :=
  if c > 0xFFFF then
    utf16Unit (0xD800 + (((c - 0x10000) >>> 10) &&& 0x3FF)) ++ utf16Unit (0xDC00 + ((c - 0x10000) &&& 0x3FF))
  else utf16Unit c

/-- A continuation byte of UTF-8 (json.cpp 295, 302-303, 309-310). -/
def cont (b : UInt8) : Bool := b &&& 0xC0 == 0x80

/-- json.cpp 279-285: the characters with an escape of their own, and the letter of that escape. -/
def special (c : UInt8) : Option UInt8 :=
  if c = 34 then some 34
  else if c = 92 then some 92
  else if c = 10 then some 110
  else if c = 8 then some 98
  else if c = 12 then some 102
  else if c = 13 then some 114
  else if c = 9 then some 116
  else none

/-- json.cpp 291-316: a UTF-8 sequence that starts with `c` and goes on with `r`: its code point and its length. -/
def utf8Seq (c : UInt8) (r : Bytes) : Option (Nat × Nat) :=
  if c &&& 0xC0 = 0xC0 then
    if c &&& 0xE0 = 0xC0 ∧ 1 ≤ r.length ∧ cont (r.getD 0 0) then
      some (((c.toNat &&& 0x1F) <<< 6) ||| ((r.getD 0 0).toNat &&& 0x3F), 2)
    else if c &&& 0xF0 = 0xE0 ∧ 2 ≤ r.length ∧ cont (r.getD 0 0) ∧ cont (r.getD 1 0) then
      some (((c.toNat &&& 0x1F) <<< 12) ||| (((r.getD 0 0).toNat &&& 0x3F) <<< 6) ||| ((r.getD 1 0).toNat &&& 0x3F), 3)
    else if c &&& 0xF8 = 0xF0 ∧ 3 ≤ r.length ∧ cont (r.getD 0 0) ∧ cont (r.getD 1 0) ∧ cont (r.getD 2 0) then
      some (((c.toNat &&& 0x1F) <<< 18) ||| (((r.getD 0 0).toNat &&& 0x3F) <<< 12) |||
        (((r.getD 1 0).toNat &&& 0x3F) <<< 6) ||| ((r.getD 2 0).toNat &&& 0x3F), 4)
    else none
  else none

/-- json.cpp 276-323: the body of the loop of `string_escape` on the bytes from `i` on. The result is what is appended and
how many bytes are consumed. -/
def escOne (c : UInt8) (r : Bytes) : Bytes × Nat :=
  match special c with
  | some e => ([92, e], 1)
  | none =>
    if c.toNat < 32 ∨ c.toNat > 126 then
      match utf8Seq c r with
      | some (v, k) => (utf16 v, k)
      | none => ([92, 117, 48, 48, hex2c ((c.toNat >>> 4) &&& 0xf), hex2c (c.toNat &&& 0xf)], 1)
    else ([c], 1)

/-- json.cpp 275-326: the loop of `string_escape`; the first argument bounds the number of rounds. -/
def escLoop : Nat → Bytes → Bytes
  | 0, _ => []
  | _ + 1, [] => []
  | n + 1, c :: r => (escOne c r).1 ++ escLoop n ((c :: r).drop (escOne c r).2)

/-- json.cpp 273-329: `string_escape`. -/
def escape (s : Bytes) : Bytes := 34 :: escLoop s.length s ++ [34]

/-- A double, as an exact decimal (simplified): sign, integer part and the digits behind the point. -/
structure Dbl where
  neg : Bool
  whole : Int
  frac : List Nat
  deriving DecidableEq, Repr

/-- A `JSON::Value` (json.h): `UNSET`, `EMPTY`, and the other types with their content. Objects are `std::map`s: their
members are in ascending order of the keys. -/
inductive JVal where
  | unset
  | null
  | bool (b : Bool)
  | int (i : Int)
  | dbl (d : Dbl)
  | str (s : Bytes)
  | arr (l : List JVal)
  | obj (l : List (Bytes × JVal))

/-- `st << intVal` (json.cpp 1112). -/
def intText (i : Int) : Bytes :=
  (if i < 0 then [45] else []) ++ (Nat.toDigits 10 i.natAbs).map fun c => UInt8.ofNat c.toNat

/-- An empty text becomes `null` (json.cpp 1136, 1150). -/
def orNull (t : Bytes) : Bytes := if t = [] then [110, 117, 108, 108] else t

mutual
/-- json.cpp 1108-1162: `Value::toString`; `f` renders doubles. -/
def toText (f : Dbl → Bytes) : JVal → Bytes
  | .unset => []
  | .null => [110, 117, 108, 108]
  | .bool b => if b then [116, 114, 117, 101] else [102, 97, 108, 115, 101]
  | .int i => intText i
  | .dbl d => f d
  | .str s => escape s
  | .arr l => 91 :: elemsText f l ++ [93]
  | .obj l => 123 :: membersText f l ++ [125]
/-- json.cpp 1134-1139. -/
def elemsText (f : Dbl → Bytes) : List JVal → Bytes
  | [] => []
  | v :: r => orNull (toText f v) ++ (if r.isEmpty then [] else [44]) ++ elemsText f r
/-- json.cpp 1147-1153. -/
def membersText (f : Dbl → Bytes) : List (Bytes × JVal) → Bytes
  | [] => []
  | m :: r => escape m.1 ++ [58] ++ orNull (toText f m.2) ++ (if r.isEmpty then [] else [44]) ++ membersText f r
end

/-- `std::string::operator<`. -/
def keyLt : Bytes → Bytes → Bool
  | [], [] => false
  | [], _ :: _ => true
  | _ :: _, [] => false
  | a :: r, b :: s => if a.toNat < b.toNat then true else if b.toNat < a.toNat then false else keyLt r s

/-- Assignment through `std::map::operator[]`. -/
def mapSet (l : List (Bytes × JVal)) (k : Bytes) (v : JVal) : List (Bytes × JVal) :=
  match l with
  | [] => [(k, v)]
  | m :: r => if keyLt m.1 k then m :: mapSet r k v else if m.1 = k then (k, v) :: r else (k, v) :: m :: r

inductive Ty where
  | unset | null | int | dbl | str | bool | arr | obj
  deriving DecidableEq

/-- A value while it is being parsed: all its members (json.h), and the local flags of json.cpp 358-364. -/
structure PV where
  ty : Ty := .unset
  int : Int := 0
  dbl : Dbl := ⟨false, 0, []⟩
  arr : List JVal := []
  obj : List (Bytes × JVal) := []
  rObj : Bool := false
  rArr : Bool := false
  neg : Bool := false

/-- The finished value; json.cpp 469: the sign of integers. -/
def PV.fin (p : PV) : JVal :=
  match p.ty with
  | .unset => .unset
  | .null => .null
  | .int => .int (if p.neg then -p.int else p.int)
  | .dbl => .dbl p.dbl
  | .str => .str []
  | .bool => .bool (p.int != 0)
  | .arr => .arr p.arr
  | .obj => .obj p.obj

/-- `Value::append` (json.cpp 1232-1238). -/
def PV.append (p : PV) (v : JVal) : PV :=
  if p.ty = .arr then { p with arr := p.arr ++ [v] } else { p with ty := .arr, int := 0, obj := [], arr := [v] }

/-- json.cpp 372-374: the first element, if there is one. -/
def PV.first (p : PV) (v : JVal) : PV :=
  match v with
  | .unset => p
  | v => p.append v

/-- Assignment of a member through `operator[]` (json.cpp 816-827). -/
def PV.set (p : PV) (k : Bytes) (v : JVal) : PV :=
  if p.ty = .obj then { p with obj := mapSet p.obj k v } else { p with ty := .obj, int := 0, arr := [], obj := [(k, v)] }

/-- json.cpp 332-340: `skipToEnd`. -/
def skipToEnd : Bytes → Bytes
  | [] => []
  | c :: r => if c = 44 ∨ c = 93 ∨ c = 125 then c :: r else skipToEnd r

/-- json.cpp 394-413: a digit. `none`: signed overflow. -/
def PV.digit (p : PV) (d : Nat) : Option PV :=
  let p := if p.ty ≠ .int ∧ p.ty ≠ .dbl then { p with ty := .int } else p
  if p.ty = .int then
    (if p.int * 10 + d < 2 ^ 63 then some { p with int := p.int * 10 + d } else none)
  else some { p with dbl := { p.dbl with frac := p.dbl.frac ++ [d] } }

/-- json.cpp 359-470: the constructor from a stream. The first argument bounds the depth and the number of rounds; the
second one is the value so far, the third one what is left of the stream. -/
def parseVal : Nat → PV → Bytes → Option (JVal × Bytes)
  | 0, _, _ => none
  | _ + 1, p, [] => some (p.fin, [])
  | n + 1, p, c :: r =>
    if c = 123 then parseVal n { p with rObj := true, ty := .obj } r
    else if c = 91 then
      (parseVal n {} r).bind fun t =>
        parseVal n ({ p with rArr := true, ty := .arr }.first t.1) t.2
    else if c = 39 ∨ c = 34 then
      (readString c false 0 [] r).bind fun s =>
        if p.rObj then (parseVal n {} s.2).bind fun t => parseVal n (p.set s.1 t.1) t.2
        else some (.str s.1, s.2)
    else if c = 45 then parseVal n { p with neg := true } r
    else if 48 ≤ c.toNat ∧ c.toNat ≤ 57 then (p.digit (c.toNat - 48)).bind fun p => parseVal n p r
    else if c = 46 then
      parseVal n { p with ty := .dbl, dbl := ⟨p.neg, if p.neg then -p.int else p.int, []⟩ } r
    else if c = 44 then
      if !p.rObj && !p.rArr then some (p.fin, c :: r)
      else if p.rArr then (parseVal n {} r).bind fun t => parseVal n (p.append t.1) t.2
      else parseVal n p r
    else if c = 125 then (if p.rObj then some (p.fin, r) else some (p.fin, c :: r))
    else if c = 93 then (if p.rArr then some (p.fin, r) else some (p.fin, c :: r))
    else if c = 116 ∨ c = 84 then some ({ p with ty := .bool, int := 1 }.fin, skipToEnd r)
    else if c = 102 ∨ c = 70 then some ({ p with ty := .bool, int := 0 }.fin, skipToEnd r)
    else if c = 110 ∨ c = 78 then some ({ p with ty := .null }.fin, skipToEnd r)
    else parseVal n p r

/-- json.cpp 1382-1385: `fromString`. -/
def parseText (s : Bytes) : Option JVal := (parseVal (s.length + 1) {} s).map (·.1)

end Verif.Json
