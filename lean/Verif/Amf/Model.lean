import Verif.Base.Bytes

/-!
# Model of the AMF0 part of `/repo/lib/amf.cpp`

`Object` holds a name ("indice"), a type byte, a string, a number and its contents.
`numval` is a `double`: here it is its 64-bit pattern for numbers and dates, and the
(exactly representable) integer itself for booleans and references.
`unsigned int` arithmetic is modulo 2^32; positions are exact for inputs up to 2^32-16 bytes.
A read outside `data[0..len)` is the outcome `none`.
-/
namespace Verif.Amf

inductive Obj where
  | mk (name : Bytes) (type : UInt8) (str : Bytes) (num : Nat) (contents : List Obj)

namespace Obj
/-- `Indice()` (13-15). -/
def name : Obj → Bytes | mk n _ _ _ _ => n
/-- `GetType()` (18-20). -/
def type : Obj → UInt8 | mk _ t _ _ _ => t
def str : Obj → Bytes | mk _ _ s _ _ => s
def num : Obj → Nat | mk _ _ _ n _ => n
def contents : Obj → List Obj | mk _ _ _ _ c => c
end Obj

/-- The 8 bytes of a double, most significant first (274-281). -/
def packDouble (p : Nat) : Bytes := beEnc 8 p

/-- Two length bytes as written at 301-302, 314-315, 320-321. -/
def len2 (n : Nat) : Bytes := [UInt8.ofNat (n / 256), UInt8.ofNat (n % 256)]

/-- Four length bytes as written at 307-310, 349-352, 373-376. -/
def len4 (n : Nat) : Bytes :=
  [UInt8.ofNat (n / (256 * 256 * 256)), UInt8.ofNat (n / (256 * 256)), UInt8.ofNat (n / 256), UInt8.ofNat (n % 256)]

mutual
/-- `Object::Pack` (265-385). -/
def pack : Obj → Bytes
  | .mk name type0 str num contents =>
    -- 268: string/longstring conversion
    let type := if type0 = 0x02 ∧ str.length > 0xFFFF then 0x0C else type0
    let r : Bytes := if type ≠ 0xFF then [type] else []
    if type = 0x00 then r ++ packDouble num
    else if type = 0x0B then r ++ (packDouble num ++ [0, 0])
    else if type = 0x01 then r ++ [UInt8.ofNat num]
    else if type = 0x02 then r ++ (len2 str.length ++ str)
    else if type = 0x0C ∨ type = 0x0F then r ++ (len4 str.length ++ str)
    else if type = 0x10 then r ++ (len2 name.length ++ name ++ (packMembers contents ++ [0, 0, 9]))
    else if type = 0x03 then r ++ (packMembers contents ++ [0, 0, 9])
    else if type = 0x07 then r ++ len2 num
    else if type = 0x08 then r ++ (len4 contents.length ++ (packMembers contents ++ [0, 0, 9]))
    else if type = 0x0A then r ++ (len4 contents.length ++ packElems contents)
    else if type = 0xFF then r ++ packElems contents
    else r
/-- The loops over named members (318-325, 353-358). -/
def packMembers : List Obj → Bytes
  | [] => []
  | o :: l => len2 o.name.length ++ (o.name ++ (pack o ++ packMembers l))
/-- The loops over array elements (370, 381). -/
def packElems : List Obj → Bytes
  | [] => []
  | o :: l => pack o ++ packElems l
end

/-- `unsigned int` subtraction. -/
def subU (a b : Nat) : Nat := (a + (2 ^ 32 - b % 2 ^ 32)) % 2 ^ 32

/-- `if (tmpi + x >= len){tmpi = len - x;}` in unsigned arithmetic (444, 452, 460, 478, 491, 511). -/
def clamp (tmpi x len : Nat) : Nat := if (tmpi + x) % 2 ^ 32 ≥ len then subU len x else tmpi

/-- `tmpstr.append(p, n)`: `none` when it copies from outside the buffer. -/
def takeN (s : Bytes) (n : Nat) : Option Bytes := if n ≤ s.length then some (s.take n) else none

/-- `data[j] * 256 + data[j + 1]`, the two bytes at the start of `s`. -/
def be16 : Bytes → Option Nat
  | a :: b :: _ => some (a.toNat * 256 + b.toNat)
  | _ => none

/-- Four bytes; the `int` product may exceed 2^31 and is taken modulo 2^32 (two's complement). -/
def be32 : Bytes → Option Nat
  | a :: b :: c :: d :: _ => some (a.toNat * (256 * 256 * 256) + b.toNat * (256 * 256) + c.toNat * 256 + d.toNat)
  | _ => none

/-- The default object returned outside the data (396). -/
def Obj.default : Obj := .mk [] 0xFF [] 0 []

/-- The error object (540-542). -/
def Obj.error : Obj := .mk [0x65, 0x72, 0x72, 0x6F, 0x72] 0xFF [] 0 []

/-- A double read from the data, 0 if it does not fit (403-415, 420-432); the bytes after the marker. -/
def readDouble (r : Bytes) : Nat := if 8 ≤ r.length then beVal (r.take 8) else 0

/-- String bodies: clamp the length and copy. `x` is the position of `body`. -/
def readStr (len x tmpi : Nat) (body : Bytes) : Option Bytes := takeN body (clamp tmpi x len)

/-- The byte after a boolean marker (437-442). -/
def readBool : Bytes → Option Nat
  | [] => none
  | b :: _ => some (if b = 0 then 0 else 1)

def arrVal : Bytes := [0x61, 0x72, 0x72, 0x56, 0x61, 0x6C]

theorem readStr_le {len x tmpi : Nat} {body t : Bytes} (h : readStr len x tmpi body = some t) : t.length ≤ body.length := by
  unfold readStr takeN at h; split at h
  · simp at h; rw [← h]; simp; omega
  · cases h

mutual
/-- `parseOne` (394-543). `s` is the data from position `i` on (empty if `i >= len`). The result is
the object and how far `i` moved. -/
def parseOne (len i : Nat) (s : Bytes) (name : Bytes) : Option (Obj × Nat) :=
  match s with
  | [] => some (Obj.default, 0)
  | t :: r =>
    if t = 0x00 then some (.mk name 0x00 [] (readDouble r) [], 9)
    else if t = 0x0B then some (.mk name 0x0B [] (readDouble r) [], 11)
    else if t = 0x01 then (readBool r).map fun n => (.mk name 0x01 [] n [], 2)
    else if t = 0x07 then (be16 r).map fun n => (.mk name 0x07 [] n [], 3)
    else if t = 0x0F ∨ t = 0x0C then
      match be32 r with
      | none => none
      | some n => (readStr len (i + 5) n (r.drop 4)).map fun str => (.mk name t str 0 [], str.length + 5)
    else if t = 0x02 then
      match be16 r with
      | none => none
      | some n => (readStr len (i + 3) n (r.drop 2)).map fun str => (.mk name t str 0 [], str.length + 3)
    else if t = 0x05 ∨ t = 0x06 ∨ t = 0x0D then some (.mk name t [] 0 [], 1)
    else if t = 0x03 then
      (parseMembers len (i + 1) true r).map fun (ms, d) => (.mk name 0x03 [] 0 ms, 1 + d + 3)
    else if t = 0x10 then
      match be16 r with
      | none => none
      | some n =>
        match readStr len (i + 3) n (r.drop 2) with
        | none => none
        | some cls => (parseMembers len (i + 1) false r).map fun (ms, d) => (.mk cls 0x10 [] 0 ms, 1 + d + 3)
    else if t = 0x08 then
      (parseMembers len (i + 5) true (r.drop 4)).map fun (ms, d) => (.mk name 0x08 [] 0 ms, 5 + d + 3)
    else if t = 0x0A then
      match be32 r with
      | none => none
      | some n => (parseElems len (i + 5) n (r.drop 4)).map fun (es, d) => (.mk name 0x0A [] 0 es, 5 + d)
    else some (Obj.error, subU len i)
  termination_by (s.length, 0)
  decreasing_by
    all_goals (apply Prod.Lex.left; simp only [List.length_cons, List.length_drop]; omega)

/-- The member loops (474-482, 493-500, 507-515). The typed-object loop does not clamp the name
length (`clamped = false`, 496-497). Returns the members and the distance to the terminator. -/
def parseMembers (len i : Nat) (clamped : Bool) (s : Bytes) : Option (List Obj × Nat) :=
  match be16 s with
  | none => some ([], 0)
  | some n =>
    if _h0 : n = 0 then some ([], 0)
    else
      match (if clamped then readStr len (i + 2) n (s.drop 2) else takeN (s.drop 2) n) with
      | none => none
      | some key =>
        if _h : s = [] then none -- not reachable: two bytes were read
        else
        match parseOne len (i + key.length + 2) (s.drop (key.length + 2)) key with
        | none => none
        | some (o, d) =>
          (parseMembers len (i + key.length + 2 + d) clamped (s.drop (key.length + 2 + d))).map
            fun (ms, d') => (o :: ms, key.length + 2 + d + d')
  termination_by (s.length, 0)
  decreasing_by
    all_goals
      have : s.length ≠ 0 := by simpa using _h
      apply Prod.Lex.left; simp only [List.length_drop]; omega

/-- The strict array loop (529-532): `n` elements are always produced. -/
def parseElems (len i : Nat) (n : Nat) (s : Bytes) : Option (List Obj × Nat) :=
  match n with
  | 0 => some ([], 0)
  | n + 1 =>
    match parseOne len i s arrVal with
    | none => none
    | some (o, d) =>
      (parseElems len (i + d) n (s.drop d)).map fun (es, d') => (o :: es, d + d')
  termination_by (s.length, n)
  decreasing_by
    · apply Prod.Lex.right; omega
    · by_cases h : (s.drop d).length = s.length
      · rw [h]; apply Prod.Lex.right; omega
      · apply Prod.Lex.left; have : (s.drop d).length ≤ s.length := by simp
        omega
end

/-- The loop of `parse` (551-558): stop at the end or when a parse does not advance. -/
def parseLoop (len i : Nat) (s : Bytes) : Option (List Obj) :=
  if _h : s = [] then some []
  else
    match parseOne len i s [] with
    | none => none
    | some (o, d) =>
      if _h2 : d = 0 then some [o]
      else (parseLoop len (i + d) (s.drop d)).map (o :: ·)
  termination_by s.length
  decreasing_by
    have : s.length ≠ 0 := by simpa using _h
    simp only [List.length_drop]; omega

/-- `parse` (548-560). -/
def parse (data : Bytes) : Option Obj :=
  (parseLoop data.length 0 data).map fun l => .mk [0x72, 0x65, 0x74, 0x75, 0x72, 0x6E, 0x65, 0x64] 0xFF [] 0 l

end Verif.Amf
