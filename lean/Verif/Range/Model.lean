import Verif.Base.Strings

/-!
# Model of range requests (`/repo/src/output/output_http.cpp`: `parseRange`; its use in output_mp4.cpp and output_ebml.cpp)
-/
namespace Verif.Range

/-- output_http.cpp 1066-1071, 1090-1096, 1103-1109: digits from the start of the text, into a number of 64 bits; and what follows. -/
def digits : Bytes → Nat → Nat × Bytes
  | [], v => (v, [])
  | c :: l, v => if 48 ≤ c ∧ c ≤ 57 then digits l ((v * 10 + (c.toNat - 48)) % 2 ^ 64) else (v, c :: l)

/-- "bytes=" -/
def sBytes : Bytes := [98, 121, 116, 101, 115, 61]

/-- output_http.cpp 1056-1119: `parseRange` with `byteStart` and `byteEnd` as they are before: whether it succeeds, and what they
are then. -/
def parseRange (header : Bytes) (byteStart byteEnd : Nat) : Bool × Nat × Nat :=
  if header.length < 6 ∨ header.take 6 ≠ sBytes then (false, byteStart, 0)
  else
    let header := header.drop 6
    if header.head? = some 45 then
      let n := (digits header.tail 0).1
      (true, if n > byteEnd then 0 else byteEnd - n, byteEnd)
    else
      let r := digits header 0
      if r.2.head? ≠ some 45 then (false, r.1, 0)
      else
        let rest := r.2.tail
        if rest ≠ [] then (true, r.1, if (digits rest 0).1 > byteEnd then byteEnd else (digits rest 0).1)
        else (true, r.1, byteEnd)

/-- What is answered: all of the file, a part of it with the numbers of the first and last bytes (`Content-Range`) and the number of
bytes (`Content-Length`, or the bytes that are counted in `leftOver`), or a refusal. -/
inductive Answer where
  | all
  | part (first last length : Nat)
  | refused
  deriving DecidableEq

/-- output_mp4.cpp 1158-1188, output_ebml.cpp 471-500: the answer for a file of `size` bytes; `header` is empty without `Range`.
Numbers have 64 bits. Both refusals, which differ in their texts, are one here. -/
def answer (header : Bytes) (size : Nat) : Answer :=
  if header = [] then .all
  else
    let r := parseRange header 0 ((size + 2 ^ 64 - 1) % 2 ^ 64)
    if r.2.2 = 0 then .refused else .part r.2.1 r.2.2 ((r.2.2 + 2 ^ 64 - r.2.1 + 1) % 2 ^ 64)

/-- http_parser.cpp 288-296: in responses in chunks, `Content-Length` becomes `Content-Range`; `atoi` of the length gives its lowest
32 bits. The result are the last byte and the length that are announced, if any. -/
def chunkedRange (length : Nat) : Option (Nat × Nat) := if length % 2 ^ 32 = 0 then none else some (length % 2 ^ 32 - 1, length % 2 ^ 32)

end Verif.Range
