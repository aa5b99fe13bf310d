import Verif.Bit.Model
import Verif.Base.Strings

/-!
# Model of `/repo/lib/nal.cpp`: NAL unit framing

Pointers into the input are modelled by the remaining input. `int` offsets are exact below 2^31 bytes.
-/
namespace Verif.Nal
open Verif.Bit

/-- `parseNalSizes` (14-26) on the payload. `none`: the length field is read past the end, or a
unit size of 2^31 and more makes the signed offset stop advancing. -/
def parseNalSizes (data : Bytes) : Option (List Nat) :=
  if _h : data = [] then some []
  else match btoh .l data with
    | none => none
    | some n =>
      if n ≥ 2 ^ 31 then none
      else (parseNalSizes (data.drop (n + 4))).map ((n + 4) :: ·)
  termination_by data.length
  decreasing_by
    have : data.length ≠ 0 := by simpa using _h
    simp only [List.length_drop]; omega

/-- The main loop of `removeEmulationPrevention` (36-46), on the bytes from `dataPtr` on. -/
def unescapeFrom : Bytes → Bytes
  | a :: b :: c :: r =>
    if a = 0 ∧ b = 0 ∧ c = 3 then a :: b :: unescapeFrom r else a :: unescapeFrom (b :: c :: r)
  | l => l

/-- `removeEmulationPrevention` (28-48). `none`: fewer than two bytes (index out of range). -/
def removeEmulationPrevention : Bytes → Option Bytes
  | a :: b :: r => some (a :: b :: unescapeFrom r)
  | _ => none

/-- `toAnnexB` (50-66). `none`: a length field or a unit extends past the end of the input. -/
def toAnnexB (data : Bytes) : Option Bytes :=
  if _h : data = [] then some []
  else match btoh .l data with
    | none => none
    | some n =>
      if n + 4 ≤ data.length then
        (toAnnexB (data.drop (n + 4))).map fun t => [0, 0, 0, 1] ++ ((data.drop 4).take n ++ t)
      else none
  termination_by data.length
  decreasing_by
    have : data.length ≠ 0 := by simpa using _h
    simp only [List.length_drop]; omega

/-- `scanAnnexB` (75-96): offset of the start code, `none` for the null pointer. -/
def scanAnnexB : Bytes → Nat → Option Nat
  | a :: b :: c :: r, off =>
    if c > 1 then scanAnnexB r (off + 3)
    else if c = 0 then scanAnnexB (b :: c :: r) (off + 1)
    else if a = 0 ∧ b = 0 then some off
    else scanAnnexB r (off + 3)
  | _, _ => none

/-- `nalEndPosition` (69-72): the part up to the last non-zero byte. -/
def nalEndPosition (data : Bytes) : Bytes := (data.reverse.dropWhile (· = 0)).reverse

/-- The scan of `fromAnnexB` for the next start code (108-111), on the remaining input;
`begin < lastCheck` means more than three bytes remain. -/
def skipTo : Bytes → Bytes
  | a :: b :: c :: d :: r =>
    if a = 0 ∧ b = 0 ∧ c = 1 then a :: b :: c :: d :: r
    else if r ≠ [] ∧ b ≠ 0 then skipTo (c :: d :: r)
    else skipTo (b :: c :: d :: r)
  | l => l

theorem skipTo_length (l : Bytes) : (skipTo l).length ≤ l.length := by
  fun_induction skipTo l <;> simp_all <;> omega

/-- End of the unit in the bytes after its start code (117-120): up to the next start code, minus
one zero byte before it. -/
def unitEnd (body : Bytes) : Nat :=
  match findSub [0, 0, 1] body with
  | none => body.length
  | some e => if e > 0 ∧ body[e - 1]? = some 0 then e - 1 else e

/-- `fromAnnexB` (98-129): the bytes written to the result. -/
def fromAnnexB (data : Bytes) : Bytes :=
  if _h : data = [] then []
  else
    if _h2 : (skipTo data).length < 3 then []
    else
      htob .l (unitEnd ((skipTo data).drop 3)) ++
        (((skipTo data).drop 3).take (unitEnd ((skipTo data).drop 3)) ++
          fromAnnexB (((skipTo data).drop 3).drop (unitEnd ((skipTo data).drop 3))))
  termination_by data.length
  decreasing_by
    have := skipTo_length data
    have : (skipTo data).length ≥ 3 := by omega
    simp only [List.length_drop]; omega

end Verif.Nal
