import Verif.Base.Bytes

/-!
# Subtitle files: SubRip and WebVTT

The input for subtitle files (src/input/input_subrip.cpp) and the output of subtitles over HTTP
(src/output/output_srt.cpp).

Simplifications: numbers read by `sscanf` and `atoi` are not bounded while they are read, results are taken modulo 2^32
as stored; a variable that was never set is `none`. Opening of files, HTTP headers and track selection are left out.
-/

namespace Verif.Subs
open Verif

/-- One decimal digit. -/
def digit (n : Nat) : UInt8 := UInt8.ofNat (0x30 + n % 10)

/-- A number as `operator<<` and `%llu` print it (output_srt.cpp 50, 54). -/
def dec (n : Nat) : Bytes := if n < 10 then [digit n] else dec (n / 10) ++ [digit n]
termination_by n
decreasing_by omega

/-- `%.2` and `%.3` (output_srt.cpp 54, 61): zeros in front up to the precision. -/
def padded (w n : Nat) : Bytes := List.replicate (w - (dec n).length) 0x30 ++ dec n

/-- One time (output_srt.cpp 53-55, 60-61). -/
def timeText (t : Nat) : Bytes :=
  padded 2 (t / 3600000) ++ [0x3A] ++ padded 2 (t % 3600000 / 60000) ++ [0x3A]
    ++ padded 2 (t % 3600000 % 60000 / 1000) ++ [0x2E] ++ padded 3 (t % 1000)

/-- A subtitle packet to send (output_srt.cpp 43-58): its time, duration and text. -/
structure Sub where
  /-- `thisTime` -/
  time : Nat
  /-- "duration", 0 if absent -/
  duration : Nat
  /-- "data" -/
  data : Bytes

/-- `while (len && dataPointer[len - 1] == '\n'){--len;}` (output_srt.cpp 66). -/
def trimEnd (d : Bytes) : Bytes := (d.reverse.dropWhile (· == 0x0A)).reverse

/-- The end of a subtitle (output_srt.cpp 58-59). -/
def endTime (p : Sub) : Nat := if p.duration = 0 then p.time + (p.data.length * 75 + 800) else p.time + p.duration

/-- `sendNext` after the check for the end (output_srt.cpp 45-69): what is sent and the next number. -/
def sendNext (vtt : Bool) (num : Nat) (p : Sub) : Bytes × Nat :=
  if p.data = [] ∨ p.data = [0x20] then ([], num)
  else
    ((if vtt then [] else dec num ++ [0x0A]) ++ timeText p.time ++ [0x20, 0x2D, 0x2D, 0x3E, 0x20] ++ timeText (endTime p)
      ++ [0x0A] ++ trimEnd p.data ++ [0x0A, 0x0A], if vtt then num else num + 1)

/-- All packets, up to the end that was asked for (output_srt.cpp 37-41). -/
def sendAll (vtt : Bool) (from' to : Nat) : Nat → List Sub → Bytes
  | _, [] => []
  | num, p :: t =>
    if 0 < to ∧ to < p.time ∧ from' < to then []
    else (sendNext vtt num p).1 ++ sendAll vtt from' to (sendNext vtt num p).2 t

/-- A response (output_srt.cpp 72-79, 111): the header line of WebVTT, then the subtitles. -/
def response (vtt : Bool) (from' to : Nat) (l : List Sub) : Bytes :=
  (if vtt then [0x57, 0x45, 0x42, 0x56, 0x54, 0x54, 0x0A, 0x0A] else []) ++ sendAll vtt from' to 0 l

/-- Space as `isspace` knows it. -/
def isSpace (c : UInt8) : Bool := c == 0x20 || (0x09 ≤ c && c ≤ 0x0D)

/-- A decimal digit. -/
def isDigit (c : UInt8) : Bool := 0x30 ≤ c && c ≤ 0x39

/-- The value of digits. -/
def valOf (ds : Bytes) : Nat := ds.foldl (fun a c => a * 10 + (c.toNat - 0x30)) 0

/-- `%d` of `sscanf` without the leading space: sign and digits (input_subrip.cpp 118). -/
def scanSigned (s : Bytes) : Option (Int × Bytes) :=
  match s with
  | [] => none
  | c :: t =>
    let neg := c == 0x2D
    let body := if c == 0x2D || c == 0x2B then t else s
    if body.takeWhile isDigit = [] then none
    else some (if neg then - (valOf (body.takeWhile isDigit) : Int) else (valOf (body.takeWhile isDigit) : Int), body.dropWhile isDigit)

/-- `%d` (input_subrip.cpp 118). -/
def scanD (s : Bytes) : Option (Int × Bytes) := scanSigned (s.dropWhile isSpace)

/-- A piece of the format of `sscanf`. -/
inductive Item where
  | num
  | lit (c : UInt8)
  | space

/-- "%d:%d:%d,%d --> %d:%d:%d,%d" (input_subrip.cpp 118). -/
def format : List Item :=
  [.num, .lit 0x3A, .num, .lit 0x3A, .num, .lit 0x2C, .num, .space, .lit 0x2D, .lit 0x2D, .lit 0x3E, .space,
   .num, .lit 0x3A, .num, .lit 0x3A, .num, .lit 0x2C, .num]

/-- `sscanf`: the numbers read up to the first mismatch (input_subrip.cpp 118). -/
def scanf : List Item → Bytes → List Int
  | [], _ => []
  | .num :: f, s =>
    match scanD s with
    | none => []
    | some (v, r) => v :: scanf f r
  | .lit c :: f, s =>
    match s with
    | [] => []
    | x :: r => if x = c then scanf f r else []
  | .space :: f, s => scanf f (s.dropWhile isSpace)

/-- `atoi` (input_subrip.cpp 105). -/
def atoi (s : Bytes) : Int :=
  match scanD s with
  | none => 0
  | some (v, _) => v

/-- Milliseconds of four numbers of the line, starting at `i` (input_subrip.cpp 120-121). -/
def millis (l : List Int) (i : Nat) : Int :=
  l.getD i 0 * 3600000 + l.getD (i + 1) 0 * 60000 + l.getD (i + 2) 0 * 1000 + l.getD (i + 3) 0

/-- Storing in a `uint32_t`. -/
def u32 (v : Int) : Nat := (v % 4294967296).toNat

/-- What was read of a subtitle so far (input_subrip.cpp 71-75). -/
structure Acc where
  /-- `index` -/
  index : Option Nat
  /-- `timestamp` -/
  time : Option Nat
  /-- `duration` -/
  duration : Option Nat
  /-- `data` -/
  data : Bytes
deriving DecidableEq

/-- Nothing read (input_subrip.cpp 71-75): the numbers are not set. -/
def Acc.fresh : Acc := { index := none, time := none, duration := none, data := [] }

/-- The lines that `std::getline` gives, with the start of the present line: the last needs no newline, but is not
empty. -/
def linesFrom (cur : Bytes) : Bytes → List Bytes
  | [] => if cur = [] then [] else [cur]
  | c :: t => if c = 0x0A then cur :: linesFrom [] t else linesFrom (cur ++ [c]) t

/-- The lines of a file (input_subrip.cpp 77). -/
def linesOf (s : Bytes) : List Bytes := linesFrom [] s

/-- The test for a WebVTT file (input_subrip.cpp 82): seven bytes are compared with six. -/
def isHeader (line : Bytes) : Bool := 7 ≤ line.length && line.take 7 == [0x57, 0x45, 0x42, 0x56, 0x54, 0x54]

/-- An empty line (input_subrip.cpp 91). -/
def isBlank (line : Bytes) : Bool := line == [] || line == [0x0D]

/-- The line with the times (input_subrip.cpp 108-121). -/
def timeLine (a : Acc) (line : Bytes) : Acc :=
  let v := scanf format line
  { a with time := some (u32 (millis v 0)), duration := some (u32 (millis v 4 - u32 (millis v 0))) }

/-- A line of text (input_subrip.cpp 123-125). -/
def textLine (a : Acc) (line : Bytes) : Acc := { a with data := (if 1 < a.data.length then a.data ++ [0x0A] else a.data) ++ line }

/-- A line that is not empty (input_subrip.cpp 104-126). -/
def takeLine (nr : Nat) (a : Acc) (line : Bytes) : Acc :=
  if nr = 1 then { a with index := some (u32 (atoi line)) }
  else if nr = 2 then timeLine a line
  else textLine a line

/-- `getNext` until there is no packet (input_subrip.cpp 60-64, 68-130): the packets of the file. `nr` is the number of the
line before. -/
def readLines : Nat → Acc → List Bytes → List Acc
  | _, _, [] => []
  | nr, a, line :: rest =>
    if isHeader line then
      match rest with
      | [] => []
      | line' :: rest' => if isBlank line' then a :: readLines 0 .fresh rest' else readLines (nr + 2) (takeLine (nr + 2) a line') rest'
    else if isBlank line then a :: readLines 0 .fresh rest
    else readLines (nr + 1) (takeLine (nr + 1) a line) rest

/-- The packets of a file. -/
def readFile (s : Bytes) : List Acc := readLines 0 .fresh (linesOf s)

end Verif.Subs
