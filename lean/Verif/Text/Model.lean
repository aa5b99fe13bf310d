import Verif.Base.Strings

/-!
# Model of the string helpers (`/repo/lib/util.cpp` 165-290, `/repo/lib/stream.cpp` 140-216 and 243-270)
-/
namespace Verif.Text

/-! ## `Util::replace` and variable substitution -/

/-- `Util::replace` (util.cpp 165-175), on the part of the string from `start_pos` on: `str.find(from,
start_pos)` only looks at that part, and what precedes is never changed again. Returns the new text of
that part and the number of replacements. -/
def replaceFrom (pat to s : Bytes) : Bytes × Nat :=
  match h : findSub pat s with
  | none => (s, 0)
  | some n =>
    if _hp : pat = [] then (s, 0)
    else (s.take n ++ to ++ (replaceFrom pat to (s.drop (n + pat.length))).1, (replaceFrom pat to (s.drop (n + pat.length))).2 + 1)
  termination_by s.length
  decreasing_by
    all_goals
      have := (findSub_some h).1
      have : 0 < pat.length := List.length_pos_iff.mpr _hp
      simp only [List.length_drop]; omega

/-- `Util::replace` (util.cpp 165-175). -/
def replace (pat to s : Bytes) : Bytes × Nat := if pat = [] then (s, 0) else replaceFrom pat to s

/-- `replaceVar` (stream.cpp 141-149): `${name}` first, then `$name`. -/
def replaceVar (var rep s : Bytes) : Bytes × Nat :=
  let a := replace ([0x24, 0x7B] ++ var ++ [0x7D]) rep s
  let b := replace ([0x24] ++ var) rep a.1
  (b.1, a.2 + b.2)

/-- One pass of `streamVariables` (stream.cpp 186-214) over a table of variables in order (custom variables,
then the built-in ones). -/
def pass (vars : List (Bytes × Bytes)) (s : Bytes) : Bytes × Nat :=
  vars.foldl (fun acc v => let r := replaceVar v.1 v.2 acc.1; (r.1, acc.2 + r.2)) (s, 0)

/-- `streamVariables` (stream.cpp 178-218); `n` is `10 - depth`. The recursive call passes the global stream
name instead of the argument, so from the second pass on another table (`vars'`) is used. -/
def streamVariables : Nat → List (Bytes × Bytes) → List (Bytes × Bytes) → Bytes → Bytes × Nat
  | 0, _, _, s => (s, 0)
  | n + 1, vars, vars', s =>
    if 0x24 ∉ s then (s, 0)
    else
      let r := pass vars s
      if r.2 ≠ 0 ∧ 0x24 ∈ r.1 then
        let q := streamVariables n vars' vars' r.1
        (q.1, r.2 + q.2)
      else r

/-! ## Trimming and splitting -/

/-- The characters skipped by `stringTrim` (util.cpp 184-185): space and 9 to 13. -/
def isSpace (c : UInt8) : Bool := c == 32 || !(c < 9 || c > 13)

/-- First loop (183-189): the first index that is not white space, 0 when there is none. -/
def startPos (s : Bytes) : Nat := (s.findIdx? (fun c => !isSpace c)).getD 0

/-- Second loop (191-197): from the last index down to 1 (index 0 is not looked at). -/
def endScan (s : Bytes) (start : Nat) : Nat → Nat
  | 0 => 0
  | i + 1 => if isSpace (s.getD (i + 1) 0) then endScan s start i else i + 1 + 1 - start

/-- `Util::stringTrim` (util.cpp 178-199). -/
def stringTrim (s : Bytes) : Bytes :=
  if s.length = 0 then s
  else (s.drop (startPos s)).take (endScan s (startPos s) (s.length - 1))

/-- The positions found by the `find` loop (util.cpp 205-209). -/
def positions (c : UInt8) : Nat → Bytes → List Nat
  | _, [] => []
  | i, x :: r => if x = c then i :: positions c (i + 1) r else positions c (i + 1) r

/-- The loop over the positions (util.cpp 214-219) and the final piece (220). -/
def pieces (src : Bytes) : Nat → List Nat → List Bytes
  | prev, [] => if prev < src.length then [src.drop (prev + 1)] else []
  | prev, p :: ps =>
    (if prev = 0 then src.take p else (src.drop (prev + 1)).take (p - prev - 1)) :: pieces src p ps

/-- `Util::splitString` (util.cpp 202-221). -/
def splitString (src : Bytes) (delim : UInt8) : List Bytes :=
  if positions delim 0 src = [] then [src] else pieces src 0 (positions delim 0 src)

/-- State of `shellSplit` (util.cpp 225-228). -/
structure Shell where
  quoting : UInt8 := 0
  argFull : Bool := false
  arg : Bytes := []
  out : List Bytes := []

def Shell.push (s : Shell) : List Bytes := if s.arg ≠ [] ∨ s.argFull then s.out ++ [s.arg] else s.out

/-- The character after a backslash (util.cpp 258-264). -/
def unescape (c : UInt8) : UInt8 :=
  if c = 0x6E then 10 else if c = 0x72 then 13 else if c = 0x74 then 9 else if c = 0x61 then 7 else c

/-- `Util::shellSplit` (util.cpp 224-290), character by character: appending the text up to the next
interesting character and appending its characters one by one is the same. -/
def shellLoop (s : Shell) : Bytes → List Bytes
  | [] => s.push
  | 0x20 :: r =>
    if s.quoting = 0 then shellLoop { s with arg := [], argFull := false, out := s.push } r
    else shellLoop { s with arg := s.arg ++ [0x20] } r
  | 0x5C :: [] => s.push
  | 0x5C :: c :: r => shellLoop { s with arg := s.arg ++ [unescape c] } r
  | c :: r =>
    if c = 0x27 ∨ c = 0x22 then
      if s.quoting = 0 then shellLoop { s with quoting := c, argFull := true } r
      else if s.quoting ≠ c then shellLoop { s with arg := s.arg ++ [c] } r
      else shellLoop { s with quoting := 0 } r
    else shellLoop { s with arg := s.arg ++ [c] } r

def shellSplit (val : Bytes) : List Bytes := shellLoop {} val

/-! ## Stream names -/

/-- `isalpha || isdigit || one of "_.-"` in the C locale (stream.cpp 264). -/
def nameChar (c : UInt8) : Bool :=
  (0x61 ≤ c && c ≤ 0x7A) || (0x41 ≤ c && c ≤ 0x5A) || (0x30 ≤ c && c ≤ 0x39) || c == 0x5F || c == 0x2E || c == 0x2D

/-- `tolower` in the C locale. -/
def lower (c : UInt8) : UInt8 := if 0x41 ≤ c && c ≤ 0x5A then c + 0x20 else c

/-- The loop of `sanitizeName` (stream.cpp 259-269) from the last character backwards: `rev` is what is still
to be looked at (last character first), `acc` what has been kept. At a '?' everything from it on is
erased and the loop ends. -/
def sanitizeLoop : Bytes → Bytes → Bytes
  | [], acc => acc
  | c :: rev, acc =>
    if c = 0x3F then rev.reverse
    else if nameChar c then sanitizeLoop rev (lower c :: acc)
    else sanitizeLoop rev acc

/-- `s.substr(0, s.find('?'))` when there is one (stream.cpp 254-256). -/
def cutQuery (s : Bytes) : Bytes :=
  match findChar 0x3F s with
  | none => s
  | some n => s.take n

/-- `Util::sanitizeName` (stream.cpp 247-270). The part before the first '+' or space contains neither, so the
recursive call runs the loop. -/
def sanitizeName (s : Bytes) : Bytes :=
  match s.findIdx? (fun c => c == 0x2B || c == 0x20) with
  | none => sanitizeLoop s.reverse []
  | some i => sanitizeLoop (s.take i).reverse [] ++ [0x2B] ++ cutQuery (s.drop (i + 1))

end Verif.Text
