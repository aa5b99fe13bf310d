import Verif.Http.Model
import Verif.Select.Codes

/-!
# Model of track selectors

`Util::pickTracks` and `Util::findTracks` (`/repo/lib/stream.cpp` 1087-1408) and `Util::parseResolutionString` (`/repo/lib/util.cpp`
1476-1527).

Simplifications: the metadata is the list of its tracks in the order of their numbers; a `std::set` of track numbers is a function. The
texts of the selectors contain no zero byte. The order of the `if`s of `pickTracks` is kept; what a text asks for (`rule`) and what it
gives (`apply`) are separate functions.
-/
namespace Verif.Select
open Verif.Http (atoll decimal digits lower space)

/-- A track in the metadata. -/
structure Track where
  index : Nat
  id : Nat
  type : Bytes
  codec : Bytes
  lang : Bytes
  bps : Nat
  width : Nat
  height : Nat
  channels : Nat
  bframes : Bool
  encryption : Bytes
  lastms : Nat
  empty : Bool

/-- A set of track numbers. -/
abbrev Sel := Nat → Bool

/-- C library: the digits at the start. -/
def digitsOf (s : Bytes) : Bytes := s.takeWhile fun c => 48 ≤ c && c ≤ 57

/-- C library, `sscanf` with `%u`: the number and what follows it (`strtoul`, cut to 32 bits). -/
def scanU (s : Bytes) : Option (Nat × Bytes) :=
  match s.dropWhile space with
  | 45 :: r => if digitsOf r = [] then none
    else some (if digits r ≥ 2 ^ 64 then 2 ^ 32 - 1 else (2 ^ 64 - digits r) % 2 ^ 32, r.drop (digitsOf r).length)
  | 43 :: r => if digitsOf r = [] then none
    else some (if digits r ≥ 2 ^ 64 then 2 ^ 32 - 1 else digits r % 2 ^ 32, r.drop (digitsOf r).length)
  | r => if digitsOf r = [] then none
    else some (if digits r ≥ 2 ^ 64 then 2 ^ 32 - 1 else digits r % 2 ^ 32, r.drop (digitsOf r).length)

/-- C library, `sscanf` with `…%u…`: the number behind a text. What follows in the format does not change the result. -/
def scan1 (pre s : Bytes) : Option Nat :=
  if pre.isPrefixOf s then (scanU (s.drop pre.length)).map (·.1) else none

/-- C library, `sscanf` with `…%ux%u`. -/
def scan2 (pre s : Bytes) : Option (Nat × Nat) :=
  if pre.isPrefixOf s then
    match scanU (s.drop pre.length) with
    | none => none
    | some (a, r) =>
      if r.head? = some 120 then (scanU r.tail).map fun b => (a, b.1) else none
  else none

/-- `find(...) != npos`. -/
def has (pat s : Bytes) : Bool := (findSub pat s).isSome

def bps : Bytes := [98, 112, 115]
def kbps : Bytes := [107, 98, 112, 115]
def mbps : Bytes := [109, 98, 112, 115]

/-- stream.cpp 1199-1204, 1244-1246 and 1278-1280: a bit rate with its unit, 0 if there is none. All the lines read the number in the
same way and later ones win; the product has 32 bits. -/
def rate (pre w : Bytes) : Nat :=
  match scan1 pre w with
  | none => 0
  | some v =>
    if has mbps w then v * 1024 * 1024 % 2 ^ 32
    else if has kbps w then v * 1024 % 2 ^ 32
    else if has bps w then v
    else 0

/-- util.cpp 1476-1527: `parseResolutionString`. -/
def resolution (w : Bytes) : Option (Nat × Nat) :=
  if w = [] then none
  else
    let last := w.getLast?
    if last = some 80 ∨ last = some 112 then
      if w.length = 4 ∧ w.take 3 = [55, 50, 48] then some (1280, 720)
      else if w.length = 5 ∧ w.take 4 = [49, 48, 56, 48] then some (1920, 1080)
      else if w.length = 5 ∧ w.take 4 = [49, 52, 52, 48] then some (2560, 1440)
      else none
    else if (last = some 75 ∨ last = some 107) ∧ w.length = 2 then
      if w.head? = some 50 then some (2048, 1080)
      else if w.head? = some 52 then some (3840, 2160)
      else if w.head? = some 53 then some (5120, 2880)
      else if w.head? = some 56 then some (7680, 4320)
      else none
    else scan2 [] w

/-- What a selector asks for. -/
inductive Rule where
  | id (n : Int)
  | all
  | maxBps
  | minBps
  | bpsUnder (n : Nat)
  | bpsOver (n : Nat)
  | areaUnder (n : Nat)
  | areaOver (n : Nat)
  | bpsUpTo (n : Nat)
  | bpsNear (n : Nat)
  | surround
  | channels (n : Nat)
  | bframes
  | maxRes
  | minRes
  | resNear (n : Nat)
  | name (w : Bytes)
  deriving DecidableEq

def sAll : Bytes := [97, 108, 108]
def sStar : Bytes := [42]
def sMaxBps : List Bytes := [[104, 105, 103, 104, 98, 112, 115], [98, 101, 115, 116, 98, 112, 115], [109, 97, 120, 98, 112, 115]]
def sMinBps : List Bytes := [[108, 111, 119, 98, 112, 115], [119, 111, 114, 115, 116, 98, 112, 115], [109, 105, 110, 98, 112, 115]]
def sMaxRes : List Bytes := [[104, 105, 103, 104, 114, 101, 115], [98, 101, 115, 116, 114, 101, 115], [109, 97, 120, 114, 101, 115]]
def sMinRes : List Bytes := [[108, 111, 119, 114, 101, 115], [119, 111, 114, 115, 116, 114, 101, 115], [109, 105, 110, 114, 101, 115]]
def sSurround : Bytes := [115, 117, 114, 114, 111, 117, 110, 100]
def sMono : Bytes := [109, 111, 110, 111]
def sStereo : Bytes := [115, 116, 101, 114, 101, 111]
def sBframes : Bytes := [98, 102, 114, 97, 109, 101, 115]
def sAudio : Bytes := [97, 117, 100, 105, 111]
def sVideo : Bytes := [118, 105, 100, 101, 111]
def sCh : Bytes := [99, 104]
def sMaxUnder : Bytes := [109, 97, 120, 60]

/-- stream.cpp 1195-1237: a text that starts with '<' or '>'. -/
def compared (w : Bytes) : Option Rule :=
  if w.head? = some 60 then
    if rate [60] w ≠ 0 then some (.bpsUnder (rate [60] w / 8))
    else match scan2 [60] w with
      | some (x, y) => if x * y % 2 ^ 32 ≠ 0 then some (.areaUnder (x * y % 2 ^ 32)) else none
      | none => none
  else if w.head? = some 62 then
    if rate [62] w ≠ 0 then some (.bpsOver (rate [62] w / 8))
    else match scan2 [62] w with
      | some (x, y) => if x * y % 2 ^ 32 ≠ 0 then some (.areaOver (x * y % 2 ^ 32)) else none
      | none => none
  else none

/-- stream.cpp 1240-1273: "max<". -/
def limited (w : Bytes) : Option Rule :=
  if w.length > 7 ∧ w.take 4 = sMaxUnder then
    if rate sMaxUnder w ≠ 0 then some (.bpsUpTo (rate sMaxUnder w / 8)) else none
  else none

/-- stream.cpp 1276-1298: a bit rate. -/
def near (w : Bytes) : Option Rule := if rate [] w ≠ 0 then some (.bpsNear (rate [] w / 8)) else none

/-- stream.cpp 1311-1316: the number of channels, 0 if none is given. -/
def channelsOf (w : Bytes) : Nat :=
  let a := if w = sMono then 1 else 0
  let b := if w = sStereo then 2 else a
  if has sCh w then (scan1 [] w).getD b else b

/-- stream.cpp 1301-1325: what is only for audio. -/
def audioRule (ty w : Bytes) : Option Rule :=
  if ty = [] ∨ ty = sAudio then
    if w = sSurround then some .surround
    else if channelsOf w ≠ 0 then some (.channels (channelsOf w))
    else none
  else none

/-- stream.cpp 1328-1389: what is only for video. -/
def videoRule (ty w : Bytes) : Option Rule :=
  if ty = [] ∨ ty = sVideo then
    if w = sBframes then some .bframes
    else if w ∈ sMaxRes then some .maxRes
    else if w ∈ sMinRes then some .minRes
    else match scan2 [126] w with
      | some (x, y) => some (.resNear (x * y % 2 ^ 32))
      | none => none
  else none

/-- stream.cpp 1139-1378: what a selector in small letters asks for. -/
def rule (ty w : Bytes) : Rule :=
  if w.length ≥ 2 ∧ w.head? = some 105 ∧ digitsOf w.tail ≠ [] then .id (atoll w.tail)
  else if w = sAll ∨ w = sStar then .all
  else if w ∈ sMaxBps then .maxBps
  else if w ∈ sMinBps then .minBps
  else ((compared w).orElse fun _ => (limited w).orElse fun _ => (near w).orElse fun _ => (audioRule ty w).orElse fun _ => videoRule ty w).getD
    (.name (if w.length = 2 then twoToThree w else w))

/-- stream.cpp 1151 and others: the track is of the type asked for. -/
def Track.isA (t : Track) (ty : Bytes) : Bool := decide (ty = []) || decide (t.type = ty) || decide (t.codec = ty)

/-- Product of two `uint32_t`. -/
def Track.area (t : Track) : Nat := t.width * t.height % 2 ^ 32

/-- The tracks of the list that are of the type. -/
def among (m : List Track) (l : Sel) (ty : Bytes) : List Track := m.filter fun t => l t.index && t.isA ty

/-- A set from tracks. -/
def ofTracks (ts : List Track) : Sel := fun i => ts.any fun t => t.index == i

/-- stream.cpp 1158-1171 and others: the loops for the largest value. -/
def largest (f : Track → Nat) : List Track → Option Track → Nat → Option Track
  | [], cur, _ => cur
  | t :: ts, cur, v => if v < f t then largest f ts (some t) (f t) else largest f ts cur v

/-- stream.cpp 1175-1189 and others: the loops for the smallest value. -/
def smallest (f : Track → Nat) : List Track → Option Track → Nat → Option Track
  | [], cur, _ => cur
  | t :: ts, cur, v => if v > f t then smallest f ts (some t) (f t) else smallest f ts cur v

/-- stream.cpp 1250-1271: the loop for "max<"; the state is (`currVal`, `currDist`, `foundUnder`). -/
def highestUpTo (n : Nat) : List Track → Option Track → Nat → Bool → Option Track
  | [], cur, _, _ => cur
  | t :: ts, cur, dist, under =>
    if t.bps ≤ n then
      if !under || decide (dist > n - t.bps) then highestUpTo n ts (some t) (n - t.bps) true
      else highestUpTo n ts cur dist true
    else if !under then
      if cur.isNone || decide (dist > t.bps - n) then highestUpTo n ts (some t) (t.bps - n) under
      else highestUpTo n ts cur dist under
    else highestUpTo n ts cur dist under

/-- stream.cpp 1284-1296 and 1374-1387: the loops for the nearest value. -/
def nearest (f : Track → Nat) (n : Nat) : List Track → Option Track → Nat → Option Track
  | [], cur, _ => cur
  | t :: ts, cur, dist =>
    if cur.isNone || (decide (f t ≥ n) && decide (dist > f t - n)) || (decide (f t < n) && decide (dist > n - f t)) then
      nearest f n ts (some t) (if f t ≥ n then f t - n else n - f t)
    else nearest f n ts cur dist

/-- stream.cpp 1381-1395: the match on language, codec and resolution. -/
def named (ty w : Bytes) (t : Track) : Bool :=
  decide (t.lang = w) || decide (w = t.codec.map lower) ||
    ((decide (ty = []) || decide (ty = sVideo)) && match resolution w with
      | some (x, y) => decide (t.width = x) && decide (t.height = y)
      | none => false)

/-- stream.cpp 1139-1396: what a rule selects. -/
def apply (m : List Track) (l : Sel) (ty : Bytes) : Rule → Sel
  | .id n => ofTracks (m.filter fun t => l t.index && decide ((t.id : Int) = n))
  | .all => ofTracks (among m l ty)
  | .maxBps => ofTracks (largest (·.bps) (among m l ty) none 0).toList
  | .minBps => ofTracks (smallest (·.bps) (among m l ty) none (2 ^ 32 - 1)).toList
  | .bpsUnder n => ofTracks ((among m l ty).filter fun t => decide (t.bps < n))
  | .bpsOver n => ofTracks ((among m l ty).filter fun t => decide (t.bps > n))
  | .areaUnder n => ofTracks ((among m l ty).filter fun t => decide (t.area < n))
  | .areaOver n => ofTracks ((among m l ty).filter fun t => decide (t.area > n))
  | .bpsUpTo n => ofTracks (highestUpTo n (among m l ty) none 0 false).toList
  | .bpsNear n => ofTracks (nearest (·.bps) n (among m l ty) none 0).toList
  | .surround => ofTracks ((among m l ty).filter fun t => decide (t.channels > 2))
  | .channels n => ofTracks ((among m l ty).filter fun t => decide (t.channels = n))
  | .bframes => ofTracks ((among m l ty).filter fun t => t.bframes)
  | .maxRes => ofTracks (largest (·.area) (among m l ty) none 0).toList
  | .minRes => ofTracks (smallest (·.area) (among m l ty) none (2 ^ 32 - 1)).toList
  | .resNear n => ofTracks (nearest (·.area) n (among m l ty) none 0).toList
  | .name w => ofTracks ((among m l ty).filter (named ty w))

/-- A signed number in decimal. -/
def showInt (i : Int) : Bytes := if i < 0 then 45 :: decimal i.natAbs else decimal i.natAbs

/-- "-1". -/
def sMinus : Bytes := [45, 49]
/-- "none". -/
def sNone : Bytes := [110, 111, 110, 101]

/-- stream.cpp 1088-1091 and 1118-1396: `pickTracks` for a text without commas. -/
def pickOne (m : List Track) (l : Sel) (ty v : Bytes) : Sel :=
  if v = [] then fun _ => false
  else if v = sMinus ∨ v = sNone then fun _ => false
  else if v = showInt (atoll v) then ofTracks (m.filter fun t => decide ((t.index : Int) = atoll v) && t.isA ty)
  else apply m l ty (rule ty (v.map lower))

/-- `std::getline` with ',' until the end. (An empty item at the end is not read there; it has no effect.) -/
def items : Bytes → List Bytes
  | [] => [[]]
  | c :: r =>
    if c = 44 then [] :: items r
    else match items r with
      | [] => [[c]]
      | a :: l => (c :: a) :: l

/-- stream.cpp 1098-1113: one item of a list. -/
def item (m : List Track) (l : Sel) (ty : Bytes) (res : Sel) (it : Bytes) : Sel :=
  if it.head? = some 124 then pickOne m res ty it.tail
  else if it.head? = some 33 then fun i => res i && !pickOne m res ty it.tail i
  else fun i => res i || pickOne m l ty it i

/-- stream.cpp 1088-1396: `pickTracks`. -/
def pick (m : List Track) (l : Sel) (ty v : Bytes) : Sel :=
  if v = sMinus ∨ v = sNone then fun _ => false
  else if 44 ∈ v then (items v).foldl (item m l ty) (fun _ => false)
  else pickOne m l ty v

/-- stream.cpp 1403-1408: `findTracks` with the tracks that are allowed. -/
def find (m : List Track) (valid : Sel) (ty v : Bytes) : Sel :=
  if v.head? = some 33 then pick m valid ty (sAll ++ [44] ++ v) else pick m valid ty v

end Verif.Select
