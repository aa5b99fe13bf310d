import Verif.Select.Model

/-!
# Model of the choice of tracks

`Util::checkException`, `Util::getSupportedTracks`, `Util::wouldSelect` and `Util::sortTracks` (`/repo/lib/stream.cpp` 1025-1063,
1418-1512, 1514-1786 and 1789-1848).

Simplifications: the metadata is the list of its tracks in the order of their numbers, with the set of those that are valid and not
empty (`M.getValidTracks(true)`) beside it. The capabilities of an output are a record of the members these functions read, instead of
JSON; members of unexpected JSON types are not modelled. Sets of tracks are lists without regard to order and repetition, except where
the code depends on their order, which is the one of the metadata.
-/
namespace Verif.Choose
open Verif.Select (Track Sel find ofTracks has sAudio sVideo sMinus sNone)

/-- An entry of an exception: `["whitelist", [...]]`, or `["whitelist"]` without a list. -/
structure Entry where
  kind : Bytes
  values : Option (List Bytes)

/-- The capabilities of an output, as far as they matter here; `nobframes` is set if one of its methods has it. -/
structure Capa where
  codecs : Option (List (List (List Bytes)))
  exceptions : List (Bytes × List Entry)
  encryption : List Bytes
  maxdelay : Option Nat
  nobframes : Bool

/-- "whitelist". -/
def sWhite : Bytes := [119, 104, 105, 116, 101, 108, 105, 115, 116]
/-- "whitelist_except". -/
def sWhiteExcept : Bytes := [119, 104, 105, 116, 101, 108, 105, 115, 116, 95, 101, 120, 99, 101, 112, 116]
/-- "blacklist_except". -/
def sBlackExcept : Bytes := [98, 108, 97, 99, 107, 108, 105, 115, 116, 95, 101, 120, 99, 101, 112, 116]
/-- "codec:". -/
def sCodec : Bytes := [99, 111, 100, 101, 99, 58]
/-- "subtitle". -/
def sSubtitle : Bytes := [115, 117, 98, 116, 105, 116, 108, 101]
/-- "meta". -/
def sMeta : Bytes := [109, 101, 116, 97]

/-- stream.cpp 1031-1060: one entry of an exception. -/
def entry (ua : Bytes) (ret : Bool) (e : Entry) : Bool :=
  let setTo := decide (e.kind = sWhite) || decide (e.kind = sWhiteExcept)
  let except := decide (e.kind = sWhiteExcept) || decide (e.kind = sBlackExcept)
  match e.values with
  | none => setTo
  | some vs => if except ≠ vs.any (fun v => has v ua) then setTo else ret

/-- stream.cpp 1025-1063: `checkException`. -/
def checkException (ex : List Entry) (ua : Bytes) : Bool :=
  if ua = [] then true else ex.foldl (entry ua) true

/-- A text of the codecs of an output without the marks: by type, several, name (stream.cpp 1437-1446 and others). -/
def parse (s : Bytes) : Bool × Bool × Bytes :=
  if s.head? = some 64 then
    if s.tail.head? = some 43 then (true, true, s.tail.tail) else (true, false, s.tail)
  else if s.head? = some 43 then (false, true, s.tail)
  else (false, false, s)

/-- stream.cpp 1447-1448 and others: the text takes the track. -/
def takes (s : Bytes) (t : Track) : Bool :=
  let p := parse s
  (!p.1 && decide (t.codec = p.2.2)) || (p.1 && decide (t.type = p.2.2)) || decide (p.2.2 = [42])

/-- stream.cpp 1449-1458 and others: the user agent has problems with this codec. -/
def refused (c : Capa) (ua name : Bytes) : Bool :=
  match c.exceptions.lookup (sCodec ++ name) with
  | none => false
  | some ex => !checkException ex ua

/-- stream.cpp 1436-1463: a group of texts (the innermost loop). -/
def inGroup (c : Capa) (ua : Bytes) (t : Track) : List Bytes → Bool
  | [] => false
  | s :: l => if takes s t then !refused c ua (parse s).2.2 else inGroup c ua t l

/-- stream.cpp 1430-1473: support of the codec. -/
def codecOk (c : Capa) (ua : Bytes) (t : Track) : Bool :=
  match c.codecs with
  | none => true
  | some cs => cs.any fun k => k.any fun g => inGroup c ua t g

/-- stream.cpp 1424-1473: not removed before the encryption is looked at. -/
def kept (c : Capa) (ua ty : Bytes) (t : Track) : Bool := (decide (ty = []) || decide (t.type = ty)) && codecOk c ua t

/-- stream.cpp 1474-1489: support of the encryption. -/
def encOk (c : Capa) (t : Track) : Bool :=
  decide (t.encryption = []) || c.encryption.contains (t.encryption.takeWhile (· != 47))

/-- stream.cpp 1490-1494: the highest last time. -/
def newest (c : Capa) (ua ty : Bytes) (l : List Track) : Nat := (l.filter (kept c ua ty)).foldl (fun a t => if t.lastms > a then t.lastms else a) 0

/-- stream.cpp 1499-1510: not further behind than `maxdelay`. -/
def delayOk (c : Capa) (n : Nat) (t : Track) : Bool :=
  match c.maxdelay with
  | none => true
  | some d => !decide (t.lastms < n - (if d > n then n else d))

/-- stream.cpp 1418-1512: `getSupportedTracks`. -/
def supported (c : Capa) (ua ty : Bytes) (l : List Track) : List Track :=
  l.filter fun t => kept c ua ty t && encOk c t && delayOk c (newest c ua ty l) t

/-- The parameters of a viewer; nothing if not given. -/
structure Params where
  audio : Bytes
  video : Bytes
  subtitle : Bytes
  metadata : Bytes

/-- stream.cpp 1403-1408 and 1520-1544: what is found for one type. -/
def found (m : List Track) (choice : List Track) (ty v : Bytes) : Sel :=
  if v = [] then fun _ => false
  else if v = sMinus ∨ v = sNone then fun _ => false
  else find m (ofTracks choice) ty v

/-- stream.cpp 1516-1545: what is asked for. -/
def asked (m choice : List Track) (p : Params) : Sel := fun i =>
  found m choice sAudio p.audio i || found m choice sVideo p.video i || found m choice sSubtitle p.subtitle i || found m choice sMeta p.metadata i

/-- stream.cpp 1593-1596 and 1753-1761: no automatic choice for this type. -/
def blocked (p : Params) (t : Track) : Bool :=
  (decide (p.audio ≠ []) && decide (t.type = sAudio)) || (decide (p.video ≠ []) && decide (t.type = sVideo)) ||
  (decide (p.metadata ≠ []) && decide (t.type = sMeta)) ||
  (decide (p.subtitle ≠ []) && (decide (t.type = sSubtitle) || decide (t.codec = sSubtitle)))

/-- stream.cpp 1622-1641 and 1642-1660: how many tracks of a list a text counts for. -/
def count (c : Capa) (ua : Bytes) (l : List Track) (s : Bytes) : Nat :=
  if refused c ua (parse s).2.2 then 0
  else if (parse s).2.1 then (l.filter (takes s)).length
  else min 1 (l.filter (takes s)).length

/-- stream.cpp 1604-1663: a count for a combination. -/
def total (c : Capa) (ua : Bytes) (l : List Track) (k : List (List Bytes)) : Nat := (k.flatten.map (count c ua l)).sum

/-- stream.cpp 1563-1676: the best combination; the state is (`bestSoFar`, `bestSoFarCount`, `bestSoFarCountExtra`). -/
def best (c : Capa) (ua : Bytes) (res valid : List Track) : List (List (List Bytes)) → Nat → Nat × Nat × Nat → Nat
  | [], _, st => st.1
  | k :: ks, i, st =>
    let sel := total c ua res k
    let extra := total c ua res k + total c ua valid k
    if k ≠ [] ∧ sel = res.length ∧ (sel > st.2.1 ∨ (sel = st.2.1 ∧ extra > st.2.2)) then best c ua res valid ks (i + 1) (i, sel, extra)
    else best c ua res valid ks (i + 1) st

/-- stream.cpp 1735-1768: the tracks for one text, in the order of the list, and whether there was one. -/
def fillOne (c : Capa) (ua : Bytes) (p : Params) (s : Bytes) : List Track → List Track × Bool → List Track × Bool
  | [], st => st
  | t :: ts, st =>
    if takes s t then
      if refused c ua (parse s).2.2 || (c.nobframes && t.bframes) then st
      else if blocked p t then fillOne c ua p s ts st
      else if (parse s).2.1 then fillOne c ua p s ts (st.1 ++ [t], true)
      else (st.1 ++ [t], true)
    else fillOne c ua p s ts st

/-- stream.cpp 1720-1770: the texts of a group. -/
def fillTexts (c : Capa) (ua : Bytes) (p : Params) (srt : List Track) : List Bytes → List Track × Bool → List Track × Bool
  | [], st => st
  | s :: l, st =>
    if st.2 && !(parse s).2.1 then fillTexts c ua p srt l st else fillTexts c ua p srt l (fillOne c ua p s srt st)

/-- stream.cpp 1687-1719: there is already a track for the group. -/
def has1 (c : Capa) (ua : Bytes) (res : List Track) (g : List Bytes) : Bool :=
  g.any fun s => !refused c ua (parse s).2.2 && res.any (takes s)

/-- stream.cpp 1685-1772: one group. -/
def fillGroup (c : Capa) (ua : Bytes) (p : Params) (srt : List Track) (res : List Track) (g : List Bytes) : List Track :=
  if !has1 c ua res g || g.any (fun s => (parse s).2.1) then (fillTexts c ua p srt g (res, has1 c ua res g)).1 else res

/-- The orders of tracks. -/
inductive Order where
  | numbers
  | numbersDown
  | rates
  | ratesDown
  | areas (fps : Track → Nat)
  | areasDown (fps : Track → Nat)

/-- stream.cpp 1804-1843: one track goes before another that is already in the list. -/
def before : Order → Track → Track → Bool
  | .numbers, _, _ => false
  | .numbersDown, _, _ => true
  | .rates, t, u => decide (t.bps ≤ u.bps)
  | .ratesDown, t, u => decide (t.bps ≥ u.bps)
  | .areas fps, t, u => decide (t.area < u.area) || decide (fps t < fps u)
  | .areasDown fps, t, u => decide (t.area > u.area) || decide (fps t > fps u)

/-- stream.cpp 1799-1846: insertion into the list. -/
def insert (o : Order) (t : Track) : List Track → List Track
  | [] => [t]
  | u :: l => if before o t u then t :: u :: l else u :: insert o t l

/-- stream.cpp 1789-1848: `sortTracks` (the default order is one of the first two). -/
def sortTracks (o : Order) (l : List Track) : List Track := l.foldl (fun r t => insert o t r) []

/-- stream.cpp 1514-1786: `wouldSelect`; `l` are the valid tracks of `m`. -/
def wouldSelect (m l : List Track) (capa : Option Capa) (ua : Bytes) (p : Params) (o : Order) : List Track :=
  match capa with
  | none => l.filter (fun t => asked m l p t.index) ++ l.filter (fun t => !blocked p t)
  | some c =>
    let valid := supported c [] [] l
    let res := valid.filter fun t => asked m (supported c ua [] l) p t.index
    match c.codecs with
    | none => res ++ valid.filter fun t => !(refused c ua t.codec || (c.nobframes && t.bframes)) && !blocked p t
    | some cs => ((cs[best c ua res valid cs 0 (0, 0, 0)]?).getD []).foldl (fillGroup c ua p (sortTracks o valid)) res

end Verif.Choose
