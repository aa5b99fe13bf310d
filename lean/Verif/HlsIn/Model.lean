import Verif.Base.Bytes
import Verif.Subs.Model

/-!
# Reading HLS playlists

`src/input/input_hls.cpp`: `Playlist::reload`, `Playlist::addEntry` and `InputHLS::parseLivePoint`, for one playlist.

Simplifications: the text of the duration is kept and not turned into a number; times (`PROGRAM-DATE-TIME`, time stamps of
entries, waiting), `MAP` and the type of the playlist are left out. Downloads of keys and the resolution of relative
addresses are functions of the environment. `Subs.linesOf` is `std::getline`, `Subs.atoi` is `atoll` before the result is
stored.
-/

namespace Verif.HlsIn
open Verif

/-- The outside: what the download of a key gives (nothing if it fails) and the address meant by one in the playlist. -/
structure Env where
  /-- download of a key -/
  fetch : Bytes → Bytes
  /-- `root.link(..).getUrl()` -/
  link : Bytes → Bytes

/-- `playListEntries` (input_hls.h 18-45), without times and map. -/
structure Entry where
  /-- `bytePos` -/
  num : Nat
  /-- `filename` -/
  url : Bytes
  /-- `relative_filename` -/
  rel : Bytes
  /-- the text of `duration`, empty for none -/
  dur : Bytes
  /-- `startAtByte` -/
  start : Nat
  /-- `stopAtByte` -/
  stop : Nat
  /-- `keyAES` and `ivec`, none if all zero -/
  key : Option (Bytes × Bytes)
deriving DecidableEq

/-- `Playlist` (input_hls.h 63-97) and its `listEntries`. -/
structure Pls where
  /-- `lastSegment` -/
  last : Nat
  /-- `firstIndex` -/
  first : Nat
  /-- `keys` -/
  keys : List (Bytes × Bytes)
  /-- `listEntries[id]` -/
  entries : List Entry
deriving DecidableEq

/-- The variables of `reload` (input_hls.cpp 230-239). -/
structure Loc where
  /-- `bposCounter` -/
  ctr : Nat
  /-- `segDur` -/
  dur : Bytes
  /-- `startByte`, none for `npos` -/
  start : Option Nat
  /-- `lenByte` -/
  len : Nat
  /-- `keyUri` -/
  uri : Bytes
  /-- `keyIV` -/
  iv : Bytes

/-- `cleanLine` (input_hls.cpp 183-185). -/
def cleanLine (s : Bytes) : Bytes := if s.getLast? = some 0x0D then s.dropLast else s

/-- `std::string::find` of a text: the first place. -/
def findSub (pat : Bytes) : Bytes → Option Nat
  | [] => if pat.isPrefixOf [] then some 0 else none
  | c :: t => if pat.isPrefixOf (c :: t) then some 0 else (findSub pat t).map (· + 1)

/-- A number stored in 64 bits. -/
def u64 (v : Int) : Nat := (v % 18446744073709551616).toNat

/-- `atoll` stored in an unsigned variable. -/
def atoll (s : Bytes) : Nat := u64 (Subs.atoi s)

/-- One digit as `parseKey` reads it (input_hls.cpp 223). -/
def nib (c : UInt8) : Nat := c.toNat % 16 + (if c.toNat / 64 % 2 = 1 then 9 else 0)

/-- `parseKey` (input_hls.cpp 219-225). -/
def parseKey : Nat → Bytes → Bytes
  | 0, _ => []
  | n + 1, a :: b :: r => UInt8.ofNat ((nib a * 16) ||| nib b) :: parseKey n r
  | n + 1, [a] => UInt8.ofNat (nib a * 16) :: List.replicate n 0
  | n + 1, [] => List.replicate (n + 1) 0

/-- "METHOD=" -/
def tMethod : Bytes := [0x4D, 0x45, 0x54, 0x48, 0x4F, 0x44, 0x3D]
/-- `URI="` -/
def tUri : Bytes := [0x55, 0x52, 0x49, 0x3D, 0x22]
/-- "IV=" -/
def tIv : Bytes := [0x49, 0x56, 0x3D]
/-- "#EXTINF" -/
def tInf : Bytes := [0x23, 0x45, 0x58, 0x54, 0x49, 0x4E, 0x46]
/-- "#EXT-X-" -/
def tExt : Bytes := [0x23, 0x45, 0x58, 0x54, 0x2D, 0x58, 0x2D]
/-- "KEY" -/
def nKey : Bytes := [0x4B, 0x45, 0x59]
/-- "BYTERANGE" -/
def nRange : Bytes := [0x42, 0x59, 0x54, 0x45, 0x52, 0x41, 0x4E, 0x47, 0x45]
/-- "MEDIA-SEQUENCE" -/
def nSeq : Bytes := [0x4D, 0x45, 0x44, 0x49, 0x41, 0x2D, 0x53, 0x45, 0x51, 0x55, 0x45, 0x4E, 0x43, 0x45]

/-- The address in a `KEY` line (input_hls.cpp 285-287): without one, `npos + 5` is 4. -/
def keyUri (val : Bytes) : Bytes := (val.drop ((findSub tUri val).elim 4 (· + 5))).takeWhile (· != 0x22)

/-- The vector in a `KEY` line (input_hls.cpp 289-290); without one the last stays.  The outer `none` is an exception of
`substr`, which ends the process. -/
def keyIv (val old : Bytes) : Option Bytes :=
  match findSub tIv val with
  | none => some old
  | some i => if val.length < i + 5 then none else some ((val.drop (i + 5)).take 32)

/-- Storing a downloaded key (input_hls.cpp 293-308). -/
def addKey (e : Env) (keys : List (Bytes × Bytes)) (uri : Bytes) : List (Bytes × Bytes) :=
  if (keys.lookup uri).isSome then keys else if e.fetch uri = [] then keys else (uri, e.fetch uri) :: keys

/-- A `KEY` line (input_hls.cpp 280-310); `none` is an exception of `substr`. -/
def keyLine (e : Env) (p : Pls) (l : Loc) (val : Bytes) : Option (Pls × Loc) :=
  if (findSub tMethod val).isNone then none
  else (keyIv val l.iv).map fun iv =>
    ({ p with keys := addKey e p.keys (keyUri val) }, { l with uri := keyUri val, iv := iv })

/-- A `BYTERANGE` line (input_hls.cpp 312-323). -/
def rangeLine (l : Loc) (val : Bytes) : Loc :=
  if val.contains 0x40 then
    { l with len := atoll (val.takeWhile (· != 0x40)), start := some (atoll ((val.dropWhile (· != 0x40)).drop 1)) }
  else { l with len := atoll val }

/-- The place of the range in the file (input_hls.cpp 483-493). -/
def rangeStart (entries : List Entry) (rel : Bytes) (start : Option Nat) (len : Nat) : Option Nat :=
  match start, entries.getLast? with
  | some s, _ => some s
  | none, some prev => if len ≠ 0 ∧ rel = prev.rel then some prev.stop else none
  | none, none => if len ≠ 0 then some 0 else none

/-- The bytes of the file to read (input_hls.cpp 494-502): both 0 for all. -/
def range (start : Option Nat) (len : Nat) : Nat × Nat :=
  match start with
  | none => (0, 0)
  | some s => if len = 0 then (0, 0) else (s, s + len)

/-- Key and vector of an entry (input_hls.cpp 505-511). -/
def keyOf (key iv : Bytes) : Option (Bytes × Bytes) := if key = [] ∨ iv = [] then none else some (key.take 16, iv)

/-- `addEntry` (input_hls.cpp 456-532), without times. -/
def addEntry (p : Pls) (e : Entry) : Pls := { p with entries := p.entries ++ [e], last := e.num }

/-- `keys[keyUri]` (input_hls.cpp 438): a key that is not there is made, empty. -/
def touchKey (keys : List (Bytes × Bytes)) (uri : Bytes) : List (Bytes × Bytes) :=
  if (keys.lookup uri).isSome then keys else (uri, []) :: keys

/-- The vector of a segment (input_hls.cpp 431-437). -/
def segIv (l : Loc) : Bytes := if l.iv ≠ [] then parseKey 16 l.iv else List.replicate 8 0 ++ beEnc 8 l.ctr

/-- The entry of a segment (input_hls.cpp 438, 456-532). -/
def entryOf (e : Env) (p : Pls) (l : Loc) (line : Bytes) : Entry :=
  { num := l.ctr, url := e.link line, rel := line, dur := l.dur,
    start := (range (rangeStart p.entries line l.start l.len) l.len).1,
    stop := (range (rangeStart p.entries line l.start l.len) l.len).2,
    key := keyOf ((p.keys.lookup l.uri).getD []) (segIv l) }

/-- A line with the address of a segment (input_hls.cpp 427-447). -/
def segLine (e : Env) (p : Pls) (l : Loc) (line : Bytes) : Pls × Loc :=
  (if l.ctr > p.last then addEntry { p with keys := touchKey p.keys l.uri } (entryOf e p l line) else p,
   { l with ctr := l.ctr + 1, dur := [], start := none, len := 0 })

/-- The name of a tag and its value (input_hls.cpp 276-278): without a colon the value is the line. -/
def tagName (line : Bytes) : Bytes := (line.drop 7).takeWhile (· != 0x3A)
/-- The value of a tag (input_hls.cpp 278). -/
def tagVal (line : Bytes) : Bytes := if line.contains 0x3A then (line.dropWhile (· != 0x3A)).drop 1 else line

/-- A tag (input_hls.cpp 275-421). -/
def tagLine (e : Env) (p : Pls) (l : Loc) (line : Bytes) : Option (Pls × Loc) :=
  if tagName line = nKey then keyLine e p l (tagVal line)
  else if tagName line = nRange then some (p, rangeLine l (tagVal line))
  else if tagName line = nSeq then
    some ({ p with first := atoll (tagVal line) }, { l with ctr := atoll (tagVal line) + 1 })
  else some (p, l)

/-- A line (input_hls.cpp 265-447). -/
def line (e : Env) (p : Pls) (l : Loc) (s : Bytes) : Option (Pls × Loc) :=
  if cleanLine s = [] then some (p, l)
  else if (cleanLine s).take 7 = tInf then some (p, { l with dur := (cleanLine s).drop 8 })
  else if (cleanLine s).take 7 = tExt then tagLine e p l (cleanLine s)
  else if (cleanLine s).head? = some 0x23 then some (p, l)
  else some (segLine e p l (cleanLine s))

/-- The lines of a playlist. -/
def lines (e : Env) : Pls × Loc → List Bytes → Option (Pls × Loc)
  | s, [] => some s
  | s, x :: t => (line e s.1 s.2 x).bind fun s' => lines e s' t

/-- The variables at the start (input_hls.cpp 230-239). -/
def Loc.fresh : Loc := { ctr := 1, dur := [], start := none, len := 0, uri := [], iv := [] }

/-- `Playlist::reload` (input_hls.cpp 229-454) with the text that was downloaded; the first line is not looked at. -/
def reload (e : Env) (p : Pls) (text : Bytes) : Option Pls :=
  if text = [] then some p else (lines e (p, .fresh) ((Subs.linesOf text).drop 1)).map (·.1)

/-- A new playlist (input_hls.cpp 187-214). -/
def Pls.fresh : Pls := { last := 0, first := 0, keys := [], entries := [] }

/-- The input: the playlist, `parsedSegments` of it and the entries that were handed over so far. -/
structure In where
  /-- the playlist -/
  pls : Pls
  /-- `parsedSegments` -/
  parsed : Nat
  /-- entries parsed successfully, in order -/
  handed : List Entry

/-- Removal of what is no longer listed (input_hls.cpp 1005-1008). -/
def expire (p : Pls) : List Entry := p.entries.dropWhile (fun x => x.num < p.first + 1)

/-- The loop over new entries (input_hls.cpp 1040-1045): `ok` tells what `parseSegmentAsLive` returns, `n` how many are
tried before the time is over. `base` is the number of the first entry and `i` the index of the next. -/
def hand (ok : Entry → Bool) (base : Nat) : Nat → Nat → List Entry → Nat × List Entry → Nat × List Entry
  | 0, _, _, s => s
  | _ + 1, _, [], s => s
  | n + 1, i, x :: t, s => hand ok base n (i + 1) t (if ok x then (base + i, s.2 ++ [x]) else s)

/-- `parseLivePoint` (input_hls.cpp 991-1047); `none` is a read of an empty list or the end of the input because the
numbers went down. -/
def parse (ok : Entry → Bool) (n : Nat) (s : In) : Option In :=
  if s.pls.entries = [] then some s
  else match (expire s.pls).head?, (expire s.pls).getLast? with
    | some f, some b =>
      if max s.parsed (f.num - 1) > b.num then none
      else
        let i := 1 + max s.parsed (f.num - 1) - f.num
        let r := hand ok f.num n i ((expire s.pls).drop i) (max s.parsed (f.num - 1), s.handed)
        some { pls := { s.pls with entries := expire s.pls }, parsed := r.1, handed := r.2 }
    | _, _ => none

/-- What happens: the playlist is loaded again, or new segments are read. -/
inductive Op where
  | reload (text : Bytes)
  | parse (ok : Entry → Bool) (n : Nat)

/-- One step. -/
def step (e : Env) (s : In) : Op → Option In
  | .reload text => (reload e s.pls text).map fun p => { s with pls := p }
  | .parse ok n => parse ok n s

/-- A history. -/
def run (e : Env) : In → List Op → Option In
  | s, [] => some s
  | s, o :: t => (step e s o).bind fun s' => run e s' t

/-- The start. -/
def In.fresh : In := { pls := .fresh, parsed := 0, handed := [] }

end Verif.HlsIn
