import Verif.Dtsc.Packet
import Verif.Index.Model

/-!
# Model of sending and loading a stream's header (`/repo/lib/dtsc.cpp`: `getSendLen`, `send`, `reInit`, `addTrackFrom`)

A stream's metadata is what these functions read of it: the settings of the stream and, for every track, its fields and its
three tables. The text that names a track (`getTrackIdentifier`, dtsc.cpp 3008-3027) is a function of the track's fields
and its number that is passed in. Texts are what the getters return, that is, without the zero byte at their end.
-/
namespace Verif.Dtsc
open Verif.Bit
open Verif.Json (R JVal sub)
open Verif.Index (Tab Part Key Frag)

namespace Names
/-- "vod" -/
def vod : Bytes := [118, 111, 100]
/-- "live" -/
def live : Bytes := [108, 105, 118, 101]
/-- "version" -/
def version : Bytes := [118, 101, 114, 115, 105, 111, 110]
/-- "unixzero" -/
def unixzero : Bytes := [117, 110, 105, 120, 122, 101, 114, 111]
/-- "inputLocalVars" -/
def inputLocalVars : Bytes := [105, 110, 112, 117, 116, 76, 111, 99, 97, 108, 86, 97, 114, 115]
/-- "tracks" -/
def tracks : Bytes := [116, 114, 97, 99, 107, 115]
/-- "fragments" -/
def fragments : Bytes := [102, 114, 97, 103, 109, 101, 110, 116, 115]
/-- "keys" -/
def keys : Bytes := [107, 101, 121, 115]
/-- "keysizes" -/
def keysizes : Bytes := [107, 101, 121, 115, 105, 122, 101, 115]
/-- "parts" -/
def parts : Bytes := [112, 97, 114, 116, 115]
/-- "trackid" -/
def trackid : Bytes := [116, 114, 97, 99, 107, 105, 100]
/-- "missed_frags" -/
def missed_frags : Bytes := [109, 105, 115, 115, 101, 100, 95, 102, 114, 97, 103, 115]
/-- "firstms" -/
def firstms : Bytes := [102, 105, 114, 115, 116, 109, 115]
/-- "lastms" -/
def lastms : Bytes := [108, 97, 115, 116, 109, 115]
/-- "bps" -/
def bps : Bytes := [98, 112, 115]
/-- "maxbps" -/
def maxbps : Bytes := [109, 97, 120, 98, 112, 115]
/-- "init" -/
def init_ : Bytes := [105, 110, 105, 116]
/-- "codec" -/
def codec : Bytes := [99, 111, 100, 101, 99]
/-- "lang" -/
def lang : Bytes := [108, 97, 110, 103]
/-- "type" -/
def type_ : Bytes := [116, 121, 112, 101]
/-- "rate" -/
def rate : Bytes := [114, 97, 116, 101]
/-- "size" -/
def size : Bytes := [115, 105, 122, 101]
/-- "channels" -/
def channels : Bytes := [99, 104, 97, 110, 110, 101, 108, 115]
/-- "width" -/
def width : Bytes := [119, 105, 100, 116, 104]
/-- "height" -/
def height : Bytes := [104, 101, 105, 103, 104, 116]
/-- "fpks" -/
def fpks : Bytes := [102, 112, 107, 115]
/-- "efpks" -/
def efpks : Bytes := [101, 102, 112, 107, 115]
/-- "audio" -/
def audio : Bytes := [97, 117, 100, 105, 111]
/-- "video" -/
def video : Bytes := [118, 105, 100, 101, 111]
/-- "und" -/
def und : Bytes := [117, 110, 100]
end Names

/-! The bytes in front of the value of a member: its name with the length, and the type. -/
namespace Lit
/-- "\000\003vod\001" -/
def vod : Bytes := [0, 3, 118, 111, 100, 1]
/-- "\000\004live\001" -/
def live : Bytes := [0, 4, 108, 105, 118, 101, 1]
/-- "\000\007version\001" -/
def version : Bytes := [0, 7, 118, 101, 114, 115, 105, 111, 110, 1]
/-- "\000\010unixzero\001" -/
def unixzero : Bytes := [0, 8, 117, 110, 105, 120, 122, 101, 114, 111, 1]
/-- "\000\016inputLocalVars\002" -/
def inputLocalVars : Bytes := [0, 14, 105, 110, 112, 117, 116, 76, 111, 99, 97, 108, 86, 97, 114, 115, 2]
/-- "\000\006tracks\340" -/
def tracks : Bytes := [0, 6, 116, 114, 97, 99, 107, 115, 224]
/-- "\000\011fragments\002" -/
def fragments : Bytes := [0, 9, 102, 114, 97, 103, 109, 101, 110, 116, 115, 2]
/-- "\000\004keys\002" -/
def keys : Bytes := [0, 4, 107, 101, 121, 115, 2]
/-- "\000\010keysizes\002" -/
def keysizes : Bytes := [0, 8, 107, 101, 121, 115, 105, 122, 101, 115, 2]
/-- "\000\005parts\002" -/
def parts : Bytes := [0, 5, 112, 97, 114, 116, 115, 2]
/-- "\000\007trackid\001" -/
def trackid : Bytes := [0, 7, 116, 114, 97, 99, 107, 105, 100, 1]
/-- "\000\014missed_frags\001" -/
def missed_frags : Bytes := [0, 12, 109, 105, 115, 115, 101, 100, 95, 102, 114, 97, 103, 115, 1]
/-- "\000\007firstms\001" -/
def firstms : Bytes := [0, 7, 102, 105, 114, 115, 116, 109, 115, 1]
/-- "\000\006lastms\001" -/
def lastms : Bytes := [0, 6, 108, 97, 115, 116, 109, 115, 1]
/-- "\000\003bps\001" -/
def bps : Bytes := [0, 3, 98, 112, 115, 1]
/-- "\000\006maxbps\001" -/
def maxbps : Bytes := [0, 6, 109, 97, 120, 98, 112, 115, 1]
/-- "\000\004init\002" -/
def init_ : Bytes := [0, 4, 105, 110, 105, 116, 2]
/-- "\000\005codec\002" -/
def codec : Bytes := [0, 5, 99, 111, 100, 101, 99, 2]
/-- "\000\004lang\002" -/
def lang : Bytes := [0, 4, 108, 97, 110, 103, 2]
/-- "\000\004type\002" -/
def type_ : Bytes := [0, 4, 116, 121, 112, 101, 2]
/-- "\000\004rate\001" -/
def rate : Bytes := [0, 4, 114, 97, 116, 101, 1]
/-- "\000\004size\001" -/
def size : Bytes := [0, 4, 115, 105, 122, 101, 1]
/-- "\000\010channels\001" -/
def channels : Bytes := [0, 8, 99, 104, 97, 110, 110, 101, 108, 115, 1]
/-- "\000\005width\001" -/
def width : Bytes := [0, 5, 119, 105, 100, 116, 104, 1]
/-- "\000\006height\001" -/
def height : Bytes := [0, 6, 104, 101, 105, 103, 104, 116, 1]
/-- "\000\004fpks\001" -/
def fpks : Bytes := [0, 4, 102, 112, 107, 115, 1]
/-- "\000\005efpks\001" -/
def efpks : Bytes := [0, 5, 101, 102, 112, 107, 115, 1]
end Lit

/-- The fields of a track (dtsc.cpp 2110-2131 and 1297-1309). -/
structure Info where
  type : Bytes
  codec : Bytes
  init : Bytes
  lang : Bytes
  id : Nat
  firstms : Nat
  lastms : Nat
  bps : Nat
  maxbps : Nat
  rate : Nat
  size : Nat
  channels : Nat
  width : Nat
  height : Nat
  fpks : Nat
  efpks : Nat
  missed : Nat
  deriving DecidableEq

/-- A track. -/
structure Trk where
  info : Info
  frags : Tab Frag
  keys : Tab Key
  parts : Tab Part

/-- The metadata of a stream. `boot` is `Util::unixMS() - Util::bootMS() + getBootMsOffset()` (dtsc.cpp 3457), `vars` the text
of `inputLocalVars` if that has any members, and `tracks` the map of tracks. -/
structure Stream where
  vod : Bool
  live : Bool
  utc : Nat
  boot : Nat
  vars : Option Bytes
  tracks : List (Nat × Trk)

/-- dtsc.cpp 3308-3309 and 3560-3561. -/
def sendsLang (i : Info) : Bool := decide (i.lang.length ≠ 0) && decide (i.lang ≠ Names.und)

/-- dtsc.cpp 3294-3314: what a track adds to the length. -/
def trackLen (skip : Bool) (name : Bytes) (t : Trk) : Nat :=
  124 + t.info.init.length + t.info.codec.length + t.info.type.length + name.length +
  (if skip then 0 else
    (t.frags.pres * 13 + 16) + (t.keys.pres * 25 + 11) + (t.keys.pres * 4 + 15) + (t.parts.pres * 9 + 12) +
      (if t.info.missed ≠ 0 then 23 else 0)) +
  (if sendsLang t.info then 11 + t.info.lang.length else 0) +
  (if t.info.type = Names.audio then 49 else if t.info.type = Names.video then 64 else 0)

/-- dtsc.cpp 3293-3315: the loop over all tracks. -/
def tracksLen (name : Nat → Info → Bytes) (skip : Bool) (sel : List Nat) : List (Nat × Trk) → Nat
  | [] => 0
  | t :: r =>
    (if t.2.parts.pres = 0 then 0
     else if sel.length = 0 ∨ t.1 ∈ sel then trackLen skip (name t.1 t.2.info) t.2 else 0) + tracksLen name skip sel r

/-- dtsc.cpp 3287-3321: `getSendLen`. -/
def sendLen (name : Nat → Info → Bytes) (m : Stream) (skip : Bool) (sel : List Nat) : Nat :=
  34 + (if m.vod then 14 else 0) + (if m.live then 15 else 0) + (if m.live ∨ m.utc ≠ 0 then 19 else 0) +
    tracksLen name skip sel m.tracks + 8

/-- The records of a table in a row: `k` of them, where `f i` writes the `i`-th one. -/
def records (f : Nat → Bytes) (k : Nat) : Bytes := ((List.range k).map f).flatten

/-- dtsc.cpp 3490-3495: a fragment. -/
def fragOut (f : Frag) : Bytes := htob .l f.dur ++ [UInt8.ofNat f.keys] ++ htob .l (f.firstKey + 1) ++ htob .l f.size

/-- dtsc.cpp 3501-3505: a key; its position is taken from another record. -/
def keyOut (bpos : Nat) (k : Key) : Bytes :=
  htob .ll bpos ++ htob .b24 k.dur ++ htob .l k.num ++ htob .s k.parts ++ htob .ll k.time

/-- dtsc.cpp 3516-3518: a packet. -/
def partOut (p : Part) : Bytes := htob .b24 p.size ++ htob .b24 p.dur ++ htob .b24 (Json.toU64 p.off)

/-- dtsc.cpp 3476-3520: the tables. The position of a key is read at the place where the fragments start (3501). -/
def sendTables (t : Trk) : Bytes :=
  Lit.fragments ++ htob .l (t.frags.pres * 13) ++
    records (fun i => fragOut (t.frags.get (i + t.frags.start))) t.frags.pres ++
  Lit.keys ++ htob .l (t.keys.pres * 25) ++
    records (fun i => keyOut (t.keys.get (i + t.frags.start)).bpos (t.keys.get (i + t.keys.start))) t.keys.pres ++
  Lit.keysizes ++ htob .l (t.keys.pres * 4) ++
    records (fun i => htob .l (t.keys.get (i + t.keys.start)).size) t.keys.pres ++
  Lit.parts ++ htob .l (t.parts.pres * 9) ++
    records (fun i => partOut (t.parts.get (i + t.parts.start))) t.parts.pres

/-- dtsc.cpp 3530-3533. -/
def sendMissed (skip : Bool) (i : Info) : Bytes :=
  if skip = false ∧ i.missed ≠ 0 then Lit.missed_frags ++ htob .ll i.missed else []

/-- dtsc.cpp 3559-3564. -/
def sendLang (i : Info) : Bytes :=
  if sendsLang i then Lit.lang ++ htob .l i.lang.length ++ i.lang else []

/-- dtsc.cpp 3571-3588. -/
def sendKind (i : Info) : Bytes :=
  if i.type = Names.audio then
    Lit.rate ++ htob .ll i.rate ++ Lit.size ++ htob .ll i.size ++ Lit.channels ++ htob .ll i.channels
  else if i.type = Names.video then
    Lit.width ++ htob .ll i.width ++ Lit.height ++ htob .ll i.height ++ Lit.fpks ++ htob .ll i.fpks ++
      Lit.efpks ++ htob .ll i.efpks
  else []

/-- dtsc.cpp 3470-3590: a track. -/
def sendTrack (name : Bytes) (skip reID : Bool) (idx : Nat) (t : Trk) : Bytes :=
  htob .s name.length ++ name ++ [0xE0] ++ (if skip then [] else sendTables t) ++
  Lit.trackid ++ htob .ll (if reID then idx + 1 else t.info.id) ++ sendMissed skip t.info ++
  Lit.firstms ++ htob .ll t.info.firstms ++ Lit.lastms ++ htob .ll t.info.lastms ++
  Lit.bps ++ htob .ll t.info.bps ++ Lit.maxbps ++ htob .ll t.info.maxbps ++
  Lit.init_ ++ htob .l t.info.init.length ++ t.info.init ++
  Lit.codec ++ htob .l t.info.codec.length ++ t.info.codec ++ sendLang t.info ++
  Lit.type_ ++ htob .l t.info.type.length ++ t.info.type ++ sendKind t.info ++ [0, 0, 0xEE]

/-- dtsc.cpp 3468-3591: the tracks selected, in order; `none`: `tracks.at` throws. -/
def sendTracks (name : Nat → Info → Bytes) (m : Stream) (skip reID : Bool) : List Nat → Option Bytes
  | [] => some []
  | idx :: r =>
    (m.tracks.lookup idx).bind fun t => (sendTracks name m skip reID r).map fun x =>
      sendTrack (name idx t.info) skip reID idx t ++ x

/-- dtsc.cpp 3449-3466: the settings. -/
def sendHead (m : Stream) : Bytes :=
  (if m.vod then Lit.vod ++ [0, 0, 0, 0, 0, 0, 0, 1] else []) ++
  (if m.live then Lit.live ++ [0, 0, 0, 0, 0, 0, 0, 1] else []) ++
  Lit.version ++ htob .ll 4 ++
  (if m.live ∨ m.utc ≠ 0 then Lit.unixzero ++ htob .ll (if m.live then m.boot else m.utc) else []) ++
  (match m.vars with
   | none => []
   | some v => Lit.inputLocalVars ++ htob .l v.length ++ v)

/-- dtsc.cpp 3440-3444. -/
def varsLen (m : Stream) : Nat :=
  match m.vars with
  | none => 0
  | some v => 21 + v.length

/-- dtsc.cpp 3438-3594: `send`, all that goes to the connection. `sel` are the members of the set, in order. -/
def send (name : Nat → Info → Bytes) (m : Stream) (skip : Bool) (sel : List Nat) (reID : Bool) : Option Bytes :=
  (sendTracks name m skip reID sel).map fun x =>
    magicHead ++ htob .l (varsLen m + sendLen name m skip sel - 8) ++ [0xE0] ++ sendHead m ++
      Lit.tracks ++ x ++ [0, 0, 0xEE] ++ [0, 0, 0xEE]

/-! ## Loading -/

/-- A text in a field of `n` bytes, as it is read back (util.cpp 1245-1253 and the getters). -/
def cutText (n : Nat) (s : Bytes) : Bytes := (s.take (n - 1)).takeWhile (· ≠ 0)

/-- dtsc.cpp 823-846: `asString`; the text of numbers is left out (`more`). -/
def asString (buf : Bytes) (s : Scan) : R Bytes :=
  (getType buf s).bind fun t =>
    if t = 1 ∨ t = 3 ∨ t = 4 then .more
    else (getString buf s).bind fun x => .ok (x.getD [])

/-- `getMember(name).asString()` -/
def strOf (n : Nat) (buf : Bytes) (s : Scan) (name : Bytes) : R Bytes := (getMember n buf s name).bind (asString buf)

/-- `getMember(name).asInt()` -/
def intOf (n : Nat) (buf : Bytes) (s : Scan) (name : Bytes) : R Nat := (getMember n buf s name).bind (asInt buf)

/-- dtsc.cpp 600-602: `hasMember`. -/
def has (n : Nat) (buf : Bytes) (s : Scan) (name : Bytes) : R Bool :=
  (getMember n buf s name).bind fun s => (getType buf s).bind fun t => .ok (t != 0)

/-- The first `k` records of a text. -/
def readAll {α : Type} (f : Nat → R α) : Nat → R (List α)
  | 0 => .ok []
  | k + 1 => (readAll f k).bind fun l => (f k).bind fun x => .ok (l ++ [x])

/-- dtsc.cpp 1182-1187, with what the fields can hold (2208-2211): a fragment. -/
def fragIn (b : Bytes) (i : Nat) : R Frag :=
  (R.of (load .l b (i * 13))).bind fun d => (R.of b[i * 13 + 4]?).bind fun k =>
    (R.of (load .l b (i * 13 + 5))).bind fun f => (R.of (load .l b (i * 13 + 9))).bind fun s =>
      .ok ⟨d, k.toNat, (f + 2 ^ 32 - 1) % 2 ^ 32, s⟩

/-- dtsc.cpp 1198-1207: a key, still without its first packet. Reading behind the end of the text with the sizes gives
`oob` here, although other bytes of the header may follow there. -/
def keyIn (b sizes : Bytes) (i : Nat) : R Key :=
  (R.of (load .ll b (i * 25))).bind fun p => (R.of (load .b24 b (i * 25 + 8))).bind fun d =>
    (R.of (load .l b (i * 25 + 11))).bind fun n => (R.of (load .s b (i * 25 + 15))).bind fun c =>
      (R.of (load .ll b (i * 25 + 17))).bind fun t => (R.of (load .l sizes (i * 4))).bind fun s =>
        .ok ⟨0, p, d, n, c, t, s⟩

/-- dtsc.cpp 1205-1206: the first packets of the keys are counted through, from `total` on. -/
def number (total : Nat) : List Key → List Key
  | [] => []
  | k :: r => { k with firstPart := total } :: number ((total + k.parts) % 2 ^ 64) r

/-- dtsc.cpp 1220-1224, with what the fields can hold (2180-2182): a packet. -/
def partIn (b : Bytes) (i : Nat) : R Part :=
  (R.of (load .b24 b (i * 9))).bind fun s => (R.of (load .b24 b (i * 9 + 3))).bind fun d =>
    (R.of (load .b24 b (i * 9 + 6))).bind fun o => .ok ⟨s, d % 2 ^ 16, Index.cut16 o⟩

/-- dtsc.cpp 1189-1193, 1209-1216 and 1226-1229: a table with `l.length` slots that are all filled. -/
def filled {α : Type} (zero : α) (l : List α) : Tab α :=
  { n := l.length, fin := l.length, pres := l.length, slot := fun i => l[i]?.getD zero }

/-- A table without records. -/
def fresh {α : Type} (zero : α) (n : Nat) : Tab α := { n := n, slot := fun _ => zero }

/-- dtsc.cpp 1125: the codecs of pictures that are not compressed; their frames are kept elsewhere. -/
def rawCodec (c : Bytes) : Bool := c = [85, 89, 86, 89] || c = [89, 85, 89, 86] || c = [78, 86, 49, 50]

/-- dtsc.cpp 1136-1165: the fields. That `setInit` (2242-2287) fills in fields, too, is left out: for tracks of the types that
have these fields they are overwritten by the ones in the header. -/
def loadInfo (n : Nat) (buf : Bytes) (s : Scan) : R Info :=
  (strOf n buf s Names.codec).bind fun codec => (strOf n buf s Names.type_).bind fun type =>
  (strOf n buf s Names.init_).bind fun init => (strOf n buf s Names.lang).bind fun lang =>
  (intOf n buf s Names.trackid).bind fun id => (intOf n buf s Names.firstms).bind fun firstms =>
  (intOf n buf s Names.lastms).bind fun lastms => (intOf n buf s Names.bps).bind fun bps =>
  (intOf n buf s Names.maxbps).bind fun maxbps =>
    let i : Info :=
      { type := cutText 32 type, codec := cutText 32 codec, init := init.take (init.length % 2 ^ 16), lang := cutText 4 lang,
        id := id % 2 ^ 32, firstms := firstms, lastms := lastms, bps := bps % 2 ^ 32, maxbps := maxbps % 2 ^ 32,
        rate := 0, size := 0, channels := 0, width := 0, height := 0, fpks := 0, efpks := 0, missed := 0 }
    if type = Names.video then
      (intOf n buf s Names.width).bind fun w => (intOf n buf s Names.height).bind fun h =>
      (intOf n buf s Names.fpks).bind fun f => (intOf n buf s Names.efpks).bind fun e =>
        .ok { i with width := w % 2 ^ 32, height := h % 2 ^ 32, fpks := f % 2 ^ 16, efpks := e % 2 ^ 16 }
    else if type = Names.audio then
      (intOf n buf s Names.rate).bind fun r => (intOf n buf s Names.channels).bind fun c =>
      (intOf n buf s Names.size).bind fun z =>
        .ok { i with rate := r % 2 ^ 16, channels := c % 2 ^ 16, size := z % 2 ^ 16 }
    else .ok i

/-- dtsc.cpp 1168-1231: the tables, from the texts of the four members. -/
def loadTables (info : Info) (fr ke si pa : Bytes) : R Trk :=
  if rawCodec info.codec then .ok ⟨info, fresh Frag.zero 0, fresh Key.zero 0, fresh Part.zero 0⟩
  else if fr = [] ∨ ke = [] ∨ pa = [] ∨ si = [] then
    .ok ⟨info, fresh Frag.zero (fr.length / 13), fresh Key.zero (ke.length / 25), fresh Part.zero (pa.length / 9)⟩
  else
    (readAll (fragIn fr) (fr.length / 13)).bind fun f => (readAll (keyIn ke si) (ke.length / 25)).bind fun k =>
    (readAll (partIn pa) (pa.length / 9)).bind fun p =>
      .ok ⟨info, filled Frag.zero f, filled Key.zero (number 0 k), filled Part.zero p⟩

/-- dtsc.cpp 1108-1231: `addTrackFrom`. -/
def loadTrack (n : Nat) (buf : Bytes) (s : Scan) : R Trk :=
  (has n buf s Names.fragments).bind fun a => (has n buf s Names.keys).bind fun b =>
  (has n buf s Names.parts).bind fun c => (has n buf s Names.keysizes).bind fun d =>
  (loadInfo n buf s).bind fun info =>
    if a && b && c && d then
      (getMember n buf s Names.fragments).bind fun f => (getString buf f).bind fun fr =>
      (getMember n buf s Names.keys).bind fun k => (getString buf k).bind fun ke =>
      (getMember n buf s Names.keysizes).bind fun z => (getString buf z).bind fun si =>
      (getMember n buf s Names.parts).bind fun p => (getString buf p).bind fun pa =>
        loadTables info (fr.getD []) (ke.getD []) (si.getD []) (pa.getD [])
    else if rawCodec info.codec then .ok ⟨info, fresh Frag.zero 0, fresh Key.zero 0, fresh Part.zero 0⟩
    else .ok ⟨info, fresh Frag.zero 60, fresh Key.zero 60, fresh Part.zero 1800⟩

/-- What loading a header gives: the settings, the time at the start if there is one, the text with variables of the input
(parsing it is `Verif/Json`), and the tracks in order. -/
structure Loaded where
  vod : Bool
  live : Bool
  version : Nat
  zero : Option Nat
  vars : Option Bytes
  tracks : List Trk

/-- dtsc.cpp 1066-1106: `reInit` from a view. -/
def loadScan (n : Nat) (buf : Bytes) (s : Scan) : R Loaded :=
  (getMember n buf s Names.tracks).bind fun tr => (getSize n buf tr).bind fun num =>
  (intOf n buf s Names.vod).bind fun vod => (intOf n buf s Names.live).bind fun live =>
  (intOf n buf s Names.version).bind fun version =>
  (has n buf s Names.inputLocalVars).bind fun hv => (strOf n buf s Names.inputLocalVars).bind fun vars =>
  (readAll (fun i => (getIndice n buf tr i).bind fun t => loadTrack n buf (t.map (·.2))) num).bind fun tracks =>
  (has n buf s Names.unixzero).bind fun hz => (intOf n buf s Names.unixzero).bind fun zero =>
    .ok ⟨vod ≠ 0, live ≠ 0, version, if hz then some zero else none, if hv then some vars else none, tracks⟩

/-- dtsc.cpp 1043-1061: `reInit` from the contents of a file of less than 4 GiB. -/
def loadFile (n : Nat) (file : Bytes) : R Loaded :=
  (reInit {} file file.length).bind fun p => loadScan n (p.data.getD []) (getScan p)

end Verif.Dtsc
