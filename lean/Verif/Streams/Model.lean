import Verif.Text.Model

/-!
# The configured streams and what other processes read of them

The controller keeps the configured streams in its storage, changes them on request, and writes each to a shared page
that every other process reads (src/controller/controller_streams.cpp, src/controller/controller_storage.cpp,
lib/stream.cpp, lib/json.cpp).

Simplifications: a configuration is an object whose members are null, strings, numbers and booleans (as text), lists of
texts, or objects of texts; deeper values are taken as text. The lists used for maps are read by the first entry of
a key. Starting and stopping of input processes, removal of source files and shared memory that cannot be opened are left
out, as is the trigger text. Pages are named by stream name: names of more than 291 bytes, which readers refuse anyway,
would share a page.
-/

namespace Verif.Streams
open Verif

/-- A value in a stream configuration (lib/json.h, `JSON::Value`): numbers and booleans by their text, inner values by
their text. -/
inductive Val where
  | null
  | str (t : Bytes)
  | num (t : Bytes)
  | arr (l : List Bytes)
  | obj (m : List (Bytes × Bytes))
deriving DecidableEq

/-- The members of one stream's configuration (json.h 33, `objVal`). -/
abbrev Conf := List (Bytes × Val)

/-- `objVal.erase(key)` (json.cpp 1301-1308). -/
def del (m : List (Bytes × α)) (k : Bytes) : List (Bytes × α) := m.filter (fun kv => kv.1 != k)

/-- `(*this)[key] = value` (json.cpp 816-827). -/
def put (m : List (Bytes × α)) (k : Bytes) (v : α) : List (Bytes × α) := (k, v) :: del m k

/-- "online", "error" and "x-LSP-name" (controller_storage.cpp 751-755). -/
def kOnline : Bytes := [0x6f, 0x6e, 0x6c, 0x69, 0x6e, 0x65]
/-- See `kOnline`. -/
def kError : Bytes := [0x65, 0x72, 0x72, 0x6f, 0x72]
/-- See `kOnline`. -/
def kLsp : Bytes := [0x78, 0x2d, 0x4c, 0x53, 0x50, 0x2d, 0x6e, 0x61, 0x6d, 0x65]
/-- "name" (controller_streams.cpp 225). -/
def kName : Bytes := [0x6e, 0x61, 0x6d, 0x65]
/-- "source" (controller_streams.cpp 86). -/
def kSource : Bytes := [0x73, 0x6f, 0x75, 0x72, 0x63, 0x65]

/-- `skip.count(key)` for the set of `writeStream` (controller_storage.cpp 750-755). -/
def skip (k : Bytes) : Bool := k == kOnline || k == kError || k == kLsp

/-- `isMember` (json.cpp 1331-1334). -/
def has (m : List (Bytes × α)) (k : Bytes) : Bool := (m.lookup k).isSome

/-- `operator==` of objects whose members are texts (json.cpp 538-544): the same members on both sides. -/
def objEq (m m' : List (Bytes × Bytes)) : Bool := (m ++ m').all (fun kv => m.lookup kv.1 == m'.lookup kv.1)

/-- `operator==` of values (json.cpp 532-551). -/
def valEq : Val → Val → Bool
  | .null, .null => true
  | .str a, .str b => a == b
  | .num a, .num b => a == b
  | .arr l, .arr l' => l == l'
  | .obj m, .obj m' => objEq m m'
  | _, _ => false

/-- Comparison of a member that may be absent (json.cpp 541). -/
def optEq : Option Val → Option Val → Bool
  | some v, some w => valEq v w
  | none, none => true
  | _, _ => false

/-- `operator==` of configurations (json.cpp 532-551). -/
def confEq (a b : Conf) : Bool := (a ++ b).all (fun kv => optEq (a.lookup kv.1) (b.lookup kv.1))

/-- `compareExcept` of a member of the configuration last written with a member of the new one (json.cpp 559-579). An
object looks only for its own members in the other value and for the members of the other value in itself; a list
compares sizes and elements. -/
def cmpVal : Val → Val → Bool
  | .obj m, .obj m' => (m ++ m').all (fun kv => skip kv.1 || m.lookup kv.1 == m'.lookup kv.1)
  | .obj m, .arr l => m.all (fun kv => skip kv.1) && l.isEmpty
  | .obj m, _ => m.all (fun kv => skip kv.1)
  | .arr l, .arr l' => l == l'
  | .arr l, .obj m => l.isEmpty && m.isEmpty
  | .arr l, _ => l.isEmpty
  | v, w => valEq v w

/-- One member in `compareExcept` (json.cpp 563, 567). -/
def cmpOpt : Option Val → Option Val → Bool
  | some v, some w => cmpVal v w
  | none, none => true
  | _, _ => false

/-- `compareExcept` of whole configurations (json.cpp 559-570). -/
def cmpConf (a b : Conf) : Bool := (a ++ b).all (fun kv => skip kv.1 || cmpOpt (a.lookup kv.1) (b.lookup kv.1))

/-- `assignFrom` of a member: members to skip are left out of inner objects too (json.cpp 620-643). -/
def stripVal : Val → Val
  | .obj m => .obj (m.filter (fun kv => !skip kv.1))
  | v => v

/-- `assignFrom` of a configuration (json.cpp 620-643). -/
def strip (c : Conf) : Conf := (c.filter (fun kv => !skip kv.1)).map (fun kv => (kv.1, stripVal kv.2))

/-- `removeNullMembers` (json.cpp 1315-1327): a member with an empty name stays. -/
def removeNull (c : Conf) : Conf := c.filter (fun kv => kv.1 == [] || c.lookup kv.1 != some .null)

/-- The controller's storage, its own copy of what it wrote, and the pages in shared memory. -/
structure St where
  /-- `Storage["streams"]` -/
  streams : List (Bytes × Conf)
  /-- `writtenStrms` (controller_storage.cpp 749) -/
  written : List (Bytes × Conf)
  /-- the shared pages, by stream name (controller_storage.cpp 766, 776) -/
  pages : List (Bytes × Conf)

/-- The writing of a page (controller_storage.cpp 764-790). -/
def writePage (s : St) (n : Bytes) (c : Conf) : St := { s with written := put s.written n (strip c), pages := put s.pages n (strip c) }

/-- `writeStream` with a configuration (controller_storage.cpp 763-791). -/
def writeStream (s : St) (n : Bytes) (c : Conf) : St :=
  match s.written.lookup n with
  | none => writePage s n c
  | some w => if cmpConf w c then s else writePage s n c

/-- `writeStream` with null (controller_storage.cpp 756-763). -/
def dropPage (s : St) (n : Bytes) : St := { s with written := del s.written n, pages := del s.pages n }

/-- The loop of `writeConfig` over the streams (controller_storage.cpp 803-806). -/
def writeAll : List Bytes → St → St
  | [], s => s
  | n :: t, s =>
    match s.streams.lookup n with
    | none => writeAll t s
    | some c => writeAll t (writeStream s n c)

/-- `writeConfig`, the part about streams (controller_storage.cpp 801-806). Null members are removed of each stream just
before it is written; here of all of them first. -/
def writeConfig (s : St) : St :=
  writeAll (s.streams.map (·.1)) { s with streams := s.streams.map (fun e => (e.1, removeNull e.2)) }

/-- What the world answers during a request: whether the trigger for a new or changed stream cancels it
(controller_streams.cpp 217-220, 240-243), whether the trigger for a removal does (395-397), and the members the input
for a source prescribes (416-418). -/
structure Env where
  /-- a trigger cancels this configuration of this stream -/
  refuse : Bytes → Conf → Bool
  /-- a trigger cancels the removal of this stream -/
  keep : Bytes → Bool
  /-- `getInputBySource(source)["hardcoded"]` -/
  hard : Option Val → Conf

/-- `value["source"]` on a value that may change makes the member (json.cpp 830-841). -/
def touch (c : Conf) : Conf := if has c kSource then c else put c kSource .null

/-- The loop of `checkParameters` (controller_streams.cpp 418). -/
def putAll : Conf → Conf → Conf
  | [], c => c
  | kv :: t, c => putAll t (put c kv.1 kv.2)

/-- `checkParameters` (controller_streams.cpp 415-420). -/
def checkParameters (e : Env) (c : Conf) : Conf := putAll (e.hard ((touch c).lookup kSource)) (touch c)

/-- The storing of a configuration (controller_streams.cpp 223-226, 245-248). -/
def stored (e : Env) (n : Bytes) (c : Conf) : Conf := checkParameters e (put (removeNull c) kName (.str n))

/-- What the comparison leaves of its operands: when neither has a source, both get a null one (controller_streams.cpp
86). -/
def touchIf (c other : Conf) : Conf := if has c kSource = false ∧ has other kSource = false then touch c else c

/-- `streamsEqual` (controller_streams.cpp 85-98). -/
def streamsEqual (one two : Conf) : Bool :=
  if has one kSource != has two kSource then false
  else if !optEq ((touchIf one two).lookup kSource) ((touchIf two one).lookup kSource) then false
  else confEq (touchIf one two) (touchIf two one)

/-- The storing and writing of one stream (controller_streams.cpp 223-252). -/
def setStream (s : St) (n : Bytes) (c : Conf) : St := writeStream { s with streams := put s.streams n c } n c

/-- One round of `AddStreams` (controller_streams.cpp 213-253). -/
def addOne (e : Env) (s : St) (n : Bytes) (c : Conf) : St :=
  match s.streams.lookup n with
  | some old =>
    if streamsEqual c old then setStream s n (touchIf old c)
    else if e.refuse n c then { s with streams := put s.streams n (touchIf old c) }
    else setStream s n (stored e n (touchIf c old))
  | none =>
    if Text.sanitizeName n != n || n.isEmpty then s
    else if e.refuse n c then s
    else setStream s n (stored e n c)

/-- `AddStreams` (controller_streams.cpp 211-254). -/
def addStreams (e : Env) : List (Bytes × Conf) → St → St
  | [], s => s
  | nc :: t, s => addStreams e t (addOne e s nc.1 nc.2)

/-- `deleteStream` without the source file (controller_streams.cpp 393-412). -/
def deleteStream (e : Env) (s : St) (n : Bytes) : St :=
  if !has s.streams n then s
  else if e.keep n then s
  else dropPage { s with streams := del s.streams n } n

/-- The removal of several streams (controller_streams.cpp 323-327, controller_api.cpp 1011-1018). -/
def deleteAll (e : Env) : List Bytes → St → St
  | [], s => s
  | n :: t, s => deleteAll e t (deleteStream e s n)

/-- `CheckStreams` for an object (controller_streams.cpp 311-328). The conversion of old requests after it (331-337)
changes the request, which nothing looks at any more. -/
def checkStreams (e : Env) (req : List (Bytes × Conf)) (s : St) : St :=
  deleteAll e (((addStreams e req s).streams.map (·.1)).filter (fun n => !has req n)) (addStreams e req s)

/-- The parts of an API request that change streams (controller_api.cpp 673-676, 996-1018). -/
inductive Cmd where
  | streams (req : List (Bytes × Conf))
  | add (req : List (Bytes × Conf))
  | delete (names : List Bytes)
  | reload (disk : List (Bytes × Conf))

/-- One part (controller_api.cpp 673-676, 996-1018; `readConfigFromDisk`, controller_storage.cpp 492-494). -/
def cmd (e : Env) (s : St) : Cmd → St
  | .streams req => checkStreams e req s
  | .add req => addStreams e req s
  | .delete names => deleteAll e names s
  | .reload disk => { s with streams := disk }

/-- The parts in order. -/
def cmds (e : Env) : List Cmd → St → St
  | [], s => s
  | c :: t, s => cmds e t (cmd e s c)

/-- A request to the API (controller_api.cpp 996-1018, 1826). -/
def request (e : Env) (l : List Cmd) (s : St) : St := writeConfig (cmds e l s)

/-- `checkStream` for one stream, given the state and the error it finds (controller_streams.cpp 104-194). -/
def checkOne (n : Bytes) (found : Val × Option Val) (c : Conf) : Conf :=
  let named := if has c kName then c else put c kName (.str n)
  let clean := removeNull (del (put named kOnline (.str [])) kError)
  match found.2 with
  | none => put clean kOnline found.1
  | some err => put (put clean kOnline found.1) kError err

/-- The status check of all streams (controller.cpp 127). -/
def statusCheck (found : Bytes → Val × Option Val) (s : St) : St :=
  { s with streams := s.streams.map (fun e => (e.1, checkOne e.1 (found e.1) e.2)) }

/-- "log" (controller_storage.cpp 422). -/
def kLog : Bytes := [0x6c, 0x6f, 0x67]

/-- `skip.count(key)` for the set of `getConfigAsWritten` (controller_storage.cpp 421-424). -/
def unsaved (k : Bytes) : Bool := k == kLog || k == kOnline || k == kError

/-- A member as saved (json.cpp 620-643). -/
def savedVal : Val → Val
  | .obj m => .obj (m.filter (fun kv => !unsaved kv.1))
  | v => v

/-- A stream as saved (controller_storage.cpp 420-426, json.cpp 620-643). -/
def saved (c : Conf) : Conf := (c.filter (fun kv => !unsaved kv.1)).map (fun kv => (kv.1, savedVal kv.2))

/-- The streams as saved (controller_storage.cpp 420-426, json.cpp 620-643): what is to be skipped is skipped at every
depth, so also among the names of streams. -/
def savedStreams (l : List (Bytes × Conf)) : List (Bytes × Conf) :=
  (l.filter (fun e => !unsaved e.1)).map (fun e => (e.1, saved e.2))

/-- A rolling restart (controller.cpp 376-377, 574-595): the configuration is saved and read again, pages are left. -/
def restart (s : St) : St := writeConfig { s with streams := savedStreams s.streams, written := [] }

/-- A start with empty shared memory (controller.cpp 376-377). -/
def start (disk : List (Bytes × Conf)) : St := writeConfig { streams := disk, written := [], pages := [] }

/-- The reload when the file is newer (controller.cpp 104-111). -/
def reload (disk : List (Bytes × Conf)) (s : St) : St := { s with streams := disk }

/-- "deletestream" from the uplink (controller_uplink.cpp 68-83). -/
def uplinkDelete (names : List Bytes) (s : St) : St := { s with streams := s.streams.filter (fun e => !names.contains e.1) }

/-- What changes the streams during the life of the server. -/
inductive Event where
  | request (e : Env) (l : List Cmd)
  | check (found : Bytes → Val × Option Val)
  | restart
  | reload (disk : List (Bytes × Conf))
  | uplink (names : List Bytes)

/-- One event. -/
def event (s : St) : Event → St
  | .request e l => request e l s
  | .check found => statusCheck found s
  | .restart => restart s
  | .reload disk => reload disk s
  | .uplink names => uplinkDelete names s

/-- The events in order. -/
def events : List Event → St → St
  | [], s => s
  | ev :: t, s => events t (event s ev)

/-- The part of a name before the first '+' or space (stream.cpp 436). -/
def base (n : Bytes) : Bytes := n.takeWhile (fun c => !(c == 0x2B || c == 0x20))

/-- `getStreamConfig` (stream.cpp 429-453); `none` is the null value. -/
def getStreamConfig (s : St) (n : Bytes) : Option Conf := if n.length > 100 then none else s.pages.lookup (base n)

end Verif.Streams
