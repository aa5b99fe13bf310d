import Verif.Push.Model

/-!
# Model of triggers

`/repo/lib/triggers.cpp` 52-303, the writer of the tables in `/repo/src/controller/controller_storage.cpp` 903-993 and
`Util::stringToBool` (`/repo/lib/bitfields.cpp` 65-73).

Simplifications: what a handler (a URL or a program) answers is a parameter, and so are the tags of a stream. Triggers in the form of an
array are objects without parameters and default. The environment variables and statistics are left out.
-/
namespace Verif.Trig
open Verif.Push (field)

/-- A trigger in the configuration. -/
structure Config where
  handler : Bytes
  sync : Bool
  streams : List Bytes
  params : Bytes
  default : Bytes

/-- A record of the table of a trigger type, as other processes read it (texts as C strings, the list of streams as it is). -/
structure Record where
  url : Bytes
  sync : Bool
  streams : Bytes
  params : Bytes
  default : Bytes
  deriving DecidableEq

/-- A number as four bytes, least significant first (`unsigned int`). -/
def le32 (n : Nat) : Bytes := [UInt8.ofNat n, UInt8.ofNat (n / 256), UInt8.ofNat (n / 65536), UInt8.ofNat (n / 16777216)]

/-- The number in four bytes. -/
def rd32 (p : Bytes) : Nat := (p.getD 0 0).toNat + 256 * (p.getD 1 0).toNat + 65536 * (p.getD 2 0).toNat + 16777216 * (p.getD 3 0).toNat

/-- controller_storage.cpp 959-965: the names with their lengths. -/
def names : List Bytes → Bytes
  | [] => []
  | e :: l => le32 e.length ++ e ++ names l

/-- controller_storage.cpp 934-984: one record. The page is new, so that what is not written is zero. -/
def record (c : Config) : Record where
  url := field 128 c.handler
  sync := c.sync
  streams := (names c.streams ++ List.replicate 256 0).take 256
  params := field 128 c.params
  default := field 128 c.default

/-- controller_storage.cpp 923-930: the number of records of 128 + 1 + 256 + 128 + 128 bytes on a page of 32 KB after its header and the
names of the fields. -/
def capacity : Nat := (32 * 1024 - (36 + (1 + 3 + 1) + (1 + 4 + 1) + (1 + 7 + 1) + (1 + 6 + 1) + (1 + 7 + 1))) / (128 + 1 + 256 + 128 + 128)

/-- controller_storage.cpp 932-993: the records of a trigger type. -/
def table (l : List Config) : List Record := (l.take capacity).map record

/-- `strncmp(a, b, n) == 0`; what lies behind the end is zero. -/
def sameN : Nat → Bytes → Bytes → Bool
  | 0, _, _ => true
  | n + 1, a, b =>
    if a.headD 0 ≠ b.headD 0 then false
    else if a.headD 0 = 0 then true
    else sameN n a.tail b.tail

/-- triggers.cpp 227: the position of the first '+' or space. -/
def splitter (name : Bytes) : Option Nat := name.findIdx? fun c => c == 43 || c == 32

/-- triggers.cpp 246-275: an entry without its '!': the state is (`isHandled`, `onlyNegative`). -/
def entry (name : Bytes) (tags : List Bytes) (e : Bytes) (negated : Bool) (st : Bool × Bool) : Bool × Bool :=
  if (decide (name.length = e.length) || decide (splitter name = some e.length)) && sameN e.length e name then (!negated, false)
  else if e.head? = some 35 ∧ e.tail ∈ tags then (!negated, false)
  else (st.1, st.2 && negated)

/-- triggers.cpp 242-276: the loop over the list of streams. -/
def scan (name : Bytes) (tags : List Bytes) (p : Bytes) : Nat → Nat → Bool × Bool → Bool × Bool
  | 0, _, st => st
  | fuel + 1, b, st =>
    if b + 4 < p.length then
      let n := rd32 (p.drop b)
      if b + 4 + n > p.length ∨ n = 0 then st
      else
        let e := (p.drop (b + 4)).take n
        if e.head? = some 33 then
          if e.tail = [] then st else scan name tags p fuel (b + n + 4) (entry name tags e.tail true st)
        else scan name tags p fuel (b + n + 4) (entry name tags e false st)
    else st

/-- triggers.cpp 239-278: whether a record is for a stream. -/
def handled (name : Bytes) (tags : List Bytes) (r : Record) : Bool :=
  let st := scan name tags r.streams 256 0 (name.isEmpty, true)
  if st.2 then true else st.1

/-- bitfields.cpp 65-73: the first four characters that are not white, in small letters, are looked at. (`isspace` and `tolower` of the C
locale.) -/
def stringToBool (s : Bytes) : Bool :=
  let t := ((s.filter fun c => !(c == 32 || (decide (9 ≤ c) && decide (c ≤ 13)))).take 4).map fun c => if 65 ≤ c ∧ c ≤ 90 then c + 32 else c
  t.take 1 == [49] || t.take 3 == [121, 101, 115] || t.take 4 == [116, 114, 117, 101] || t.take 4 == [99, 111, 110, 116]

/-- "true". -/
def yes : Bytes := [116, 114, 117, 101]

/-- triggers.cpp 292-293: the default answer of a record. -/
def defaultOf (r : Record) : Bytes := if r.default = [] then yes else r.default

/-- triggers.cpp 52-158: `handleTrigger`; `ask`: what the handler under this address answers, if it does. -/
def handleTrigger (ask : Bytes → Option Bytes) (r : Record) : Bytes :=
  if r.url = [] then defaultOf r
  else if r.sync then (ask r.url).getD (defaultOf r)
  else defaultOf r

/-- triggers.cpp 280-303: the records in turn; the state is the verdict and the last answer that was waited for. -/
def fire (name : Bytes) (tags : List Bytes) (param : Bytes → Bool) (ask : Bytes → Option Bytes) : List Record → Bool × Bytes → Bool × Bytes
  | [], st => st
  | r :: l, st =>
    if handled name tags r && param r.params then
      let a := handleTrigger ask r
      fire name tags param ask l (st.1 && stringToBool a, if r.sync then a else st.2)
    else fire name tags param ask l st

/-- What other processes see of a table: nothing, or its records and whether it is ready. -/
abbrev Page := Option (Bool × List Record)

/-- triggers.cpp 161-169 and 192-303: `shouldTrigger`. -/
def shouldTrigger (pg : Page) (name : Bytes) (tags : List Bytes) (param : Bytes → Bool) : Bool :=
  match pg with
  | none => false
  | some (ready, l) => ready && l.any fun r => handled name tags r && param r.params

/-- triggers.cpp 171-303: `doTrigger`: the verdict and the answer. The callers do not pass on the check of parameters. -/
def doTrigger (pg : Page) (name : Bytes) (tags : List Bytes) (ask : Bytes → Option Bytes) (response : Bytes) : Bool × Bytes :=
  match pg with
  | none => (false, response)
  | some (ready, l) => if ready then fire name tags (fun _ => true) ask l (true, response) else (false, response)

/-- How the callers use them (for example output.cpp 2980-2987): whether to go on, and the answer for triggers that rewrite something. -/
def event (pg : Page) (name : Bytes) (tags : List Bytes) (param : Bytes → Bool) (ask : Bytes → Option Bytes) (value : Bytes) : Bool × Bytes :=
  if shouldTrigger pg name tags param then doTrigger pg name tags ask value else (true, value)

/-- controller_storage.cpp 911-993: what others see while the controller writes a changed configuration: the old page is removed, a new
one is made, it becomes ready (929), and the number of records is set at the end (991). -/
def rewrite (old : Page) (l : List Config) : List Page := [old, none, some (false, []), some (true, []), some (true, table l)]

end Verif.Trig
