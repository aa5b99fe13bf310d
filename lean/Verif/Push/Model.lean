import Verif.Base.Strings
import Verif.Text.Model

/-!
# Model of the admission of pushes

`/repo/src/output/output.cpp` 2894-2997 (`checkStreamKey`, `allowPush`) with `/repo/lib/stream.cpp` 546-566 and the writers of the table
of stream keys (`/repo/src/controller/controller_api.cpp` 1264-1318, `/repo/src/controller/controller_storage.cpp` 872-902).

Simplifications: access tokens (modelled in `Verif/Jwt`), the sources of streams once their input was started, the veto of the
`STREAM_PUSH` trigger and the comparison of addresses (`Socket::isBinAddress`, which asks the resolver) are parameters. The rewrite
triggers of the protocols are left out, and that starting the input of a stream may take time.
-/
namespace Verif.Push
open Verif.Text

/-! ## Stream keys -/

/-- `std::string::operator<`: by bytes; a prefix is smaller. -/
def less : Bytes → Bytes → Bool
  | [], [] => false
  | [], _ :: _ => true
  | _ :: _, [] => false
  | a :: s, b :: t => if a < b then true else if b < a then false else less s t

/-- The keys in the storage: a `std::map` from keys to streams, in order. -/
abbrev Keys := List (Bytes × Bytes)

/-- `keys[k] = v` -/
def put (k v : Bytes) : Keys → Keys
  | [] => [(k, v)]
  | (a, b) :: r => if a = k then (k, v) :: r else if less k a then (k, v) :: (a, b) :: r else (a, b) :: put k v r

/-- `removeMember`. -/
def drop (k : Bytes) (ks : Keys) : Keys := ks.filter fun x => decide (x.1 ≠ k)

/-- A member of a request: its name, its text (`asString`) and whether it is a string. -/
structure Item where
  name : Bytes
  text : Bytes
  isString : Bool

/-- `streamkey_del`: an object, an array (of texts, and whether they are strings) or a string. -/
inductive Del where
  | object (l : List Item)
  | array (l : List (Bytes × Bool))
  | string (s : Bytes)

/-- What a request says about stream keys. -/
structure Request where
  all : Option (List Item)
  del : Option Del
  add : Option (List Item)

/-- controller_api.cpp 1264-1272: `streamkeys`: all keys are replaced. -/
def setAll (ks : Keys) : Option (List Item) → Keys
  | none => ks
  | some l => l.foldl (fun ks x => if x.isString then put x.name x.text ks else ks) []

/-- controller_api.cpp 1274-1300: `streamkey_del`. -/
def delete (ks : Keys) : Option Del → Keys
  | none => ks
  | some (.object l) => l.foldl (fun ks x => if ks.lookup x.name = some x.text then drop x.name ks else ks) ks
  | some (.array l) => l.foldl (fun ks x => if x.2 then drop x.1 ks else ks) ks
  | some (.string s) => drop s ks

/-- controller_api.cpp 1302-1316: `streamkey_add`. -/
def addAll (ks : Keys) : Option (List Item) → Keys
  | none => ks
  | some l => l.foldl (fun ks x => if x.isString && decide (ks.lookup x.name ≠ some x.text) then put x.name x.text ks else ks) ks

/-- controller_api.cpp 1264-1316: the three parts of a request, in this order. -/
def edit (ks : Keys) (r : Request) : Keys := addAll (delete (setAll ks r.all) r.del) r.add

/-- `RelAccX::setString` (util.cpp 1245-1253) into a field of `size` bytes, read as a C string. -/
def field (size : Nat) (s : Bytes) : Bytes := (s.take (size - 1)).takeWhile (· ≠ 0)

/-- controller_storage.cpp 888: the number of records of 256 + 128 bytes on a page of 1 MB after the header of 36 bytes and the
names of the fields. -/
def capacity : Nat := (1024 * 1024 - (36 + (1 + 3 + 1) + (1 + 6 + 1))) / (256 + 128)

/-- controller_storage.cpp 873-902: the table for the other processes. -/
def page (ks : Keys) : List (Bytes × Bytes) := (ks.take capacity).map fun x => (field 256 x.1, field 128 x.2)

/-- stream.cpp 546-566: `Util::checkStreamKey`: the stream of a key, in order of the table. (A `std::string` is compared with a C
string.) -/
def streamOf (table : List (Bytes × Bytes)) (name : Bytes) : Option Bytes := (table.find? fun x => decide (name = x.1)).map (·.2)

/-! ## Admission -/

/-- The world of a push: the table of keys, the streams that tokens are for, the sources of streams (empty: not available), the
trigger and whether the address of the sender matches a host. -/
structure World where
  table : List (Bytes × Bytes)
  token : Bytes → Option Bytes
  source : Bytes → Bytes
  veto : Bytes → Bool
  here : Bytes → Bool

/-- What becomes of a push; `died`: an exception that nothing catches ends the process. -/
inductive Outcome where
  | refused
  | accepted (stream : Bytes)
  | died
  deriving DecidableEq

/-- "push://". -/
def pushPrefix : Bytes := [112, 117, 115, 104, 58, 47, 47]

/-- "INTERNAL_". -/
def internal : Bytes := [73, 78, 84, 69, 82, 78, 65, 76, 95]

/-- "deny-all.invalid". -/
def denyAll : Bytes := [100, 101, 110, 121, 45, 97, 108, 108, 46, 105, 110, 118, 97, 108, 105, 100]

/-- output.cpp 2926 and 2955: the source is not for pushes. -/
def notPushable (src : Bytes) : Bool := (decide (src.length ≥ 7) && decide (src.take 7 ≠ pushPrefix)) || (findSub internal src).isSome

/-- output.cpp 2895-2905: the stream of a key, or of a token. -/
def keyStream (w : World) (name : Bytes) : Option Bytes :=
  match streamOf w.table name with
  | some s => some s
  | none => w.token name

/-- output.cpp 2894-2933: `checkStreamKey`; `none`: it is neither a key nor a token. -/
def checkStreamKey (w : World) (name : Bytes) : Option Outcome :=
  match keyStream w name with
  | none => none
  | some s =>
    let stream := sanitizeName s
    if w.source stream = [] then some .refused
    else if notPushable (w.source stream) then some .refused
    else if stream = [] then some .refused
    else some (.accepted stream)

/-- output.cpp 2961-2978: the host that has to match (empty: any). -/
def hostOf (source passwd : Bytes) : Bytes :=
  match findChar 64 source with
  | none => source
  | some i =>
    let password := source.drop (i + 1)
    if password = [] then source.take i
    else if password = passwd then []
    else if source.take i = [] then denyAll
    else source.take i

/-- output.cpp 2939-2997: `allowPush`. -/
def allowPush (w : World) (name passwd : Bytes) : Outcome :=
  let stream := sanitizeName name
  let src := w.source stream
  if src = [] then .refused
  else if notPushable src then .refused
  else if src.length < 7 then .died
  else
    let host := hostOf (src.drop 7) passwd
    if w.veto stream then .refused
    else if host ≠ [] ∧ w.here host = false then .refused
    else .accepted stream

/-- A push as the protocols handle it (for example output_json.cpp 196-220): by key or token, or else by name. -/
def push (w : World) (name passwd : Bytes) : Outcome :=
  match checkStreamKey w name with
  | some o => o
  | none => allowPush w name passwd

end Verif.Push
