import Verif.Base.Strings
import Verif.Enc.Model

/-!
# Model of `/repo/lib/url.cpp` (class `HTTP::URL`)
-/
namespace Verif.Url

/-- `std::string::erase(pos, n)` for `pos` within the string. -/
def eraseAt (s : Bytes) (pos n : Nat) : Bytes := s.take pos ++ s.drop (pos + n)

/-- `std::string::rfind(char)`: the last position of `c`, `none` for `npos`. -/
def rfindChar (c : UInt8) : Bytes → Option Nat
  | [] => none
  | x :: r =>
    match rfindChar c r with
    | some i => some (i + 1)
    | none => if x = c then some 0 else none

theorem eraseAt_length {pat s : Bytes} {d pos n : Nat} (h : findSub pat s = some d) (hp : pos + n ≤ d + pat.length) (hn : 0 < n) :
    (eraseAt s pos n).length < s.length := by
  have := (findSub_some h).1
  simp only [eraseAt, List.length_append, List.length_take, List.length_drop]
  omega

/-- url.cpp 53-58: every "/./" loses its first two characters. -/
def cutDot (s : Bytes) : Bytes :=
  match _h : findSub [47, 46, 47] s with
  | none => s
  | some d => cutDot (eraseAt s d 2)
termination_by s.length
decreasing_by exact eraseAt_length _h (by simp) (by omega)

/-- url.cpp 59-64: every "//" loses one slash. -/
def cutSlash (s : Bytes) : Bytes :=
  match _h : findSub [47, 47] s with
  | none => s
  | some d => cutSlash (eraseAt s d 1)
termination_by s.length
decreasing_by exact eraseAt_length _h (by simp) (by omega)

/-- url.cpp 68-73: remove the "/../" at `d` together with the segment before it. `rfind('/', dots - 1)` for
`dots = 0` searches the whole string, but then the first branch is taken anyway. -/
def cutUpAt (s : Bytes) (d : Nat) : Bytes :=
  match rfindChar 47 (s.take d) with
  | none => eraseAt s 0 (d + 4)
  | some p => if d = 0 then eraseAt s 0 (d + 4) else eraseAt s (p + 1) (d - p + 3)

theorem rfindChar_lt {c : UInt8} {s : Bytes} {n : Nat} (h : rfindChar c s = some n) : n < s.length := by
  induction s generalizing n with
  | nil => simp [rfindChar] at h
  | cons x r ih =>
    simp only [rfindChar] at h
    split at h
    next i hi => have := ih hi; simp at h; simp; omega
    next => split at h <;> simp at h; subst h; simp

theorem cutUpAt_length {s : Bytes} {d : Nat} (h : findSub [47, 46, 46, 47] s = some d) : (cutUpAt s d).length < s.length := by
  unfold cutUpAt
  split
  · exact eraseAt_length h (by simp) (by omega)
  · next p hp =>
    have := rfindChar_lt hp
    split
    · exact eraseAt_length h (by simp) (by omega)
    · refine eraseAt_length h ?_ (by omega)
      simp only [List.length_take] at this
      simp only [List.length_cons, List.length_nil]
      omega

/-- url.cpp 66-75: the loop over "/../". -/
def cutUp (s : Bytes) : Bytes :=
  match _h : findSub [47, 46, 46, 47] s with
  | none => s
  | some d => cutUp (cutUpAt s d)
termination_by s.length
decreasing_by exact cutUpAt_length _h

/-- url.cpp 52, 65: `if (path[0] == '/'){path.erase(0, 1);}` -/
def dropSlash (s : Bytes) : Bytes := if s.head? = some 47 then s.drop 1 else s

/-- url.cpp 76-77: one leading "./", then one leading "../". -/
def dropHead (s : Bytes) : Bytes :=
  let s := if s.take 2 = [46, 47] then s.drop 2 else s
  if s.take 3 = [46, 46, 47] then s.drop 3 else s

/-- url.cpp 79-80: a path that is just ".." or ".". -/
def dropOnly (s : Bytes) : Bytes :=
  let s := if s = [46, 46] then [] else s
  if s = [46] then [] else s

/-- `path.substr(path.length() - n)`, used with `path.length() >= n`. -/
def lastN (s : Bytes) (n : Nat) : Bytes := s.drop (s.length - n)

/-- url.cpp 81-89: a trailing "/..". -/
def cutTailUp (s : Bytes) : Bytes :=
  if 2 < s.length ∧ lastN s 3 = [47, 46, 46] then
    if s.length ≤ 4 then []
    else if lastN s 5 ≠ [46, 46, 47, 46, 46] then
      match rfindChar 47 (s.take (s.length - 3)) with
      | none => []
      | some p => s.take (p + 1)
    else s
  else s

/-- url.cpp 90-92: a trailing "/.". -/
def cutTailDot (s : Bytes) : Bytes :=
  if 1 < s.length ∧ lastN s 2 = [47, 46] then s.take (s.length - 1) else s

/-- url.cpp 52-92: path normalisation. -/
def normPath (s : Bytes) : Bytes :=
  cutTailDot (cutTailUp (dropOnly (dropHead (cutUp (dropSlash (cutSlash (cutDot (dropSlash s))))))))

/-- The data members of `HTTP::URL` (url.h 30-39). -/
structure Url where
  host : Bytes := []
  protocol : Bytes := []
  port : Bytes := []
  path : Bytes := []
  args : Bytes := []
  frag : Bytes := []
  user : Bytes := []
  pass : Bytes := []
  ipv6 : Bool := false
deriving DecidableEq

/-- `is_numeric` (url.cpp 10-16) on `s.c_str()`: reads up to the first NUL byte. -/
def isNumeric (s : Bytes) : Bool := (s.takeWhile (· ≠ 0)).all (fun c => 48 ≤ c && c ≤ 57)

/-- `URL::isLocalPath` (url.cpp 242-251). -/
def isLocalPath (u : Url) : Bool :=
  u.protocol == [0x66, 0x69, 0x6C, 0x65] || (u.host.isEmpty && u.protocol.isEmpty && u.port.isEmpty)

def rtsp : Bytes := [0x72, 0x74, 0x73, 0x70]
def rist : Bytes := [0x72, 0x69, 0x73, 0x74]

/-- url.cpp 39-50 (non-RTSP): cut the fragment, then the query. -/
def cutQuery (u : Url) (path : Bytes) : Url :=
  let (u, path) := match findChar 35 path with
    | none => (u, path)
    | some h => ({u with frag := Enc.urlDecode false (path.drop (h + 1))}, path.take h)
  match findChar 63 path with
  | none => {u with path := path}
  | some q => {u with args := path.drop (q + 1), path := path.take q}

/-- url.cpp 51-96: normalise, and decode unless the URL is local. -/
def finishPath (u : Url) : Url :=
  if u.path = [] then u
  else if isLocalPath u then {u with path := normPath u.path} else {u with path := Enc.urlDecode false (normPath u.path)}

/-- url.cpp 31-97: everything from the first '/', '?' or '#' on. `rest` starts with that character. -/
def parsePath (u : Url) (rest : Bytes) : Url :=
  match rest with
  | [] => u
  | c :: r =>
    let p := if c = 47 then r else c :: r
    finishPath (if u.protocol ≠ rtsp then cutQuery u p else {u with path := p})

/-- url.cpp 101-112: credentials in front of the host; returns what is left. -/
def parseCreds (u : Url) (uphp : Bytes) : Url × Bytes :=
  match findChar 64 uphp with
  | none => (u, uphp)
  | some a =>
    let creds := uphp.take a
    let u := match findChar 58 creds with
      | some c => {u with user := Enc.urlDecode false (creds.take c), pass := Enc.urlDecode false (creds.drop (c + 1))}
      | none => {u with user := Enc.urlDecode false creds}
    (u, uphp.drop (a + 1))

/-- url.cpp 114-131: a bracketed IPv6 host. -/
def parseHost6 (u : Url) (uphp : Bytes) : Url :=
  match findChar 93 uphp with
  | none => {u with ipv6 := true, host := uphp.drop 1, port := []}
  | some b =>
    let host := (uphp.drop 1).take (b - 1)
    match findChar 58 (uphp.drop b) with
    | none => {u with ipv6 := true, host := host, port := []}
    | some c =>
      let port := uphp.drop (b + c + 1)
      if isNumeric port then {u with ipv6 := true, host := host, port := port}
      else {u with ipv6 := true, host := host ++ 58 :: port, port := []}

/-- url.cpp 132-150: any other host. -/
def parseHost4 (u : Url) (uphp : Bytes) : Url :=
  let u := match rfindChar 58 uphp with
    | none => {u with port := [], host := uphp}
    | some c =>
      let port := uphp.drop (c + 1)
      let host := uphp.take c
      if isNumeric port then {u with port := port, host := host}
      else {u with ipv6 := true, port := [], host := host ++ 58 :: port}
  if u.host.contains 58 then {u with ipv6 := true} else u

/-- url.cpp 151-155: a numeric host is a port. -/
def hostAsPort (u : Url) : Url := if u.host ≠ [] ∧ isNumeric u.host then {u with port := u.host, host := []} else u

/-- url.cpp 113-155. -/
def parseHost (u : Url) (uphp : Bytes) : Url :=
  hostAsPort (if uphp.head? = some 91 then parseHost6 u uphp else parseHost4 u uphp)

/-- "/", "?" or "#": the characters that end the authority (url.cpp 31). -/
def pathStart (c : UInt8) : Bool := c == 47 || c == 63 || c == 35

/-- url.cpp 29-155: everything after the protocol. -/
def parseRest (u : Url) (s : Bytes) : Url :=
  let u := parsePath u (s.dropWhile (fun c => !pathStart c))
  let (u, uphp) := parseCreds u (s.takeWhile (fun c => !pathStart c))
  parseHost u uphp

/-- `URL::URL` (url.cpp 19-157). -/
def parse (url : Bytes) : Url :=
  match findSub [58, 47, 47] url with
  | some p => parseRest {protocol := url.take p} (url.drop (p + 3))
  | none => if url.take 2 = [47, 47] then parseRest {} (url.drop 2) else parseRest {} url

/-- Decimal value of the leading digits: `atoi` on a string of at most nine digits (the result is
then converted to `uint16_t`; longer strings are not considered, `atoi` may overflow on them). -/
def atoi (s : Bytes) : Nat := (s.takeWhile (fun c => 48 ≤ c && c ≤ 57)).foldl (fun v c => v * 10 + (c.toNat - 48)) 0

/-- `URL::getDefaultPort` (url.cpp 172-183). -/
def defaultPort (protocol : Bytes) : Nat :=
  if protocol = [0x68, 0x74, 0x74, 0x70] then 80
  else if protocol = [0x68, 0x74, 0x74, 0x70, 0x73] then 443
  else if protocol = [0x77, 0x73] then 80
  else if protocol = [0x77, 0x73, 0x73] then 443
  else if protocol = [0x72, 0x74, 0x6D, 0x70] then 1935
  else if protocol = [0x72, 0x74, 0x6D, 0x70, 0x73] then 443
  else if protocol = [0x64, 0x74, 0x73, 0x63] then 4200
  else if protocol = [0x72, 0x74, 0x73, 0x70] then 554
  else if protocol = [0x73, 0x72, 0x74] then 8889
  else 0

/-- `URL::getPort` (url.cpp 160-163). -/
def getPort (u : Url) : Nat := if u.port = [] then defaultPort u.protocol else atoi u.port % 65536

/-- "/:=@[]" (url.cpp 238). -/
def ignPath : Bytes := [47, 58, 61, 64, 91, 93]
/-- "/:=@[]#?&" (url.cpp 223, 234). -/
def ignFrag : Bytes := [47, 58, 61, 64, 91, 93, 35, 63, 38]
/-- "/:=@[]+ " (url.cpp 236). -/
def ignLocal : Bytes := [47, 58, 61, 64, 91, 93, 43, 32]

/-- `URL::getEncodedPath` (url.cpp 230-239). -/
def encodedPath (u : Url) : Bytes :=
  if u.protocol = rtsp then Enc.urlEncode ignFrag false u.path
  else if isLocalPath u then Enc.urlEncode ignLocal false u.path
  else Enc.urlEncode ignPath false u.path

/-- url.cpp 204-209. -/
def credString (u : Url) : Bytes :=
  if u.user ≠ [] ∨ u.pass ≠ [] then
    if u.pass = [] then Enc.urlEncode [] false u.user ++ [64]
    else Enc.urlEncode [] false u.user ++ 58 :: Enc.urlEncode [] false u.pass ++ [64]
  else []

/-- url.cpp 211-216: host and port. -/
def hostString (u : Url) : Bytes :=
  (if u.ipv6 ∨ u.host.contains 58 then 91 :: u.host ++ [93] else u.host) ++
    (if u.port ≠ [] ∧ getPort u ≠ defaultPort u.protocol then 58 :: u.port else [])

/-- `URL::getUrl` (url.cpp 197-223). -/
def getUrl (u : Url) : Bytes :=
  (if u.protocol ≠ [] then u.protocol ++ [58, 47, 47] else [47, 47]) ++ credString u ++ hostString u ++
    (if u.protocol ≠ rist then 47 :: encodedPath u else []) ++
    (if u.args ≠ [] then 63 :: u.args else []) ++
    (if u.frag ≠ [] then 35 :: Enc.urlEncode ignFrag false u.frag else [])

/-- `URL::getFilePath` (url.cpp 226-228). -/
def getFilePath (u : Url) : Bytes := 47 :: u.path

end Verif.Url
