import Verif.Json.Model
import Verif.Enc.Model
import Verif.Auth.Model
import Verif.Http.Model

/-!
# Model of access tokens (`/repo/lib/jwt.cpp`, `/repo/src/session.cpp`, `/repo/src/output/output.cpp`)

The library mbedtls, name resolution and the text of doubles are parameters (`Env`). The shared page with the keys is the list of
its records. `none` stands for an exception that ends the process, for reading outside a string, and for the signed overflow in
the JSON parser. Simplified: a JSON value that is not an object has no members (in the code a text like `{"a":1 t` leaves a
boolean that has some), and a value whose type is not array or object has size 0.
-/
namespace Verif.Jwt
open Verif.Json (JVal Dbl parseText toText)
open Verif.Enc (b64Encode b64Decode)
open Verif.Auth (Sha shabin hmacShabin)

/-- The bytes of a text. -/
def asc (s : String) : Bytes := s.toUTF8.toList

/-- `s.find(c)`; `none` is `std::string::npos`. -/
def find (s : Bytes) (c : UInt8) : Option Nat := s.findIdx? (· == c)

/-- `s.substr(p, n)`, where `p` is inside the string. -/
def substr (s : Bytes) (p n : Nat) : Bytes := (s.drop p).take n

/-- jwt.cpp 14-24: `equalsWithWildcard`. -/
def equalsWithWildcard (a b : Bytes) : Bool :=
  if a = [42] ∨ b = [42] then true
  else
    let apos := find a 42
    let bpos := find b 42
    if !apos.isSome && !bpos.isSome then a == b
    else
      let pre := min (apos.getD a.length) (bpos.getD b.length)
      if substr a 0 pre ≠ substr b 0 pre then false
      else
        let suf := min (match apos with | some i => a.length - i - 1 | none => a.length)
          (match bpos with | some i => b.length - i - 1 | none => b.length)
        if a.drop (a.length - suf) ≠ b.drop (b.length - suf) then false else true

/-- jwt.cpp 40-53: the loop of `isJWS`; the second argument counts the dots. -/
def isJWSLoop : Bytes → Nat → Bool
  | [], dots => dots == 2
  | c :: r, dots =>
    if c < 45 then false
    else if c = 46 then (if dots + 1 > 2 then false else isJWSLoop r (dots + 1))
    else if c = 47 ∨ c = 58 ∨ c = 64 ∨ c = 96 then false
    else if c = 95 ∨ c &&& 0x1F < 27 then isJWSLoop r dots
    else false

/-- jwt.cpp 40-53: `isJWS`. -/
def isJWS (s : Bytes) : Bool := isJWSLoop s 0

/-! ## JSON values -/

/-- `isMember` (json.cpp 1331-1333). -/
def isMember (v : JVal) (name : Bytes) : Bool :=
  match v with
  | .obj l => (l.lookup name).isSome
  | _ => false

/-- `operator[](const char *) const` (json.cpp 864-868). -/
def member (v : JVal) (name : Bytes) : JVal :=
  match v with
  | .obj l => (l.lookup name).getD .unset
  | _ => .unset

/-- `asStringRef` (json.cpp 799-803). -/
def strRef : JVal → Bytes
  | .str s => s
  | _ => []

/-- `operator std::string` (json.cpp 762-766). -/
def asString (f : Dbl → Bytes) : JVal → Bytes
  | .str s => s
  | .null => []
  | .unset => []
  | v => toText f v

/-- `asInt` (json.cpp 745-750): booleans give 0. The conversion of doubles that are too large is left out. -/
def asInt : JVal → Int
  | .int i => i
  | .dbl d => d.whole
  | .str s => Http.atoll s
  | _ => 0

/-- `size()` (json.cpp 1371-1373). -/
def size : JVal → Nat
  | .obj l => l.length
  | .arr l => l.length
  | _ => 0

/-- `isNull` (json.cpp 1366-1368). -/
def isNull : JVal → Bool
  | .unset => true
  | .null => true
  | _ => false

/-! ## Keys -/

/-- jwt.h: `Key`. -/
structure Key where
  jwk : JVal
  stream : List Bytes
  perms : Nat

/-- jwt.cpp 61: the members that every key keeps. -/
def common : List Bytes :=
  [asc "kty", asc "kid", asc "use", asc "key_ops", asc "alg", asc "x5u", asc "x5c", asc "x5t", asc "x5t#S256"]

/-- jwt.cpp 68-72: the members that a key keeps because of the first letter of its type. -/
def ofType (c : UInt8) : List Bytes :=
  if c = 111 then [asc "k"]
  else if c = 82 then [asc "n", asc "e", asc "d", asc "p", asc "q", asc "dp", asc "dq", asc "qi"]
  else if c = 69 then [asc "crv", asc "x", asc "y", asc "d"]
  else []

/-- jwt.cpp 56-73: what becomes of the member `jwk`; `none`: `at(0)` throws for an empty type. -/
def keep (jwk : JVal) : Option JVal :=
  match jwk with
  | .obj l =>
    if isMember jwk (asc "kty") then
      match strRef (member jwk (asc "kty")) with
      | [] => none
      | c :: _ => some (.obj (l.filter fun m => common.contains m.1 || (ofType c).contains m.1))
    else some .unset
  | _ => some .unset

/-- jwt.cpp 88-96: the streams of a key. -/
def streams (v : JVal) : List Bytes :=
  let l := match v with
    | .str s => [s]
    | .arr l => l.filterMap fun x => match x with | .str s => some s | _ => none
    | _ => []
  if l.isEmpty then [[42]] else l

/-- jwt.cpp 86-97: the constructor with permissions. -/
def mkKey (jwk stream : JVal) (perms : Nat) : Option Key := (keep jwk).map fun j => ⟨j, streams stream, perms⟩

/-- jwt.cpp 126-132: `matchKeyPerms`. -/
def matchKeyPerms (k : Key) (streamName : Bytes) (required : Nat) : Bool :=
  if k.perms &&& required ≠ required then false
  else if k.stream.isEmpty then true
  else k.stream.any fun i => equalsWithWildcard streamName i

/-! ## Signatures -/

/-- What is not modelled: the text of doubles, whether an address belongs to a host (`Socket::isBinAddress`, with name
resolution), and mbedtls: whether the numbers of an RSA key can be used, whether a point is on a curve, and the two
verifications of a hash. -/
structure Env where
  dbl : Dbl → Bytes
  ip : Bytes → Bytes → Bool
  rsaKey : Bytes → Bytes → Bool
  rsa : Bool → Sha → Bytes → Bytes → Bytes → Bytes → Bool
  ecKey : Sha → Bytes → Bytes → Bool
  ec : Sha → Bytes → Bytes → Bytes → Bytes → Bytes → Bool

/-- auth.h 8: bits of a hash. -/
def bits : Sha → Nat
  | .sha256 => 256
  | .sha384 => 384
  | .sha512 => 512

/-- auth.cpp 437-442: `digest_hmac`. -/
def digestHmac (msg : Bytes) (key : JVal) (alg : Sha) : Bytes :=
  let k := b64Decode (strRef (member key (asc "k")))
  b64Encode ((hmacShabin msg k alg).take (bits alg / 8)) true

/-- jwt.cpp 309-320: `verify_hmac`. -/
def verifyHmac (msg : Bytes) (key : JVal) (sig : Bytes) (alg : Sha) : Bool := digestHmac msg key alg == sig

/-- jwt.cpp 323-400: `verify_rsa`. mbedtls reads as many bytes of the signature as the number n has; a `std::string` has one
byte more than its size that may be read. -/
def verifyRsa (env : Env) (msg : Bytes) (key : JVal) (sig : Bytes) (pss : Bool) (alg : Sha) : Option Bool :=
  if !isMember key (asc "n") || !isMember key (asc "e") then some false
  else
    let hash := shabin msg alg
    let n := b64Decode (asString env.dbl (member key (asc "n")))
    let e := b64Decode (asString env.dbl (member key (asc "e")))
    let s := b64Decode sig
    if !env.rsaKey n e then some false
    else if s.length + 1 < (n.dropWhile (· == 0)).length then none
    else some (env.rsa pss alg n e hash s)

/-- jwt.cpp 433-439: `half_sig_size`, by the hash that belongs to the curve. -/
def half : Sha → Nat
  | .sha256 => 32
  | .sha384 => 48
  | .sha512 => 66

/-- jwt.cpp 403-498: `verify_ecdsa`. -/
def verifyEcdsa (env : Env) (msg : Bytes) (key : JVal) (sig : Bytes) (alg : Sha) : Option Bool :=
  if !isMember key (asc "crv") || !isMember key (asc "x") || !isMember key (asc "y") then some false
  else
    let x := b64Decode (asString env.dbl (member key (asc "x")))
    let y := b64Decode (asString env.dbl (member key (asc "y")))
    let s := b64Decode sig
    if s.length + 1 < 2 * half alg then none
    else if !env.ecKey alg x y then some false
    else some (env.ec alg x y (shabin msg alg) (s.take (half alg)) ((s.drop (half alg)).take (half alg)))

/-- jwt.cpp 248-259: the algorithms. -/
inductive Alg where
  | hs (s : Sha)
  | rs (s : Sha)
  | ps (s : Sha)
  | es (s : Sha)
  deriving DecidableEq

/-- jwt.cpp 248-259: their names. -/
def algTable : List (Bytes × Alg) :=
  [(asc "HS256", .hs .sha256), (asc "HS384", .hs .sha384), (asc "HS512", .hs .sha512),
   (asc "RS256", .rs .sha256), (asc "RS384", .rs .sha384), (asc "RS512", .rs .sha512),
   (asc "ES256", .es .sha256), (asc "ES384", .es .sha384), (asc "ES512", .es .sha512),
   (asc "PS256", .ps .sha256), (asc "PS384", .ps .sha384), (asc "PS512", .ps .sha512)]

/-- jwt.cpp 246-264: `verify` (with SSL). -/
def verify (env : Env) (msg : Bytes) (key : JVal) (sig alg : Bytes) : Option Bool :=
  match algTable.lookup alg with
  | some (.hs s) => some (verifyHmac msg key sig s)
  | some (.rs s) => verifyRsa env msg key sig false s
  | some (.ps s) => verifyRsa env msg key sig true s
  | some (.es s) => verifyEcdsa env msg key sig s
  | none => some false

/-! ## Tokens -/

/-- jwt.h: `JWS`. -/
structure Jws where
  hdr : JVal
  pld : JVal
  sig : Bytes
  sin : Bytes
  perms : Nat

/-- jwt.cpp 148-153: the header, the payload and the signature, still encoded. Since `npos + 1` is 0, a text without dots is
all three, and one with a single dot is its own signature. -/
def cut (pkg : Bytes) : Bytes × Bytes × Bytes :=
  match find pkg 46 with
  | none => (pkg, pkg, pkg)
  | some p1 =>
    match find (pkg.drop (p1 + 1)) 46 with
    | none => (substr pkg 0 p1, pkg.drop (p1 + 1), pkg)
    | some p2 => (substr pkg 0 p1, substr pkg (p1 + 1) p2, pkg.drop (p1 + 1 + p2 + 1))

/-- jwt.cpp 146-160: the constructors. The result of `isJWS` is not used. -/
def parseJws (pkg : Bytes) (perms : Nat) : Option Jws :=
  let c := cut pkg
  (parseText (b64Decode c.1)).bind fun h =>
    (parseText (b64Decode c.2.1)).bind fun p => some ⟨h, p, c.2.2, c.1 ++ [46] ++ c.2.1, perms⟩

/-- jwt.cpp 171-174: `operator bool`. -/
def Jws.ok (t : Jws) : Bool := if size t.hdr = 0 || t.sig.isEmpty || !isMember t.hdr (asc "alg") then false else true

/-- jwt.cpp 177-180: `hasWildcard`. -/
def Jws.hasWildcard (t : Jws) : Bool :=
  if isMember t.pld (asc "sub") && (strRef (member t.pld (asc "sub"))).contains 42 then true else false

/-- Conversion to `uint64_t`. -/
def u64 (i : Int) : Nat := (i % 2 ^ 64).toNat

/-- jwt.cpp 183-197: `checkClaims`, at the time `now` (seconds since 1970). -/
def checkClaims (env : Env) (t : Jws) (streamName hostIP : Bytes) (now : Nat) : Bool :=
  if !t.ok ||
      (isMember t.pld (asc "sub") && !streamName.isEmpty && !equalsWithWildcard streamName (asString env.dbl (member t.pld (asc "sub")))) ||
      (isMember t.pld (asc "ipa") && !env.ip hostIP (asString env.dbl (member t.pld (asc "ipa")))) ||
      (isMember t.pld (asc "nbf") && now < u64 (asInt (member t.pld (asc "nbf")))) ||
      (isMember t.pld (asc "exp") && now > u64 (asInt (member t.pld (asc "exp")))) then false
  else true

/-- controller_storage.cpp 1040-1044: a record of the shared page. Texts end at the first zero byte. -/
structure Entry where
  kid : Bytes
  kty : Bytes
  key : Bytes
  stream : Bytes
  perms : Nat

/-- jwt.cpp 227-228 and 299-300: the key of a record. -/
def entryKey (e : Entry) : Option Key :=
  (parseText e.key).bind fun j => (parseText e.stream).bind fun s => mkKey j s e.perms

/-- jwt.cpp 285-289: the first letter of the key type that goes with an algorithm. -/
def algLetter (alg : Bytes) : Option UInt8 :=
  match alg with
  | [] => none
  | c :: _ => if c = 72 then some 111 else if c = 82 ∨ c = 80 then some 82 else if c = 69 then some 69 else none

/-- jwt.cpp 291-304: the loop of `verify_any`. -/
def anyLoop (env : Env) (t : Jws) (alg : Bytes) (aty : UInt8) : List Entry → Option Bool
  | [] => some false
  | e :: r =>
    if e.kty.head? ≠ some aty then anyLoop env t alg aty r
    else
      (entryKey e).bind fun k =>
        if matchKeyPerms k (strRef (member t.pld (asc "sub"))) t.perms then
          (verify env t.sin k.jwk t.sig alg).bind fun ok => if ok then some true else anyLoop env t alg aty r
        else anyLoop env t alg aty r

/-- jwt.cpp 267-305: `verify_any`. -/
def verifyAny (env : Env) (table : List Entry) (t : Jws) (alg : Bytes) : Option Bool :=
  match algLetter alg with
  | none => some false
  | some aty => anyLoop env t alg aty table

/-- jwt.cpp 200-238: `validateSignature`, with the page present. -/
def validateSignature (env : Env) (table : List Entry) (t : Jws) : Option Bool :=
  let alg := strRef (member t.hdr (asc "alg"))
  let kid := strRef (member t.hdr (asc "kid"))
  if kid.isEmpty then verifyAny env table t alg
  else
    match table.find? (fun e => e.kid == kid) with
    | none => verifyAny env table t alg
    | some e =>
      (entryKey e).bind fun k =>
        if !isNull k.jwk then
          (if matchKeyPerms k (strRef (member t.pld (asc "sub"))) t.perms then verify env t.sin k.jwk t.sig alg else some false)
        else verifyAny env table t alg

/-- session.cpp 271-277: whether a viewer's token is valid when the session starts (`JWK_PERM_OUTPUT` is 4). -/
def viewerToken (env : Env) (table : List Entry) (token streamName hostIP : Bytes) (now : Nat) : Option Bool :=
  (parseJws token 4).bind fun t =>
    if t.ok && checkClaims env t streamName hostIP now then validateSignature env table t else some false

/-- session.cpp 374-378: the same when a re-sync is asked for; `valid` is the result so far. -/
def resync (env : Env) (table : List Entry) (t : Jws) (streamName hostIP : Bytes) (now : Nat) (valid : Bool) : Option Bool :=
  if checkClaims env t streamName hostIP now then validateSignature env table t else some valid

/-- output.cpp 2894-2905: which stream a token that stands in place of the stream name lets a publisher push to
(`JWK_PERM_INPUT` is 2). The stream name is sanitised afterwards. -/
def pushToken (env : Env) (table : List Entry) (name hostIP : Bytes) (now : Nat) : Option (Option Bytes) :=
  if !isJWS name then some none
  else
    (parseJws name 2).bind fun t =>
      if !t.ok || t.hasWildcard || !checkClaims env t [] hostIP now then some none
      else (validateSignature env table t).bind fun ok => if ok then some (some (strRef (member t.pld (asc "sub")))) else some none

/-! ## The controller's keys -/

/-- `std::set<JWT::Key>::insert` (controller_storage.cpp 49 and 1024): a `Key` has no comparison of its own, so that the one of
`operator bool` is used (jwt.cpp 121-123): two keys are equivalent if both are set or both are empty. -/
def insertKey (l : List Key) (k : Key) : List Key := if l.any (fun x => isNull x.jwk == isNull k.jwk) then l else l ++ [k]

/-- jwt.cpp 78-80: a permission that is a boolean, or else what it is without one. -/
def flag (v : JVal) (dflt : Bool) : Bool :=
  match v with
  | .bool b => b
  | _ => dflt

/-- jwt.cpp 76-83: the permissions of a configured key. -/
def permsOf (p : JVal) : Nat :=
  (if flag (member p (asc "input")) true then 2 else 0) + (if flag (member p (asc "output")) true then 4 else 0) +
    (if flag (member p (asc "admin")) false then 1 else 0)

/-- controller_storage.cpp 1014-1025: the keys of a configuration, each with its permissions, are added to those that are
there; keys behind URLs are left out. -/
def addConfig (l : List Key) (config : List (JVal × JVal)) : Option (List Key) :=
  config.foldlM (fun l c => (mkKey c.1 (member c.2 (asc "stream")) (permsOf c.2)).map (insertKey l)) l

/-- The keys after a history of configurations, oldest first: `jwkResolved["default"]` is never emptied. -/
def afterConfigs (history : List (List (JVal × JVal))) : Option (List Key) := history.foldlM addConfig []

end Verif.Jwt
