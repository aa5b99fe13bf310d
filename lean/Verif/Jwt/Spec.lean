import Verif.Jwt.Model
import Verif.Enc.Spec
import Verif.Auth.Spec

/-!
# Access tokens: what the properties are about

Base64 (`Enc.Spec`), the hash functions and HMAC (`Auth.Spec`) are those of the standards. The texts of JSON are read by
`parseText` (C19, C54, C55).
-/
namespace Verif.Jwt.Spec
open Verif.Json (JVal parseText)
open Verif.Auth (Sha)

/-- A name is one of those a pattern stands for. In a pattern the first star stands for any text. -/
def Glob (pattern name : Bytes) : Prop :=
  (42 ∉ pattern ∧ name = pattern) ∨ ∃ a b m, pattern = a ++ 42 :: b ∧ 42 ∉ a ∧ name = a ++ m ++ b

/-- The first letter of the type of key that an algorithm needs: "oct", "RSA" or "EC". -/
def letter : Alg → UInt8
  | .hs _ => 111
  | .rs _ => 82
  | .ps _ => 82
  | .es _ => 69

/-- The type of a key has this first letter. -/
def TypeIs (jwk : JVal) (c : UInt8) : Prop := (strRef (member jwk (asc "kty"))).head? = some c

/-- The hash functions. -/
def hash : Sha → Bytes → Bytes
  | .sha256 => Auth.Spec.sha256
  | .sha384 => Auth.Spec.sha384
  | .sha512 => Auth.Spec.sha512

/-- HMAC with them. -/
def mac : Sha → Bytes → Bytes → Bytes
  | .sha256 => Auth.Spec.hmac Auth.Spec.sha256 64
  | .sha384 => Auth.Spec.hmac Auth.Spec.sha384 128
  | .sha512 => Auth.Spec.hmac Auth.Spec.sha512 128

/-- The text of a member of a key, decoded. -/
def part (env : Env) (jwk : JVal) (name : String) : Bytes := Enc.b64Decode (asString env.dbl (member jwk (asc name)))

/-- The secret of a symmetric key. -/
def secret (jwk : JVal) : Bytes := Enc.b64Decode (strRef (member jwk (asc "k")))

/-- The size of a number of an elliptic curve: RFC 7518, 3.4 has the curves P-256, P-384 and P-521. -/
def curveBytes : Sha → Nat
  | .sha256 => (256 + 7) / 8
  | .sha384 => (384 + 7) / 8
  | .sha512 => (521 + 7) / 8

/-- The signature of a text was made with this key: the key has the type that goes with the algorithm, and the signature is the
message authentication code (base64, RFC 7515) of the text under the secret of the key, or the library confirms it as a
signature of the hash of the text for the public key. -/
def SignedBy (env : Env) (jwk : JVal) (alg : Alg) (text sig : Bytes) : Prop :=
  TypeIs jwk (letter alg) ∧
  match alg with
  | .hs s => sig = Enc.Spec.base64 true false (mac s (secret jwk) text)
  | .rs s => env.rsa false s (part env jwk "n") (part env jwk "e") (hash s text) (Enc.b64Decode sig) = true
  | .ps s => env.rsa true s (part env jwk "n") (part env jwk "e") (hash s text) (Enc.b64Decode sig) = true
  | .es s => env.ec s (part env jwk "x") (part env jwk "y") (hash s text) ((Enc.b64Decode sig).take (curveBytes s))
      (((Enc.b64Decode sig).drop (curveBytes s)).take (curveBytes s)) = true

/-- The name of an algorithm (RFC 7518, 3.1). -/
def algName : Alg → Bytes
  | .hs .sha256 => asc "HS256" | .hs .sha384 => asc "HS384" | .hs .sha512 => asc "HS512"
  | .rs .sha256 => asc "RS256" | .rs .sha384 => asc "RS384" | .rs .sha512 => asc "RS512"
  | .es .sha256 => asc "ES256" | .es .sha384 => asc "ES384" | .es .sha512 => asc "ES512"
  | .ps .sha256 => asc "PS256" | .ps .sha384 => asc "PS384" | .ps .sha512 => asc "PS512"

/-- A record as the controller writes them: its column for the type agrees with the key in it, and the secret is not endless. -/
def Configured (e : Entry) : Prop :=
  ∀ k, entryKey e = some k → (strRef (member k.jwk (asc "kty"))).head? = e.kty.head? ∧ (secret k.jwk).length < 2 ^ 51

/-- What a token in compact form says (RFC 7515, 7.1): its header, its payload, the text that is signed and the signature. -/
structure Reads (token : Bytes) (header payload : JVal) (text sig : Bytes) : Prop where
  whole : token = text ++ 46 :: sig
  parts : ∃ a b, text = a ++ 46 :: b ∧ 46 ∉ a ∧ 46 ∉ b ∧ parseText (Enc.b64Decode a) = some header ∧ parseText (Enc.b64Decode b) = some payload

/-- A token in compact form, from the texts of the header and the payload, and the signature. -/
def signedText (header payload : Bytes) : Bytes :=
  Enc.Spec.base64 true false header ++ 46 :: Enc.Spec.base64 true false payload

/-- A token made with the secret of a symmetric key and HMAC-SHA256, from a header and a payload without doubles. -/
def issue (key : Bytes) (header payload : JVal) : Bytes :=
  let text := signedText (Json.toText (fun _ => []) header) (Json.toText (fun _ => []) payload)
  text ++ 46 :: Enc.Spec.base64 true false (mac .sha256 key text)

/-- The header that says so. -/
def hs256 : JVal := .obj [(asc "alg", .str (asc "HS256"))]

/-- A payload that says nothing but the subject. -/
def subject (s : Bytes) : JVal := .obj [(asc "sub", .str s)]

/-- The record of a symmetric key that may be used to watch, with its secret and patterns. -/
structure WatchKey (e : Entry) (key : Bytes) (patterns : List Bytes) : Prop where
  configured : Configured e
  is : ∃ k, entryKey e = some k ∧ TypeIs k.jwk 111 ∧ k.perms &&& 4 = 4 ∧ secret k.jwk = key ∧ k.stream = patterns

/-- Three parts of base64url characters with dots between them. -/
def IsCompact (s : Bytes) : Prop :=
  ∃ a b c : Bytes, s = a ++ 46 :: (b ++ 46 :: c) ∧ ∀ x ∈ a ++ b ++ c, ∃ v < 64, x = Enc.Spec.digit true v

/-- A member that is a text. -/
def textOf (v : JVal) (name : String) : Bytes := strRef (member v (asc name))

/-- A key in the list of keys lets one do what the bits `perms` stand for (1: administrate, 2: publish, 4: watch) and has a
pattern for the subject, and it made the signature. -/
def Authorised (env : Env) (table : List Entry) (perms : Nat) (header payload : JVal) (text sig : Bytes) : Prop :=
  ∃ e ∈ table, ∃ k alg, entryKey e = some k ∧ k.perms &&& perms = perms ∧ (∃ p ∈ k.stream, equalsWithWildcard (textOf payload "sub") p = true) ∧
    textOf header "alg" = algName alg ∧ SignedBy env k.jwk alg text sig

end Verif.Jwt.Spec
