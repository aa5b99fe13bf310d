import Verif.Jwt.Lemmas

/-!
# Properties of access tokens: C65, C66, C67, C68
-/
namespace Verif.Jwt
open Verif.Json (JVal Dbl parseText toText)
open Verif.Json.Spec (Good KeptText GoodMembers)
open Verif.Enc (b64Decode)
open Spec

/-! ## C65: a token that is accepted was signed by a key that allows it -/

/-- The condition under which the key that a token names is used as what it is. -/
def NamedKeyFits (table : List Entry) (header : JVal) : Prop :=
  ∀ e ∈ table, textOf header "kid" ≠ [] → e.kid = textOf header "kid" → ∀ k, entryKey e = some k → ∀ alg,
    textOf header "alg" = algName alg → TypeIs k.jwk (letter alg)

/-- C65, watching: for every list of keys as the controller writes it and every token of two dots, a viewer is let in only if
some key of the list may be used to watch, has a pattern for the subject and signed the token. Missing: tokens that name a key
of another type than their algorithm needs, for which the claim is false (`C65_forge_fails`), and texts with fewer dots, which
are cut into parts that overlap. -/
theorem C65_watch_partial (env : Env) (table : List Entry) (hcf : ∀ e ∈ table, Configured e) (token streamName hostIP : Bytes) (now : Nat)
    (h2 : 2 ≤ token.count 46) (hl : token.length < 2 ^ 50) (h : viewerToken env table token streamName hostIP now = some true) :
    ∃ header payload text sig, Reads token header payload text sig ∧
      (NamedKeyFits table header → Authorised env table 4 header payload text sig) := by
  unfold viewerToken at h
  rw [Option.bind_eq_some_iff] at h
  obtain ⟨t, ht, h⟩ := h
  obtain ⟨hr, hp⟩ := parse_reads h2 ht
  refine ⟨t.hdr, t.pld, t.sin, t.sig, hr, fun hk => ?_⟩
  split at h
  · rw [← hp]
    refine validate_true ?_ hcf hk h
    have := congrArg List.length hr.whole
    rw [List.length_append, List.length_cons] at this
    omega
  · cases h

/-- C65, publishing: a text in place of a stream name opens a stream for publishing only if it is a token of a key that may be
used to publish, and the stream is the subject. -/
theorem C65_publish_partial (env : Env) (table : List Entry) (hcf : ∀ e ∈ table, Configured e) (token hostIP stream : Bytes) (now : Nat)
    (hl : token.length < 2 ^ 50) (h : pushToken env table token hostIP now = some (some stream)) :
    ∃ header payload text sig, Reads token header payload text sig ∧ stream = textOf payload "sub" ∧ 42 ∉ stream ∧
      (NamedKeyFits table header → Authorised env table 2 header payload text sig) := by
  unfold pushToken at h
  split at h
  · cases h
  · rename_i hj
    have hj : isJWSLoop token 0 = true := by simpa [isJWS] using hj
    have h2 := isJWSLoop_dots _ _ hj
    rw [Option.bind_eq_some_iff] at h
    obtain ⟨t, ht, h⟩ := h
    obtain ⟨hr, hp⟩ := parse_reads (by omega) ht
    split at h
    · cases h
    · rename_i hw
      rw [Option.bind_eq_some_iff] at h
      obtain ⟨ok, hv, h⟩ := h
      split at h
      · rename_i hok
        subst hok
        refine ⟨t.hdr, t.pld, t.sin, t.sig, hr, ?_, ?_, fun hk => ?_⟩
        · exact (Option.some.inj (Option.some.inj h)).symm
        · have hs := Option.some.inj (Option.some.inj h)
          subst hs
          have : t.hasWildcard = false := by
            cases hh : t.hasWildcard
            · rfl
            · rw [hh] at hw; simp at hw
          unfold Jws.hasWildcard at this
          split at this
          · cases this
          · rename_i hn
            intro hm
            apply hn
            have hmem : isMember t.pld (asc "sub") = true := by
              cases hp : t.pld with
              | obj l =>
                rw [hp] at hm
                simp only [member] at hm
                simp only [isMember]
                cases hl : l.lookup (asc "sub") with
                | none => rw [hl] at hm; simp [strRef] at hm
                | some v => rfl
              | _ => rw [hp] at hm; simp [member, strRef] at hm
            rw [hmem]
            simpa using hm
        · rw [← hp]
          refine validate_true ?_ hcf hk hv
          have := congrArg List.length hr.whole
          rw [List.length_append, List.length_cons] at this
          omega
      · cases h

/-- C65: whatever the list of keys, a token whose algorithm is not one of the twelve (so also "none") lets nobody in. -/
theorem C65_unknown_algorithm (env : Env) (table : List Entry) (token streamName hostIP : Bytes) (now : Nat) (header payload : JVal)
    (text sig : Bytes) (hr : Reads token header payload text sig) (hx : ∀ alg, textOf header "alg" ≠ algName alg) :
    viewerToken env table token streamName hostIP now ≠ some true := by
  obtain ⟨rfl, a, b, rfl, ha, hb, h1, h2⟩ := hr
  intro h
  unfold viewerToken parseJws at h
  rw [show a ++ 46 :: b ++ 46 :: sig = a ++ [46] ++ b ++ [46] ++ sig by simp, cut_compact ha hb] at h
  simp only [h1, h2, Option.bind_some] at h
  split at h
  · exact validate_none (t := ⟨header, payload, sig, a ++ [46] ++ b, 4⟩) hx table h
  · cases h

example : ∀ alg, textOf (.obj [(asc "alg", .str (asc "none"))]) "alg" ≠ algName alg := by
  intro alg
  rcases alg with s | s | s | s <;> cases s <;> decide +kernel

/-- C65, the other way round: a token without a key's name that was made with the secret of any symmetric key of the list, whose
permissions and patterns allow it and whose claims are met, is accepted. -/
theorem C65_accepted (env : Env) (table : List Entry) (hcf : ∀ e ∈ table, Configured e) (hok : ∀ e ∈ table, entryKey e ≠ none)
    (e : Entry) (he : e ∈ table) (k : Key) (hk : entryKey e = some k) (hp : k.perms &&& 4 = 4) (s : Auth.Sha) (token streamName hostIP : Bytes)
    (now : Nat) (hl : token.length < 2 ^ 50) (header payload : JVal) (text sig : Bytes) (hr : Reads token header payload text sig)
    (hkid : textOf header "kid" = []) (halg : textOf header "alg" = algName (.hs s))
    (hs : ∃ p ∈ k.stream, equalsWithWildcard (textOf payload "sub") p = true) (hsig : SignedBy env k.jwk (.hs s) text sig)
    (hc : checkClaims env ⟨header, payload, sig, text, 4⟩ streamName hostIP now = true) :
    viewerToken env table token streamName hostIP now = some true := by
  have hlen := congrArg List.length hr.whole
  rw [List.length_append, List.length_cons] at hlen
  obtain ⟨rfl, a, b, rfl, ha, hb, h1, h2⟩ := hr
  unfold viewerToken parseJws
  rw [show a ++ 46 :: b ++ 46 :: sig = a ++ [46] ++ b ++ [46] ++ sig by simp, cut_compact ha hb]
  simp only [h1, h2, Option.bind_some]
  rw [show a ++ [46] ++ b = a ++ 46 :: b by simp]
  have hj : Jws.ok ⟨header, payload, sig, a ++ 46 :: b, 4⟩ = true := by
    cases hj : Jws.ok ⟨header, payload, sig, a ++ 46 :: b, 4⟩
    · unfold checkClaims at hc; rw [hj] at hc; simp at hc
    · rfl
  rw [hj, hc]
  simp only [Bool.and_self, if_true]
  unfold validateSignature
  unfold textOf at hkid halg
  simp only [hkid, halg, List.isEmpty_nil, if_true]
  unfold verifyAny
  rw [algLetter_name]
  exact anyLoop_hs (t := ⟨header, payload, sig, a ++ 46 :: b, 4⟩) (by dsimp only; omega) hcf hok e he k hk hp hs hsig

/-- C65 fails for tokens that name a key: whoever knows the name of a key without a secret, such as an RSA or EC public key, that
may be used to watch and has a pattern with a star, can make a token for every stream, host and time. The kind of key is not
compared with the algorithm, and without a secret the code is made with an empty one. -/
theorem C65_forge_fails (env : Env) (table : List Entry) (name : Bytes) (hn : KeptText name) (hne : name ≠ []) (e : Entry)
    (he : table.find? (fun e => e.kid == name) = some e) (k : Key) (hk : entryKey e = some k) (hj : isNull k.jwk = false)
    (hno : isMember k.jwk (asc "k") = false) (hp : k.perms &&& 4 = 4) (hs : ∃ p ∈ k.stream, 42 ∈ p) :
    ∃ header : Bytes, ∀ streamName hostIP now,
      viewerToken env table (signedText header (asc "{}") ++ 46 :: Enc.Spec.base64 true false
        (Auth.hmacShabin (signedText header (asc "{}")) [] .sha256)) streamName hostIP now = some true := by
  refine ⟨toText (fun _ => []) (.obj [(asc "alg", .str (asc "HS256")), (asc "kid", .str name)]), fun streamName hostIP now => ?_⟩
  have hh : parseText (toText (fun _ => []) (.obj [(asc "alg", .str (asc "HS256")), (asc "kid", .str name)])) =
      some (.obj [(asc "alg", .str (asc "HS256")), (asc "kid", .str name)]) := by
    apply Json.C19_partial
    simp only [Good, GoodMembers]
    exact ⟨by show List.Pairwise _ [asc "alg", asc "kid"]; decide +kernel, ⟨['a', 'l', 'g'], by decide +kernel, by decide⟩,
      ⟨['H', 'S', '2', '5', '6'], by decide +kernel, by decide⟩, ⟨['k', 'i', 'd'], by decide +kernel, by decide⟩, hn, trivial⟩
  have hpl : parseText (asc "{}") = some (.obj []) := by
    have : asc "{}" = toText (fun _ => []) (.obj []) := by decide +kernel
    rw [this]
    apply Json.C19_partial
    simp [Good, GoodMembers]
  unfold viewerToken
  rw [parse_compact, hh, hpl]
  simp only [Option.bind_some]
  generalize signedText (toText (fun _ => []) (.obj [(asc "alg", .str (asc "HS256")), (asc "kid", .str name)])) (asc "{}") = text
  have halg : strRef (member (.obj [(asc "alg", .str (asc "HS256")), (asc "kid", .str name)]) (asc "alg")) = asc "HS256" := by
    simp [member, List.lookup_cons, strRef]
  have hkid : strRef (member (.obj [(asc "alg", .str (asc "HS256")), (asc "kid", .str name)]) (asc "kid")) = name := by
    have : (asc "kid" == asc "alg") = false := by decide +kernel
    simp [member, List.lookup_cons, this, strRef]
  have hdig : digestHmac text k.jwk .sha256 = Enc.Spec.base64 true false (Auth.hmacShabin text [] .sha256) := by
    have : strRef (member k.jwk (asc "k")) = [] := by
      cases hj : k.jwk with
      | obj l =>
        rw [hj] at hno
        simp only [isMember, Option.isSome_eq_false_iff, Option.isNone_iff_eq_none] at hno
        simp [member, hno, strRef]
      | _ => rfl
    unfold digestHmac
    simp only [this]
    rw [List.take_of_length_le (Nat.le_of_eq (hmac_length _ _ _)), base64_eq]
    rfl
  have hsig : (Enc.Spec.base64 true false (Auth.hmacShabin text [] .sha256)).isEmpty = false := by
    rw [base64_eq]
    cases h0 : Enc.b64Encode (Auth.hmacShabin text [] .sha256) true with
    | cons => rfl
    | nil =>
      have := Enc.C01_base64_roundtrip (Auth.hmacShabin text [] .sha256) true
      rw [h0] at this
      have h1 := congrArg List.length this
      rw [hmac_length] at h1
      revert h1
      decide
  have hok : Jws.ok ⟨.obj [(asc "alg", .str (asc "HS256")), (asc "kid", .str name)], .obj [],
      Enc.Spec.base64 true false (Auth.hmacShabin text [] .sha256), text, 4⟩ = true := by
    simp [Jws.ok, hsig, size, isMember, List.lookup_cons]
  have hcl : checkClaims env ⟨.obj [(asc "alg", .str (asc "HS256")), (asc "kid", .str name)], .obj [],
      Enc.Spec.base64 true false (Auth.hmacShabin text [] .sha256), text, 4⟩ streamName hostIP now = true := by
    unfold checkClaims
    rw [hok]
    simp [isMember]
  rw [hok, hcl]
  simp only [Bool.and_self, if_true]
  unfold validateSignature
  simp only [halg, hkid]
  rw [if_neg (by simpa using hne), he]
  simp only [hk, Option.bind_some, hj, Bool.not_false, if_true]
  have hm : matchKeyPerms k (strRef (member (.obj []) (asc "sub"))) 4 = true := by
    rw [matchKeyPerms_iff (entryKey_stream hk)]
    obtain ⟨p, hp1, hp2⟩ := hs
    exact ⟨hp, p, hp1, equals_nil hp2⟩
  rw [if_pos hm]
  have hv : verify env text k.jwk (Enc.Spec.base64 true false (Auth.hmacShabin text [] .sha256)) (algName (.hs .sha256)) = some true := by
    unfold verify
    rw [lookup_name]
    simp only [verifyHmac, hdig, beq_self_eq_true]
  exact hv

/-- Which texts look like tokens: of the texts in ASCII exactly those of three parts of base64url characters with dots between
them. Missing: other bytes, of which many are taken for base64url characters (`C65_recognised_fails`). -/
theorem C65_recognised_partial (s : Bytes) (h : ∀ x ∈ s, x < 128) : isJWS s = true ↔ IsCompact s := by
  unfold isJWS
  rw [isJWSLoop_iff s 0 (by omega) h]
  constructor
  · rintro ⟨a, r, rfl, ha, b, c, rfl, hb, hc⟩
    refine ⟨a, b, c, rfl, fun x hx => ?_⟩
    simp only [List.mem_append] at hx
    rcases hx with (hx | hx) | hx
    · exact ha x hx
    · exact hb x hx
    · exact hc x hx
  · rintro ⟨a, b, c, rfl, hall⟩
    exact ⟨a, _, rfl, fun x hx => hall x (by simp [hx]), b, c, rfl, fun x hx => hall x (by simp [hx]), fun x hx => hall x (by simp [hx])⟩

/-- "é" in Latin-1 or as UTF-8 is taken for a base64url character. -/
theorem C65_recognised_fails : ∃ s, isJWS s = true ∧ ¬ IsCompact s := by
  refine ⟨[0xE9, 46, 46], by decide +kernel, ?_⟩
  rintro ⟨a, b, c, h, hall⟩
  have hm : (0xE9 : UInt8) ∈ a ++ 46 :: (b ++ 46 :: c) := by rw [← h]; simp
  have : (0xE9 : UInt8) ∈ a ++ b ++ c := by
    simp only [List.mem_append, List.mem_cons] at hm ⊢
    rcases hm with hm | hm | hm | hm | hm
    · simp [hm]
    · exact absurd hm (by decide)
    · simp [hm]
    · exact absurd hm (by decide)
    · simp [hm]
  obtain ⟨v, hv, he⟩ := hall _ this
  revert v
  decide +kernel

/-- The key of RFC 7515, A.1. -/
def sampleJwk : Bytes :=
  asc "{\"k\":\"AyM1SysPpbyDfgZld3umj1qzKObwVMkoqQ-EstJQLr_T-1qS0gZH75aKtMN3Yj0iPS4hcgUuTwjAzZr1Z9CAow\",\"kty\":\"oct\"}"

/-- Its record, for all streams or for one. -/
def sampleEntry (stream : String) : Entry := ⟨asc "a", asc "oct", sampleJwk, asc stream, 6⟩

/-- The key in it. -/
def sampleKey (p : List Bytes) : Key :=
  ⟨.obj [(asc "k", .str (asc "AyM1SysPpbyDfgZld3umj1qzKObwVMkoqQ-EstJQLr_T-1qS0gZH75aKtMN3Yj0iPS4hcgUuTwjAzZr1Z9CAow")), (asc "kty", .str (asc "oct"))], p, 6⟩

theorem sampleEntry_key (stream : String) (p : List Bytes) (h : (parseText (asc stream)).map streams = some p) :
    entryKey (sampleEntry stream) = some (sampleKey p) := by
  have hj : parseText sampleJwk = some (sampleKey p).jwk := by
    have : sampleJwk = toText (fun _ => []) (sampleKey p).jwk := by
      show sampleJwk = toText (fun _ => []) (sampleKey []).jwk
      decide +kernel
    rw [this]
    apply Json.C19_partial
    simp only [sampleKey, Good, GoodMembers]
    refine ⟨by decide +kernel, ⟨['k'], by decide +kernel, by decide⟩, ⟨"AyM1SysPpbyDfgZld3umj1qzKObwVMkoqQ-EstJQLr_T-1qS0gZH75aKtMN3Yj0iPS4hcgUuTwjAzZr1Z9CAow".toList,
      by decide +kernel, by decide +kernel⟩, ⟨['k', 't', 'y'], by decide +kernel, by decide⟩, ⟨['o', 'c', 't'], by decide +kernel, by decide⟩, trivial⟩
  rw [Option.map_eq_some_iff] at h
  obtain ⟨v, hv, hs⟩ := h
  unfold entryKey sampleEntry
  simp only [hj, hv, Option.bind_some]
  unfold mkKey
  rw [hs]
  have h1 : isMember (sampleKey []).jwk (asc "kty") = true := by decide +kernel
  have h2 : strRef (member (sampleKey []).jwk (asc "kty")) = 111 :: asc "ct" := by decide +kernel
  have : keep (sampleKey []).jwk = some (sampleKey []).jwk := keep_obj h1 h2 (by decide +kernel)
  have : keep (sampleKey p).jwk = some (sampleKey p).jwk := this
  rw [this]
  rfl

/-- It meets the conditions on the list of keys. -/
theorem sample_watch (stream : String) (p : List Bytes) (h : (parseText (asc stream)).map streams = some p) :
    WatchKey (sampleEntry stream) (secret (sampleKey []).jwk) p := by
  have hk := sampleEntry_key stream p h
  refine ⟨?_, sampleKey p, hk, ?_, by show 6 &&& 4 = 4; decide, rfl, rfl⟩
  · intro k hk'
    rw [hk] at hk'
    cases hk'
    have h1 : (strRef (member (sampleKey []).jwk (asc "kty"))).head? = (asc "oct").head? := by decide +kernel
    have h2 : (secret (sampleKey []).jwk).length < 2 ^ 51 := by decide +kernel
    exact ⟨h1, h2⟩
  · show (strRef (member (sampleKey []).jwk (asc "kty"))).head? = some 111
    decide +kernel

theorem sample_all : (parseText (asc "\"*\"")).map streams = some [asc "*"] := by decide +kernel
theorem sample_public : (parseText (asc "\"public\"")).map streams = some [asc "public"] := by decide +kernel
theorem sample_publics : (parseText (asc "\"public*\"")).map streams = some [asc "public*"] := by decide +kernel

/-- A token made with it lets a viewer in: the hypotheses of `C65_accepted` and `C65_watch_partial` can be met. -/
example (env : Env) : viewerToken env [sampleEntry "\"*\""] (issue (secret (sampleKey []).jwk) hs256 (subject (asc "live"))) (asc "live") [] 0 =
    some true := by
  refine issue_accepted (sample_watch _ _ sample_all) ?_ (by decide +kernel) ⟨asc "*", by simp, by decide +kernel⟩ _ _ _ ?_
  · simp only [subject, Good, GoodMembers]
    exact ⟨by decide +kernel, ⟨['s', 'u', 'b'], by decide +kernel, by decide⟩, ⟨['l', 'i', 'v', 'e'], by decide +kernel, by decide⟩, trivial⟩
  · intro sig text hs
    have h1 : isMember (subject (asc "live")) (asc "sub") = true ∧ isMember (subject (asc "live")) (asc "ipa") = false ∧
      isMember (subject (asc "live")) (asc "nbf") = false ∧ isMember (subject (asc "live")) (asc "exp") = false ∧
      size hs256 = 1 ∧ isMember hs256 (asc "alg") = true ∧ (asc "live").isEmpty = false ∧ equalsWithWildcard (asc "live") (asc "live") = true := by
      decide +kernel
    have h2 : asString env.dbl (member (subject (asc "live")) (asc "sub")) = asc "live" := by
      have : member (subject (asc "live")) (asc "sub") = .str (asc "live") := by simp [member, subject, List.lookup_cons]
      rw [this]; rfl
    simp [checkClaims, Jws.ok, h1, h2, hs]

/-- A public key. -/
def samplePublic : List (Bytes × JVal) :=
  [(asc "e", .str (asc "AQAB")), (asc "kid", .str (asc "a")), (asc "kty", .str (asc "RSA")), (asc "n", .str (asc "zz"))]

/-- A list of keys with a public key, as `C65_forge_fails` needs it. -/
example : ∃ k, entryKey ⟨asc "a", asc "RSA", asc "{\"e\":\"AQAB\",\"kid\":\"a\",\"kty\":\"RSA\",\"n\":\"zz\"}", asc "\"*\"", 6⟩ = some k ∧
    isNull k.jwk = false ∧ isMember k.jwk (asc "k") = false ∧ k.perms &&& 4 = 4 ∧ (∃ p ∈ k.stream, 42 ∈ p) := by
  refine ⟨⟨.obj samplePublic, [asc "*"], 6⟩, ?_, rfl, by decide +kernel, by decide, asc "*", by simp, by decide +kernel⟩
  have hj : parseText (asc "{\"e\":\"AQAB\",\"kid\":\"a\",\"kty\":\"RSA\",\"n\":\"zz\"}") = some (.obj samplePublic) := by
    have : asc "{\"e\":\"AQAB\",\"kid\":\"a\",\"kty\":\"RSA\",\"n\":\"zz\"}" = toText (fun _ => []) (.obj samplePublic) := by decide +kernel
    rw [this]
    apply Json.C19_partial
    simp only [samplePublic, Good, GoodMembers]
    exact ⟨by decide +kernel, ⟨['e'], by decide +kernel, by decide⟩, ⟨['A', 'Q', 'A', 'B'], by decide +kernel, by decide⟩,
      ⟨['k', 'i', 'd'], by decide +kernel, by decide⟩, ⟨['a'], by decide +kernel, by decide⟩,
      ⟨['k', 't', 'y'], by decide +kernel, by decide⟩, ⟨['R', 'S', 'A'], by decide +kernel, by decide⟩,
      ⟨['n'], by decide +kernel, by decide⟩, ⟨['z', 'z'], by decide +kernel, by decide⟩, trivial⟩
  obtain ⟨v, hv, hs⟩ := Option.map_eq_some_iff.mp sample_all
  unfold entryKey
  simp only [hj, hv, Option.bind_some, mkKey, hs]
  have h1 : isMember (.obj samplePublic) (asc "kty") = true := by decide +kernel
  have h2 : strRef (member (.obj samplePublic) (asc "kty")) = 82 :: asc "SA" := by decide +kernel
  rw [keep_obj h1 h2 (by decide +kernel)]
  rfl

/-! ## C66: what a token says about its use is kept to -/

/-- C66: when a viewer is let in, the stream is one that the subject stands for, the host one that it names, and the time not
before `nbf` and not after `exp`, as far as the token says these. Missing: subjects with a star that are longer than the stream's
name, names with a star, and times of expiry before 1970, for which the claim is false (`C66_fails`); later checks in the same
session (`C66_resync_fails`). -/
theorem C66_partial (env : Env) (table : List Entry) (token streamName hostIP : Bytes) (now : Nat) (header payload : JVal) (text sig : Bytes)
    (hr : Reads token header payload text sig) (h : viewerToken env table token streamName hostIP now = some true) :
    (isMember payload (asc "sub") = true → streamName ≠ [] → 42 ∉ streamName →
      (42 ∈ asString env.dbl (member payload (asc "sub")) → (asString env.dbl (member payload (asc "sub"))).length ≤ streamName.length + 1) →
      Glob (asString env.dbl (member payload (asc "sub"))) streamName) ∧
    (isMember payload (asc "ipa") = true → env.ip hostIP (asString env.dbl (member payload (asc "ipa"))) = true) ∧
    (isMember payload (asc "nbf") = true → asInt (member payload (asc "nbf")) < 2 ^ 64 → asInt (member payload (asc "nbf")) ≤ now) ∧
    (isMember payload (asc "exp") = true → 0 ≤ asInt (member payload (asc "exp")) → (now : Int) ≤ asInt (member payload (asc "exp"))) := by
  obtain ⟨rfl, a, b, rfl, ha, hb, h1, h2⟩ := hr
  unfold viewerToken parseJws at h
  rw [show a ++ 46 :: b ++ 46 :: sig = a ++ [46] ++ b ++ [46] ++ sig by simp, cut_compact ha hb] at h
  simp only [h1, h2, Option.bind_some] at h
  split at h
  · rename_i hc
    have hc := (Bool.and_eq_true_iff.mp hc).2
    unfold checkClaims at hc
    split at hc
    · cases hc
    · rename_i hn
      simp only [Bool.or_eq_true, not_or, Bool.and_eq_true, Bool.not_eq_true', decide_eq_true_eq, not_and, Bool.not_eq_false] at hn
      obtain ⟨⟨⟨⟨_, hsub⟩, hip⟩, hnbf⟩, hexp⟩ := hn
      refine ⟨fun hm hne hs hl => ?_, fun hm => hip hm, fun hm hlt => ?_, fun hm hge => ?_⟩
      · exact (equals_glob hs hl).mp (hsub ⟨hm, by simpa using hne⟩)
      · have := hnbf hm
        unfold u64 at this
        rcases Int.lt_or_le (asInt (member payload (asc "nbf"))) 0 with h0 | h0
        · omega
        · rw [Int.emod_eq_of_lt h0 hlt] at this
          omega
      · have := hexp hm
        unfold u64 at this
        generalize asInt (member payload (asc "exp")) = i at this hge
        omega
  · cases h

/-- The claims of a token that says nothing but its subject. -/
theorem claims_subject (env : Env) (s streamName hostIP : Bytes) (now : Nat) (h : equalsWithWildcard streamName s = true) (sig text : Bytes)
    (hs : sig ≠ []) : checkClaims env ⟨hs256, subject s, sig, text, 4⟩ streamName hostIP now = true := by
  have h1 : isMember (subject []) (asc "sub") = true ∧ isMember (subject []) (asc "ipa") = false ∧ isMember (subject []) (asc "nbf") = false ∧
      isMember (subject []) (asc "exp") = false ∧ size hs256 = 1 ∧ isMember hs256 (asc "alg") = true := by decide +kernel
  have m : ∀ n, isMember (subject s) n = isMember (subject []) n := by
    intro n
    simp only [isMember, subject, List.lookup_cons, List.lookup_nil]
    split <;> rfl
  have h2 : asString env.dbl (member (subject s) (asc "sub")) = s := by
    have : member (subject s) (asc "sub") = .str s := by simp [member, subject]
    rw [this]; rfl
  simp [checkClaims, Jws.ok, m, h1, h2, h, hs]

/-- Payloads of a subject in ASCII are read as they are written. -/
theorem good_subject (s : String) (h1 : asc s = Json.Spec.text s.toList) (h : ∀ c ∈ s.toList, c.toNat < 0x800 ∨ 0x10000 ≤ c.toNat) :
    Good KeptText KeptText (subject (asc s)) := by
  simp only [subject, Good, GoodMembers]
  exact ⟨by simp, ⟨['s', 'u', 'b'], by decide +kernel, by decide⟩, ⟨s.toList, h1, h⟩, trivial⟩

/-- C66 fails. For every symmetric key for all streams: a token for "live+secret*" opens "live", of which the pattern is no match; a
token for "live" opens the stream that is named "li*"; and a token that ran out before 1970 is good at all times until the year 292
billion. -/
theorem C66_fails (env : Env) (e : Entry) (key : Bytes) (he : WatchKey e key [asc "*"]) (hostIP : Bytes) (now : Nat) :
    (viewerToken env [e] (issue key hs256 (subject (asc "live+secret*"))) (asc "live") hostIP now = some true ∧
      ¬ Glob (asc "live+secret*") (asc "live")) ∧
    (viewerToken env [e] (issue key hs256 (subject (asc "live"))) (asc "li*") hostIP now = some true ∧ ¬ Glob (asc "live") (asc "li*")) ∧
    (now < 2 ^ 63 → ∀ s, viewerToken env [e] (issue key hs256 (.obj [(asc "exp", .int (-1))])) s hostIP now = some true) := by
  refine ⟨⟨?_, ?_⟩, ⟨?_, ?_⟩, fun hn s => ?_⟩
  · exact issue_accepted he (good_subject _ (by decide +kernel) (by decide +kernel)) (by decide +kernel)
      ⟨asc "*", by simp, by decide +kernel⟩ _ _ _ (claims_subject env _ _ _ _ (by decide +kernel))
  · rintro (⟨h, _⟩ | ⟨a, b, m, h, ha, hm⟩)
    · revert h; decide +kernel
    · have h1 := congrArg List.length h
      have h2 := congrArg List.length hm
      have e1 : (asc "live+secret*").length = 12 := by decide +kernel
      have e2 : (asc "live").length = 4 := by decide +kernel
      simp only [List.length_append, List.length_cons, e1, e2] at h1 h2
      omega
  · exact issue_accepted he (good_subject _ (by decide +kernel) (by decide +kernel)) (by decide +kernel)
      ⟨asc "*", by simp, by decide +kernel⟩ _ _ _ (claims_subject env _ _ _ _ (by decide +kernel))
  · rintro (⟨_, h⟩ | ⟨a, b, m, h, ha, hm⟩)
    · revert h; decide +kernel
    · have : (42 : UInt8) ∈ asc "live" := by rw [h]; simp
      revert this; decide +kernel
  · refine issue_accepted he ?_ (by decide +kernel) ⟨asc "*", by simp, by decide +kernel⟩ _ _ _ ?_
    · simp only [Good, GoodMembers]
      exact ⟨by simp, ⟨['e', 'x', 'p'], by decide +kernel, by decide⟩, by omega, trivial⟩
    · intro sig text hs
      have h1 : isMember (.obj [(asc "exp", .int (-1))]) (asc "sub") = false ∧ isMember (.obj [(asc "exp", .int (-1))]) (asc "ipa") = false ∧
        isMember (.obj [(asc "exp", .int (-1))]) (asc "nbf") = false ∧ u64 (asInt (member (.obj [(asc "exp", .int (-1))]) (asc "exp"))) = 2 ^ 64 - 1 ∧
        size hs256 = 1 ∧ isMember hs256 (asc "alg") = true := by decide +kernel
      have h2 : ¬ now > 2 ^ 64 - 1 := by omega
      simp only [checkClaims, Jws.ok, h1, h2, decide_false, Bool.and_false, Bool.or_false, Bool.false_and]
      simp [hs]

/-- The key of the samples is such a key. -/
example : WatchKey (sampleEntry "\"*\"") (secret (sampleKey []).jwk) [asc "*"] := sample_watch _ _ sample_all

/-- C66 fails for the checks during a session: a token that was good and has run out since stays good, whatever the list of keys. -/
theorem C66_resync_fails (env : Env) (table : List Entry) (t : Jws) (streamName hostIP : Bytes) (now : Nat)
    (hm : isMember t.pld (asc "exp") = true) (h0 : 0 ≤ asInt (member t.pld (asc "exp"))) (h1 : asInt (member t.pld (asc "exp")) < now) :
    resync env table t streamName hostIP now true = some true := by
  have hu : now > u64 (asInt (member t.pld (asc "exp"))) := by
    unfold u64
    generalize asInt (member t.pld (asc "exp")) = i at h0 h1
    omega
  have : checkClaims env t streamName hostIP now = false := by
    unfold checkClaims
    rw [if_pos]
    simp [hm, hu]
  unfold resync
  rw [this]
  rfl

example : isMember (.obj [(asc "exp", .int 5)]) (asc "exp") = true ∧ asInt (member (.obj [(asc "exp", .int 5)]) (asc "exp")) = 5 := by
  decide +kernel

/-! ## C67: a key for some streams opens no others -/

/-- C67: if the subject of an accepted token is the name of a stream, the key that signed it has a pattern that stands for the stream.
Missing: subjects with a star or none at all, and patterns of a key that are longer than the stream's name, for which the claim is
false (`C67_fails`); tokens that name a key of the wrong type (`C65_forge_fails`). -/
theorem C67_partial (env : Env) (table : List Entry) (hcf : ∀ e ∈ table, Configured e) (token streamName hostIP : Bytes) (now : Nat)
    (header payload : JVal) (text sig : Bytes) (hr : Reads token header payload text sig) (hl : token.length < 2 ^ 50)
    (hk : NamedKeyFits table header) (h : viewerToken env table token streamName hostIP now = some true)
    (hne : streamName ≠ []) (hs : 42 ∉ streamName) (s : Bytes) (hsub : member payload (asc "sub") = .str s) (hss : 42 ∉ s)
    (hlong : ∀ e ∈ table, ∀ k, entryKey e = some k → ∀ p ∈ k.stream, 42 ∈ p → p.length ≤ streamName.length + 1) :
    ∃ e ∈ table, ∃ k alg, entryKey e = some k ∧ SignedBy env k.jwk alg text sig ∧ k.perms &&& 4 = 4 ∧ ∃ p ∈ k.stream, Glob p streamName := by
  have hmem : isMember payload (asc "sub") = true := by
    cases hp : payload with
    | obj l =>
      rw [hp] at hsub
      simp only [member] at hsub
      simp only [isMember]
      cases hl : l.lookup (asc "sub") with
      | none => rw [hl] at hsub; simp at hsub
      | some v => rfl
    | _ => rw [hp] at hsub; simp [member] at hsub
  have hc := (C66_partial env table token streamName hostIP now header payload text sig hr h).1 hmem hne hs
  rw [hsub] at hc
  have hglob := hc (fun h => absurd h hss)
  have hname : streamName = s := by
    rcases hglob with ⟨_, h⟩ | ⟨a, b, m, h, _⟩
    · exact h
    · have : (42 : UInt8) ∈ s := by
        have h' : s = a ++ 42 :: b := h
        rw [h']; simp
      exact absurd this hss
  have h2 : 2 ≤ token.count 46 := by
    obtain ⟨h1, a, b, h2, _⟩ := hr
    rw [h1, h2]
    simp only [List.count_append, List.count_cons, beq_self_eq_true, if_true]
    omega
  have hlen := congrArg List.length hr.whole
  rw [List.length_append, List.length_cons] at hlen
  have hauth : Authorised env table 4 header payload text sig := by
    obtain ⟨rfl, a, b, rfl, ha, hb, h1, h2'⟩ := hr
    unfold viewerToken parseJws at h
    rw [show a ++ 46 :: b ++ 46 :: sig = a ++ [46] ++ b ++ [46] ++ sig by simp, cut_compact ha hb] at h
    simp only [h1, h2', Option.bind_some] at h
    rw [show a ++ [46] ++ b = a ++ 46 :: b by simp] at h
    split at h
    · exact validate_true (t := ⟨header, payload, sig, a ++ 46 :: b, 4⟩) (by dsimp only; omega) hcf hk h
    · cases h
  obtain ⟨e, he, k, alg, hek, hp, ⟨p, hpk, hpe⟩, _, hsig⟩ := hauth
  refine ⟨e, he, k, alg, hek, hsig, hp, p, hpk, ?_⟩
  have : textOf payload "sub" = streamName := by
    unfold textOf
    rw [hsub, hname]
    rfl
  rw [this] at hpe
  exact (equals_glob hs (hlong e he k hek p hpk)).mp hpe

/-- C67 fails. A symmetric key for the stream "public" alone: with the subject "*", it signs tokens for every stream, host and time. A
symmetric key for the streams "public*": a token without a subject does the same. -/
theorem C67_fails (env : Env) (e : Entry) (key : Bytes) (streamName hostIP : Bytes) (now : Nat) :
    (WatchKey e key [asc "public"] → viewerToken env [e] (issue key hs256 (subject (asc "*"))) streamName hostIP now = some true) ∧
    (WatchKey e key [asc "public*"] → viewerToken env [e] (issue key hs256 (.obj [])) streamName hostIP now = some true) := by
  refine ⟨fun he => ?_, fun he => ?_⟩
  · refine issue_accepted he (good_subject _ (by decide +kernel) (by decide +kernel)) (by decide +kernel)
      ⟨asc "public", by simp, by decide +kernel⟩ _ _ _ (claims_subject env _ _ _ _ ?_)
    have : asc "*" = [42] := by decide +kernel
    unfold equalsWithWildcard
    rw [if_pos (.inr this)]
  · refine issue_accepted he ?_ (by decide +kernel) ⟨asc "public*", by simp, by decide +kernel⟩ _ _ _ ?_
    · simp [Good, GoodMembers]
    · intro sig text hs
      have h1 : size hs256 = 1 ∧ isMember hs256 (asc "alg") = true := by decide +kernel
      have h2 : ∀ n, isMember (.obj []) n = false := fun n => rfl
      simp [checkClaims, Jws.ok, h1, h2, hs]

example : WatchKey (sampleEntry "\"public\"") (secret (sampleKey []).jwk) [asc "public"] ∧
    WatchKey (sampleEntry "\"public*\"") (secret (sampleKey []).jwk) [asc "public*"] ∧ ¬ Glob (asc "public") (asc "private") := by
  refine ⟨sample_watch _ _ sample_public, sample_watch _ _ sample_publics, ?_⟩
  rintro (⟨_, h⟩ | ⟨a, b, m, h, _⟩)
  · revert h; decide +kernel
  · have : (42 : UInt8) ∈ asc "public" := by rw [h]; simp
    revert this; decide +kernel

/-! ## C68: the keys in use are those of the configuration -/

/-- C68: with one key in the only configuration ever set, that key is in use, with the streams of its settings, and for
watching and publishing unless the settings say no, for administration only if they say yes. Missing: a second key and a second
configuration, for which the claim is false. -/
theorem C68_partial (jwk perms : JVal) (k : Key) (h : mkKey jwk (member perms (asc "stream")) (permsOf perms) = some k) :
    afterConfigs [[(jwk, perms)]] = some [k] ∧ k.stream = streams (member perms (asc "stream")) ∧
    (k.perms.testBit 1 = true ↔ member perms (asc "input") ≠ .bool false) ∧
    (k.perms.testBit 2 = true ↔ member perms (asc "output") ≠ .bool false) ∧
    (k.perms.testBit 0 = true ↔ member perms (asc "admin") = .bool true) := by
  refine ⟨?_, ?_⟩
  · simp only [afterConfigs, addConfig, List.foldlM_cons, List.foldlM_nil]
    rw [h]
    rfl
  · unfold mkKey at h
    rw [Option.map_eq_some_iff] at h
    obtain ⟨j, _, rfl⟩ := h
    refine ⟨rfl, ?_⟩
    unfold permsOf
    simp only
    generalize member perms (asc "input") = a
    generalize member perms (asc "output") = b
    generalize member perms (asc "admin") = c
    have ha : ∃ x : Bool, flag a true = x ∧ (x = true ↔ a ≠ .bool false) := by
      cases a <;> simp [flag]
    have hb : ∃ x : Bool, flag b true = x ∧ (x = true ↔ b ≠ .bool false) := by
      cases b <;> simp [flag]
    have hc : ∃ x : Bool, flag c false = x ∧ (x = true ↔ c = .bool true) := by
      cases c <;> simp [flag]
    obtain ⟨x, h1, h2⟩ := ha
    obtain ⟨y, h3, h4⟩ := hb
    obtain ⟨z, h5, h6⟩ := hc
    rw [h1, h3, h5, ← h2, ← h4, ← h6]
    cases x <;> cases y <;> cases z <;> decide

/-- C68 fails, keys that never come into use: two keys in a configuration, or a key that replaces another. The first one stays. -/
theorem C68_fails (a b : JVal × JVal) (j k : Key) (ha : mkKey a.1 (member a.2 (asc "stream")) (permsOf a.2) = some j)
    (hb : mkKey b.1 (member b.2 (asc "stream")) (permsOf b.2) = some k) (hj : isNull j.jwk = false) (hk : isNull k.jwk = false) :
    afterConfigs [[a, b]] = some [j] ∧ afterConfigs [[a], [b]] = some [j] ∧ afterConfigs [[a], []] = some [j] := by
  simp only [afterConfigs, addConfig, List.foldlM_cons, List.foldlM_nil]
  rw [ha, hb]
  have : insertKey [j] k = [j] := by simp [insertKey, hj, hk]
  refine ⟨?_, ?_, rfl⟩
  · show some (insertKey (insertKey [] j) k) = _
    rw [show insertKey [] j = [j] from rfl, this]
  · show some (insertKey (insertKey [] j) k) = _
    rw [show insertKey [] j = [j] from rfl, this]

/-- No history of configurations gets more than one key into use: of the keys there are no two with content. -/
theorem C68_one_key_fails (history : List (List (JVal × JVal))) (l : List Key) (h : afterConfigs history = some l) :
    (l.filter fun k => !isNull k.jwk).length ≤ 1 := by
  have hins : ∀ (l : List Key) (k : Key), (l.filter fun k => !isNull k.jwk).length ≤ 1 →
      ((insertKey l k).filter fun k => !isNull k.jwk).length ≤ 1 := by
    intro l k hl
    unfold insertKey
    split
    · exact hl
    · rename_i hn
      rw [List.filter_append, List.length_append]
      cases hk : isNull k.jwk
      · have : (l.filter fun k => !isNull k.jwk) = [] := by
          rw [List.filter_eq_nil_iff]
          intro x hx hx2
          apply hn
          rw [List.any_eq_true]
          refine ⟨x, hx, ?_⟩
          rw [hk]
          simpa using hx2
        rw [this]
        simp [hk]
      · simp [hk]
        exact hl
  have hadd : ∀ (c : List (JVal × JVal)) (l l' : List Key), (l.filter fun k => !isNull k.jwk).length ≤ 1 → addConfig l c = some l' →
      (l'.filter fun k => !isNull k.jwk).length ≤ 1 := by
    intro c
    induction c with
    | nil => intro l l' hl h; cases h; exact hl
    | cons a c ih =>
      intro l l' hl h
      unfold addConfig at h ih
      rw [List.foldlM_cons] at h
      simp only [Option.bind_eq_bind, Option.bind_eq_some_iff, Option.map_eq_some_iff] at h
      obtain ⟨m, ⟨k, _, rfl⟩, h⟩ := h
      exact ih _ _ (hins l k hl) h
  have hall : ∀ (hs : List (List (JVal × JVal))) (l l' : List Key), (l.filter fun k => !isNull k.jwk).length ≤ 1 →
      hs.foldlM addConfig l = some l' → (l'.filter fun k => !isNull k.jwk).length ≤ 1 := by
    intro hs
    induction hs with
    | nil => intro l l' hl h; cases h; exact hl
    | cons c hs ih =>
      intro l l' hl h
      rw [List.foldlM_cons] at h
      simp only [Option.bind_eq_bind, Option.bind_eq_some_iff] at h
      obtain ⟨m, hm, h⟩ := h
      exact ih _ _ (hadd c l m hl hm) h
  exact hall history [] l (by simp) h

/-- Two keys as `C68_fails` needs them, different in their streams. -/
example : mkKey (sampleKey []).jwk (member (.obj [(asc "stream", .str (asc "a"))]) (asc "stream")) (permsOf (.obj [(asc "stream", .str (asc "a"))])) =
    some (sampleKey [asc "a"]) := by
  unfold mkKey
  have h1 : isMember (sampleKey []).jwk (asc "kty") = true := by decide +kernel
  have h2 : strRef (member (sampleKey []).jwk (asc "kty")) = 111 :: asc "ct" := by decide +kernel
  have : keep (sampleKey []).jwk = some (sampleKey []).jwk := keep_obj h1 h2 (by decide +kernel)
  have hp : permsOf (.obj [(asc "stream", .str (asc "a"))]) = 6 := by decide +kernel
  have hs : streams (member (.obj [(asc "stream", .str (asc "a"))]) (asc "stream")) = [asc "a"] := by decide +kernel
  rw [this, hp, hs]
  rfl

end Verif.Jwt
