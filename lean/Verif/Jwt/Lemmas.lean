import Verif.Jwt.Spec
import Verif.Enc.Props
import Verif.Auth.Props
import Verif.Json.Props

/-! # Lemmas about access tokens -/
namespace Verif.Jwt
open Verif.Json (JVal Dbl parseText toText)
open Verif.Enc (b64Encode b64Decode)
open Verif.Auth (Sha)
open Spec (Glob)

/-! ## Patterns -/

theorem find_none {s : Bytes} {c : UInt8} : find s c = none ↔ c ∉ s := by
  unfold find
  rw [List.findIdx?_eq_none_iff]
  constructor
  · intro h hc
    have := h c hc
    simp at this
  · intro h x hx
    simp only [beq_eq_false_iff_ne, ne_eq]
    rintro rfl
    exact h hx

theorem find_split {a b : Bytes} {c : UInt8} (h : c ∉ a) : find (a ++ c :: b) c = some a.length := by
  unfold find
  rw [List.findIdx?_append]
  have : a.findIdx? (· == c) = none := find_none.mpr h
  rw [this]
  simp [List.findIdx?_cons]

theorem split_of_mem {s : Bytes} {c : UInt8} (h : c ∈ s) : ∃ a b, s = a ++ c :: b ∧ c ∉ a := by
  induction s with
  | nil => simp at h
  | cons x s ih =>
    by_cases e : x = c
    · exact ⟨[], s, by simp [e], by simp⟩
    · rcases List.mem_cons.mp h with h | h
      · exact absurd h.symm e
      · obtain ⟨a, b, hs, ha⟩ := ih h
        refine ⟨x :: a, b, by simp [hs], ?_⟩
        rw [List.mem_cons]
        rintro (h | h)
        · exact e h.symm
        · exact ha h

/-- Two names without stars. -/
theorem equals_plain {a b : Bytes} (ha : 42 ∉ a) (hb : 42 ∉ b) : equalsWithWildcard a b = (a == b) := by
  unfold equalsWithWildcard
  rw [if_neg (by rintro (h | h) <;> subst h <;> simp at ha hb)]
  simp only [find_none.mpr ha, find_none.mpr hb]
  rfl

/-- A name without a star and a pattern with one: beginning and end are compared as far as the shorter one goes. -/
theorem equals_star {s a b : Bytes} (hs : 42 ∉ s) (ha : 42 ∉ a) : equalsWithWildcard s (a ++ 42 :: b) = true ↔
    s.take a.length = a.take s.length ∧ s.drop (s.length - b.length) = b.drop (b.length - s.length) := by
  unfold equalsWithWildcard
  by_cases e : a ++ 42 :: b = [42]
  · rw [if_pos (.inr e)]
    have : a = [] ∧ b = [] := by
      cases a with
      | nil => simpa using e
      | cons x a => simp at e
    obtain ⟨rfl, rfl⟩ := this
    simp
  · rw [if_neg (by rintro (h | h); · subst h; simp at hs
                   · exact e h)]
    simp only [find_none.mpr hs, find_split ha]
    simp only [Option.isSome_none, Option.isSome_some, Bool.not_false, Bool.not_true, Bool.and_false, Bool.false_eq_true, if_false,
      Option.getD_none, Option.getD_some]
    have l : (a ++ 42 :: b).length = a.length + 1 + b.length := by simp; omega
    rw [l, show a.length + 1 + b.length - a.length - 1 = b.length by omega]
    unfold substr
    simp only [List.drop_zero]
    have e1 : s.take (min s.length a.length) = s.take a.length := by
      rw [List.take_eq_take_iff]; omega
    have e2 : (a ++ 42 :: b).take (min s.length a.length) = a.take s.length := by
      rw [List.take_append_of_le_length (by omega), List.take_eq_take_iff]; omega
    have e3 : s.drop (s.length - min s.length b.length) = s.drop (s.length - b.length) := by
      congr 1; omega
    have e4 : (a ++ 42 :: b).drop (a.length + 1 + b.length - min s.length b.length) = b.drop (b.length - s.length) := by
      rw [show a.length + 1 + b.length - min s.length b.length = (a.length + 1) + (b.length - s.length) by omega, ← List.drop_drop]
      congr 1
      rw [show a ++ 42 :: b = (a ++ [42]) ++ b by simp, List.drop_left' (by simp)]
    rw [e1, e2, e3, e4]
    by_cases h1 : s.take a.length = a.take s.length
    · by_cases h2 : s.drop (s.length - b.length) = b.drop (b.length - s.length)
      · simp [h1, h2]
      · simp [h1, h2]
    · simp [h1]

/-- The empty name matches every pattern with a star. -/
theorem equals_nil {p : Bytes} (hp : 42 ∈ p) : equalsWithWildcard [] p = true := by
  obtain ⟨a, b, rfl, ha⟩ := split_of_mem hp
  rw [equals_star (by simp) ha]
  simp

/-- If the name is long enough, patterns mean what they say. -/
theorem equals_glob {s p : Bytes} (hs : 42 ∉ s) (hl : 42 ∈ p → p.length ≤ s.length + 1) : equalsWithWildcard s p = true ↔ Glob p s := by
  by_cases hp : 42 ∈ p
  · obtain ⟨a, b, rfl, ha⟩ := split_of_mem hp
    have hl := hl hp
    simp only [List.length_append, List.length_cons] at hl
    rw [equals_star hs ha, List.take_of_length_le (show a.length ≤ s.length by omega), show b.length - s.length = 0 by omega, List.drop_zero]
    constructor
    · rintro ⟨h1, h2⟩
      refine .inr ⟨a, b, (s.drop a.length).take (s.length - b.length - a.length), rfl, ha, ?_⟩
      conv => lhs; rw [← List.take_append_drop a.length s, h1]
      rw [List.append_assoc]
      congr 1
      conv => lhs; rw [← List.take_append_drop (s.length - b.length - a.length) (s.drop a.length)]
      congr 1
      rw [List.drop_drop, show a.length + (s.length - b.length - a.length) = s.length - b.length by omega, h2]
    · rintro (⟨h, _⟩ | ⟨a', b', m, he, ha', rfl⟩)
      · exact absurd hp h
      · have hl' : a.length = a'.length := by
          have h1 := find_split (b := b) ha
          rw [he, find_split ha'] at h1
          exact (Option.some.inj h1).symm
        obtain ⟨rfl, h2⟩ := List.append_inj he hl'
        obtain ⟨_, rfl⟩ := List.cons.inj h2
        refine ⟨by simp, ?_⟩
        rw [show (a ++ m ++ b).length - b.length = (a ++ m).length by simp; omega, List.drop_left]
  · rw [equals_plain hs hp]
    constructor
    · intro h
      exact .inl ⟨hp, by simpa using h⟩
    · rintro (⟨_, rfl⟩ | ⟨a, b, m, rfl, _, _⟩)
      · simp
      · simp at hp

/-! ## Tokens -/

theorem no_dot (s : Bytes) : (46 : UInt8) ∉ b64Encode s true := by
  rw [Enc.C01_base64_is_rfc4648]
  unfold Enc.Spec.base64
  simp only [Bool.not_true, Bool.false_eq_true, if_false, List.append_nil, List.mem_map, not_exists, not_and]
  intro v _ h
  have hd : ∀ v < 64, Enc.Spec.digit true v ≠ 46 := by decide +kernel
  by_cases hv : v < 64
  · exact hd v hv h
  · have hl : (Enc.Spec.alphabet true).toList.length = 64 := by decide +kernel
    unfold Enc.Spec.digit at h
    rw [List.getD_eq_getElem?_getD, List.getElem?_eq_none (by omega)] at h
    exact absurd h (by decide)

theorem cut_compact {h p s : Bytes} (hh : 46 ∉ h) (hp : 46 ∉ p) : cut (h ++ [46] ++ p ++ [46] ++ s) = (h, p, s) := by
  have e1 : h ++ [46] ++ p ++ [46] ++ s = h ++ 46 :: (p ++ 46 :: s) := by simp
  unfold cut
  rw [e1, find_split hh]
  simp only
  have e2 : (h ++ 46 :: (p ++ 46 :: s)).drop (h.length + 1) = p ++ 46 :: s := by
    rw [← List.drop_drop, List.drop_left]; rfl
  rw [e2, find_split hp]
  simp only [substr, List.drop_zero]
  rw [e2, List.take_left, List.take_left]
  have e3 : (h ++ 46 :: (p ++ 46 :: s)).drop (h.length + 1 + p.length + 1) = s := by
    rw [Nat.add_assoc (h.length + 1), ← List.drop_drop, e2, ← List.drop_drop, List.drop_left]; rfl
  rw [e3]

theorem base64_eq (s : Bytes) : Enc.Spec.base64 true false s = b64Encode s true := by
  rw [Enc.C01_base64_is_rfc4648]
  rfl

theorem signedText_eq (header payload : Bytes) : Spec.signedText header payload = b64Encode header true ++ [46] ++ b64Encode payload true := by
  unfold Spec.signedText
  rw [base64_eq, base64_eq]
  simp

theorem parse_compact (header payload sig : Bytes) (perms : Nat) : parseJws (Spec.signedText header payload ++ 46 :: sig) perms =
    (parseText header).bind fun h => (parseText payload).bind fun p => some ⟨h, p, sig, Spec.signedText header payload, perms⟩ := by
  unfold parseJws
  rw [signedText_eq, show b64Encode header true ++ [46] ++ b64Encode payload true ++ 46 :: sig =
    b64Encode header true ++ [46] ++ b64Encode payload true ++ [46] ++ sig by simp, cut_compact (no_dot _) (no_dot _)]
  simp only [Enc.C01_base64_roundtrip]

/-- A token with two dots is read as its parts. -/
theorem parse_reads {token : Bytes} {perms : Nat} {t : Jws} (h2 : 2 ≤ token.count 46) (h : parseJws token perms = some t) :
    Spec.Reads token t.hdr t.pld t.sin t.sig ∧ t.perms = perms := by
  have hm : (46 : UInt8) ∈ token := List.count_pos_iff.mp (by omega)
  obtain ⟨a, r, rfl, ha⟩ := split_of_mem hm
  have hr : (46 : UInt8) ∈ r := by
    rw [List.count_append, List.count_eq_zero.mpr ha, List.count_cons] at h2
    simp only [beq_self_eq_true, if_true] at h2
    have h3 : 0 < List.count (46 : UInt8) r := by omega
    exact List.count_pos_iff.mp h3
  obtain ⟨b, s, rfl, hb⟩ := split_of_mem hr
  unfold parseJws at h
  rw [show a ++ 46 :: (b ++ 46 :: s) = a ++ [46] ++ b ++ [46] ++ s by simp, cut_compact ha hb] at h
  simp only [Option.bind_eq_some_iff, Option.some.injEq] at h
  obtain ⟨hd, h1, p, h2, rfl⟩ := h
  exact ⟨⟨by simp, a, b, by simp, ha, hb, h1, h2⟩, rfl⟩

/-! ## Signatures -/

theorem hmac_length (m k : Bytes) (s : Sha) : (Auth.hmacShabin m k s).length = bits s / 8 := by
  cases s
  · show (Auth.hmacbin m k 32 Auth.sha256bin 64).length = 32
    unfold Auth.hmacbin
    exact Auth.sha256bin_length _
  · show (Auth.hmacbin m k 48 (fun x => Auth.sha512bin x true) 128).length = 48
    unfold Auth.hmacbin
    exact Auth.sha384bin_length _
  · show (Auth.hmacbin m k 64 (fun x => Auth.sha512bin x false) 128).length = 64
    unfold Auth.hmacbin
    exact Auth.sha512bin_length _

theorem mac_eq {m k : Bytes} (hm : m.length < 2 ^ 50) (hk : k.length < 2 ^ 51) (s : Sha) : Auth.hmacShabin m k s = Spec.mac s k m := by
  cases s
  · exact Auth.C64_sha256 k m hk (by omega)
  · exact Auth.C64_sha384 k m (by omega) (by omega)
  · exact Auth.C64_sha512 k m (by omega) (by omega)

theorem hash_eq {m : Bytes} (hm : m.length < 2 ^ 50) (s : Sha) : Auth.shabin m s = Spec.hash s m := by
  cases s
  · exact Auth.C63_sha256bin m (by omega)
  · exact Auth.C63_sha384bin m (by omega)
  · exact Auth.C63_sha512bin m (by omega)

theorem digest_eq {m : Bytes} {jwk : JVal} (hm : m.length < 2 ^ 50) (hk : (Spec.secret jwk).length < 2 ^ 51) (s : Sha) :
    digestHmac m jwk s = Enc.Spec.base64 true false (Spec.mac s (Spec.secret jwk) m) := by
  unfold digestHmac
  simp only
  rw [List.take_of_length_le (Nat.le_of_eq (hmac_length _ _ _)), base64_eq]
  exact congrArg (fun x => b64Encode x true) (mac_eq hm hk s)

theorem lookup_alg {x : Bytes} {alg : Alg} (h : algTable.lookup x = some alg) : x = Spec.algName alg := by
  unfold algTable at h
  simp only [List.lookup_cons, List.lookup_nil] at h
  repeat' (split at h; · rename_i hx; rw [beq_iff_eq] at hx; cases h; exact hx)
  cases h

theorem lookup_name (alg : Alg) : algTable.lookup (Spec.algName alg) = some alg := by
  rcases alg with s | s | s | s <;> cases s <;> decide +kernel

/-- What `verify` has checked. -/
theorem verify_true {env : Env} {m sig x : Bytes} {jwk : JVal} (hm : m.length < 2 ^ 50) (hk : (Spec.secret jwk).length < 2 ^ 51)
    (h : verify env m jwk sig x = some true) :
    ∃ alg, x = Spec.algName alg ∧ (Spec.TypeIs jwk (Spec.letter alg) → Spec.SignedBy env jwk alg m sig) := by
  unfold verify at h
  split at h <;> rename_i s hl
  · refine ⟨_, lookup_alg hl, fun ht => ⟨ht, ?_⟩⟩
    simp only [Option.some.injEq, verifyHmac, beq_iff_eq] at h
    show sig = Enc.Spec.base64 true false (Spec.mac s (Spec.secret jwk) m)
    rw [← digest_eq hm hk, h]
  · refine ⟨_, lookup_alg hl, fun ht => ⟨ht, ?_⟩⟩
    unfold verifyRsa at h
    simp only at h
    split at h
    · cases h
    · split at h
      · cases h
      · split at h
        · cases h
        · rw [hash_eq hm] at h
          exact Option.some.inj h
  · refine ⟨_, lookup_alg hl, fun ht => ⟨ht, ?_⟩⟩
    unfold verifyRsa at h
    simp only at h
    split at h
    · cases h
    · split at h
      · cases h
      · split at h
        · cases h
        · rw [hash_eq hm] at h
          exact Option.some.inj h
  · refine ⟨_, lookup_alg hl, fun ht => ⟨ht, ?_⟩⟩
    unfold verifyEcdsa at h
    simp only at h
    split at h
    · cases h
    · split at h
      · cases h
      · split at h
        · cases h
        · rw [hash_eq hm] at h
          exact Option.some.inj h
  · cases h

theorem algLetter_name (alg : Alg) : algLetter (Spec.algName alg) = some (Spec.letter alg) := by
  rcases alg with s | s | s | s <;> cases s <;> decide +kernel

/-- A key that has nothing but what is kept. -/
theorem keep_obj {l : List (Bytes × JVal)} {c : UInt8} {r : Bytes} (h1 : isMember (.obj l) (asc "kty") = true)
    (h2 : strRef (member (.obj l) (asc "kty")) = c :: r) (h3 : ∀ n ∈ l.map (·.1), (common.contains n || (ofType c).contains n) = true) :
    keep (.obj l) = some (.obj l) := by
  unfold keep
  simp only [h1, h2, if_true]
  rw [List.filter_eq_self.mpr fun m hm => h3 m.1 (List.mem_map_of_mem hm)]

theorem streams_ne_nil (v : JVal) : (streams v).isEmpty = false := by
  unfold streams
  extract_lets l
  split
  · rfl
  · rename_i h
    exact Bool.eq_false_iff.mpr h

theorem entryKey_stream {e : Entry} {k : Key} (h : entryKey e = some k) : k.stream.isEmpty = false := by
  unfold entryKey mkKey at h
  simp only [Option.bind_eq_some_iff, Option.map_eq_some_iff] at h
  obtain ⟨j, _, s, _, j', _, rfl⟩ := h
  exact streams_ne_nil s

theorem matchKeyPerms_iff {k : Key} {s : Bytes} {req : Nat} (hs : k.stream.isEmpty = false) :
    matchKeyPerms k s req = true ↔ k.perms &&& req = req ∧ ∃ p ∈ k.stream, equalsWithWildcard s p = true := by
  unfold matchKeyPerms
  rw [hs]
  by_cases h : k.perms &&& req = req <;> simp [h]

theorem anyLoop_true {env : Env} {t : Jws} {x : Bytes} {c : UInt8} (hm : t.sin.length < 2 ^ 50) (hc : algLetter x = some c) :
    ∀ {table : List Entry}, (∀ e ∈ table, Spec.Configured e) → anyLoop env t x c table = some true →
      (strRef (member t.hdr (asc "alg")) = x) → Spec.Authorised env table t.perms t.hdr t.pld t.sin t.sig := by
  intro table
  induction table with
  | nil => intro _ h; cases h
  | cons e r ih =>
    intro hcf h hx
    have ih := fun h => ih (fun e he => hcf e (List.mem_cons_of_mem _ he)) h hx
    have up : Spec.Authorised env r t.perms t.hdr t.pld t.sin t.sig → Spec.Authorised env (e :: r) t.perms t.hdr t.pld t.sin t.sig :=
      fun ⟨e', he', w⟩ => ⟨e', List.mem_cons_of_mem _ he', w⟩
    unfold anyLoop at h
    split at h
    · exact up (ih h)
    · rename_i hkty
      rw [Option.bind_eq_some_iff] at h
      obtain ⟨k, hk, h⟩ := h
      obtain ⟨hty, hsec⟩ := hcf e List.mem_cons_self k hk
      split at h
      · rename_i hmk
        rw [Option.bind_eq_some_iff] at h
        obtain ⟨ok, hv, h⟩ := h
        split at h
        · rename_i hok
          subst hok
          obtain ⟨alg, ha, hsig⟩ := verify_true hm hsec hv
          obtain ⟨hp, hs⟩ := (matchKeyPerms_iff (entryKey_stream hk)).mp hmk
          refine ⟨e, List.mem_cons_self, k, alg, hk, hp, hs, by unfold Spec.textOf; rw [hx, ha], hsig ?_⟩
          unfold Spec.TypeIs
          rw [ha, algLetter_name] at hc
          rw [hty]
          simp only [ne_eq, Decidable.not_not] at hkty
          rw [hkty, ← Option.some.inj hc]
        · exact up (ih h)
      · exact up (ih h)

theorem verifyAny_true {env : Env} {t : Jws} (hm : t.sin.length < 2 ^ 50) {table : List Entry} (hcf : ∀ e ∈ table, Spec.Configured e)
    (h : verifyAny env table t (strRef (member t.hdr (asc "alg"))) = some true) :
    Spec.Authorised env table t.perms t.hdr t.pld t.sin t.sig := by
  unfold verifyAny at h
  split at h
  · cases h
  · rename_i c hc
    exact anyLoop_true hm hc hcf h rfl

/-- What `validateSignature` has checked, if the key that the token names has the type for the algorithm. -/
theorem validate_true {env : Env} {t : Jws} (hm : t.sin.length < 2 ^ 50) {table : List Entry} (hcf : ∀ e ∈ table, Spec.Configured e)
    (hkid : ∀ e ∈ table, Spec.textOf t.hdr "kid" ≠ [] → e.kid = Spec.textOf t.hdr "kid" → ∀ k, entryKey e = some k → ∀ alg,
      Spec.textOf t.hdr "alg" = Spec.algName alg → Spec.TypeIs k.jwk (Spec.letter alg))
    (h : validateSignature env table t = some true) : Spec.Authorised env table t.perms t.hdr t.pld t.sin t.sig := by
  unfold validateSignature at h
  simp only at h
  split at h
  · exact verifyAny_true hm hcf h
  · rename_i hne
    split at h
    · exact verifyAny_true hm hcf h
    · rename_i e he
      have hmem := List.mem_of_find?_eq_some he
      have hek := List.find?_some he
      rw [beq_iff_eq] at hek
      rw [Option.bind_eq_some_iff] at h
      obtain ⟨k, hk, h⟩ := h
      split at h
      · split at h
        · rename_i hmk
          obtain ⟨alg, ha, hsig⟩ := verify_true hm (hcf e hmem k hk).2 h
          obtain ⟨hp, hs⟩ := (matchKeyPerms_iff (entryKey_stream hk)).mp hmk
          exact ⟨e, hmem, k, alg, hk, hp, hs, ha, hsig (hkid e hmem (by simpa [Spec.textOf] using hne) hek k hk alg ha)⟩
        · cases h
      · exact verifyAny_true hm hcf h

theorem verify_none {env : Env} {m sig x : Bytes} {jwk : JVal} (hx : ∀ alg, x ≠ Spec.algName alg) : verify env m jwk sig x ≠ some true := by
  unfold verify
  split <;> rename_i hl
  · exact absurd (lookup_alg hl) (hx _)
  · exact absurd (lookup_alg hl) (hx _)
  · exact absurd (lookup_alg hl) (hx _)
  · exact absurd (lookup_alg hl) (hx _)
  · simp

theorem anyLoop_none {env : Env} {t : Jws} {x : Bytes} {c : UInt8} (hx : ∀ alg, x ≠ Spec.algName alg) :
    ∀ table, anyLoop env t x c table ≠ some true := by
  intro table
  induction table with
  | nil => simp [anyLoop]
  | cons e r ih =>
    intro h
    unfold anyLoop at h
    split at h
    · exact ih h
    · rw [Option.bind_eq_some_iff] at h
      obtain ⟨k, hk, h⟩ := h
      split at h
      · rw [Option.bind_eq_some_iff] at h
        obtain ⟨ok, hv, h⟩ := h
        split at h
        · rename_i hok; subst hok; exact verify_none hx hv
        · exact ih h
      · exact ih h

theorem validate_none {env : Env} {t : Jws} (hx : ∀ alg, Spec.textOf t.hdr "alg" ≠ Spec.algName alg) (table : List Entry) :
    validateSignature env table t ≠ some true := by
  intro h
  have hany : verifyAny env table t (strRef (member t.hdr (asc "alg"))) ≠ some true := by
    unfold verifyAny
    split
    · simp
    · exact anyLoop_none hx table
  unfold validateSignature at h
  simp only at h
  split at h
  · exact hany h
  · split at h
    · exact hany h
    · rw [Option.bind_eq_some_iff] at h
      obtain ⟨k, hk, h⟩ := h
      split at h
      · split at h
        · exact verify_none hx h
        · cases h
      · exact hany h

/-- A token with the code of a symmetric key is found to be valid, if it names no key. -/
theorem anyLoop_hs {env : Env} {t : Jws} {s : Sha} (hm : t.sin.length < 2 ^ 50) :
    ∀ {table : List Entry}, (∀ e ∈ table, Spec.Configured e) → (∀ e ∈ table, entryKey e ≠ none) →
      ∀ e ∈ table, ∀ k, entryKey e = some k → k.perms &&& t.perms = t.perms →
      (∃ p ∈ k.stream, equalsWithWildcard (Spec.textOf t.pld "sub") p = true) → Spec.SignedBy env k.jwk (.hs s) t.sin t.sig →
      anyLoop env t (Spec.algName (.hs s)) 111 table = some true := by
  intro table
  induction table with
  | nil => intro _ _ e he; simp at he
  | cons d r ih =>
    intro hcf hok e he k hk hp hs hsig
    have ih := ih (fun e he => hcf e (List.mem_cons_of_mem _ he)) (fun e he => hok e (List.mem_cons_of_mem _ he))
    have hv : ∀ j, ∃ b, verify env t.sin j t.sig (Spec.algName (.hs s)) = some b := by
      intro j
      unfold verify
      rw [lookup_name]
      exact ⟨_, rfl⟩
    rcases List.mem_cons.mp he with rfl | he
    · obtain ⟨hty, hsec⟩ := hcf e List.mem_cons_self k hk
      unfold anyLoop
      have : e.kty.head? = some 111 := by rw [← hty]; exact hsig.1
      rw [if_neg (by simp [this]), hk]
      simp only [Option.bind_some]
      have hmk : matchKeyPerms k (strRef (member t.pld (asc "sub"))) t.perms = true :=
        (matchKeyPerms_iff (entryKey_stream hk)).mpr ⟨hp, hs⟩
      rw [if_pos hmk]
      have : verify env t.sin k.jwk t.sig (Spec.algName (.hs s)) = some true := by
        unfold verify
        rw [lookup_name]
        simp only [verifyHmac, digest_eq hm hsec, Option.some.injEq, beq_iff_eq]
        exact hsig.2.symm
      rw [this]
      rfl
    · have := ih e he k hk hp hs hsig
      unfold anyLoop
      split
      · exact this
      · cases hd : entryKey d with
        | none => exact absurd hd (hok d List.mem_cons_self)
        | some kd =>
          simp only [Option.bind_some]
          split
          · obtain ⟨b, hb⟩ := hv kd.jwk
            rw [hb]
            simp only [Option.bind_some]
            split
            · rfl
            · exact this
          · exact this

/-- A token made with a symmetric key is accepted, if its claims are met. -/
theorem issue_accepted {env : Env} {e : Entry} {key : Bytes} {patterns : List Bytes} (he : Spec.WatchKey e key patterns) {p : JVal}
    (hp : Json.Spec.Good Json.Spec.KeptText Json.Spec.KeptText p)
    (hl : (Spec.signedText (toText (fun _ => []) Spec.hs256) (toText (fun _ => []) p)).length < 2 ^ 50)
    (hs : ∃ q ∈ patterns, equalsWithWildcard (Spec.textOf p "sub") q = true) (streamName hostIP : Bytes) (now : Nat)
    (hc : ∀ sig text, sig ≠ [] → checkClaims env ⟨Spec.hs256, p, sig, text, 4⟩ streamName hostIP now = true) :
    viewerToken env [e] (Spec.issue key Spec.hs256 p) streamName hostIP now = some true := by
  obtain ⟨hcf, k, hk, hty, hpm, rfl, rfl⟩ := he
  have hh : parseText (toText (fun _ => []) Spec.hs256) = some Spec.hs256 := by
    apply Json.C19_partial
    simp only [Spec.hs256, Json.Spec.Good, Json.Spec.GoodMembers]
    exact ⟨by decide +kernel, ⟨['a', 'l', 'g'], by decide +kernel, by decide⟩, ⟨['H', 'S', '2', '5', '6'], by decide +kernel, by decide⟩, trivial⟩
  unfold viewerToken Spec.issue
  simp only
  rw [parse_compact, hh, Json.C19_partial _ p hp]
  simp only [Option.bind_some]
  generalize ht : Spec.signedText (toText (fun _ => []) Spec.hs256) (toText (fun _ => []) p) = text at *
  have hsig : Enc.Spec.base64 true false (Spec.mac .sha256 (Spec.secret k.jwk) text) ≠ [] := by
    rw [← digest_eq hl (hcf k hk).2]
    intro h0
    unfold digestHmac at h0
    have := Enc.C01_base64_roundtrip ((Auth.hmacShabin text (b64Decode (strRef (member k.jwk (asc "k")))) .sha256).take (bits .sha256 / 8)) true
    rw [h0] at this
    have h1 := congrArg List.length this
    rw [List.length_take, hmac_length] at h1
    revert h1
    decide
  have hcl := hc _ text hsig
  have hok : Jws.ok ⟨Spec.hs256, p, Enc.Spec.base64 true false (Spec.mac .sha256 (Spec.secret k.jwk) text), text, 4⟩ = true := by
    unfold checkClaims at hcl
    cases hok : Jws.ok ⟨Spec.hs256, p, Enc.Spec.base64 true false (Spec.mac .sha256 (Spec.secret k.jwk) text), text, 4⟩
    · rw [hok] at hcl; simp at hcl
    · rfl
  rw [hok, hcl]
  simp only [Bool.and_self, if_true]
  unfold validateSignature
  have halg : strRef (member Spec.hs256 (asc "alg")) = Spec.algName (.hs .sha256) := by decide +kernel
  have hkid : (strRef (member Spec.hs256 (asc "kid"))).isEmpty = true := by decide +kernel
  simp only [halg, hkid, if_true]
  unfold verifyAny
  rw [algLetter_name]
  refine anyLoop_hs (t := ⟨Spec.hs256, p, _, text, 4⟩) hl (by simpa using hcf) (by simp [hk]) e (by simp) k hk hpm hs ⟨hty, rfl⟩

/-! ## Texts that look like tokens -/

theorem digit_iff (c : UInt8) (h : c < 128) : (∃ v < 64, c = Enc.Spec.digit true v) ↔
    ¬ c < 45 ∧ c ≠ 46 ∧ ¬ (c = 47 ∨ c = 58 ∨ c = 64 ∨ c = 96) ∧ (c = 95 ∨ c &&& 0x1F < 27) := by
  revert c
  decide +kernel

theorem dot_not_digit : ¬ ∃ v < 64, (46 : UInt8) = Enc.Spec.digit true v := by decide +kernel

/-- As many parts as there are dots still allowed. -/
def Parts : Nat → Bytes → Prop
  | 0, s => ∀ x ∈ s, ∃ v < 64, x = Enc.Spec.digit true v
  | n + 1, s => ∃ a r : Bytes, s = a ++ 46 :: r ∧ (∀ x ∈ a, ∃ v < 64, x = Enc.Spec.digit true v) ∧ Parts n r

theorem parts_cons {n : Nat} {c : UInt8} {r : Bytes} (hc : c ≠ 46) :
    Parts n (c :: r) ↔ (∃ v < 64, c = Enc.Spec.digit true v) ∧ Parts n r := by
  cases n with
  | zero => simp [Parts]
  | succ n =>
    constructor
    · rintro ⟨a, s, h, ha, hs⟩
      cases a with
      | nil => simp at h; exact absurd h.1 hc
      | cons x a =>
        simp only [List.cons_append, List.cons.injEq] at h
        obtain ⟨rfl, rfl⟩ := h
        exact ⟨ha _ (by simp), a, s, rfl, fun y hy => ha y (by simp [hy]), hs⟩
    · rintro ⟨hd, a, s, rfl, ha, hs⟩
      refine ⟨c :: a, s, rfl, ?_, hs⟩
      intro x hx
      rcases List.mem_cons.mp hx with rfl | hx
      · exact hd
      · exact ha x hx

theorem parts_dot {n : Nat} {r : Bytes} : Parts (n + 1) (46 :: r) ↔ Parts n r := by
  constructor
  · rintro ⟨a, s, h, ha, hs⟩
    cases a with
    | nil => simp at h; rw [h]; exact hs
    | cons x a =>
      simp only [List.cons_append, List.cons.injEq] at h
      obtain ⟨rfl, rfl⟩ := h
      exact absurd (ha _ (by simp)) dot_not_digit
  · intro h
    exact ⟨[], r, rfl, by simp, h⟩

theorem isJWSLoop_iff : ∀ (s : Bytes) (d : Nat), d ≤ 2 → (∀ x ∈ s, x < 128) → (isJWSLoop s d = true ↔ Parts (2 - d) s) := by
  intro s
  induction s with
  | nil =>
    intro d hd _
    have : d = 0 ∨ d = 1 ∨ d = 2 := by omega
    rcases this with rfl | rfl | rfl <;> simp [isJWSLoop, Parts]
  | cons c r ih =>
    intro d hd h
    have hc := h c (by simp)
    have ih := fun d hd => ih d hd fun x hx => h x (by simp [hx])
    unfold isJWSLoop
    by_cases e : c = 46
    · subst e
      rw [if_neg (by decide), if_pos rfl]
      by_cases h2 : d + 1 > 2
      · rw [if_pos h2]
        have : d = 2 := by omega
        subst this
        simp only [Bool.false_eq_true, Nat.sub_self, Parts, false_iff]
        intro hp
        exact dot_not_digit (hp 46 (by simp))
      · rw [if_neg h2, ih (d + 1) (by omega), show 2 - d = (2 - (d + 1)) + 1 by omega, parts_dot]
    · rw [parts_cons e, digit_iff c hc, ← ih d hd]
      by_cases h1 : c < 45
      · simp [h1]
      · rw [if_neg h1, if_neg e]
        by_cases h2 : c = 47 ∨ c = 58 ∨ c = 64 ∨ c = 96
        · rw [if_pos h2]
          simp [h2]
        · rw [if_neg h2]
          by_cases h3 : c = 95 ∨ c &&& 0x1F < 27
          · rw [if_pos h3]
            simp only [h1, h2, h3, e, not_false_eq_true, ne_eq, true_and]
          · rw [if_neg h3]
            simp [h3]

theorem isJWSLoop_dots : ∀ (s : Bytes) (d : Nat), isJWSLoop s d = true → s.count 46 + d = 2 := by
  intro s
  induction s with
  | nil => intro d h; simpa [isJWSLoop] using h
  | cons c r ih =>
    intro d h
    unfold isJWSLoop at h
    split at h
    · cases h
    · split at h
      · split at h
        · cases h
        · rename_i e _
          subst e
          have := ih _ h
          simp only [List.count_cons, beq_self_eq_true, if_true]
          omega
      · rename_i e
        split at h
        · cases h
        · split at h
          · have := ih _ h
            rw [List.count_cons_of_ne e]
            omega
          · cases h

end Verif.Jwt
