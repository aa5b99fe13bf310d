import Verif.Auth.Lemmas

/-!
# Hashes, message authentication codes and session identifiers

The hash functions are compared with the published ones in `Spec.lean`, where padding, schedules, round functions and constants
are written down as the standards do.
-/
namespace Verif.Auth

/-! ## C63: the hash functions are the published ones -/

/-- C63, MD5: the 16 bytes are the MD5 hash (RFC 1321) of every input shorter than 2^51 bytes (2 petabytes). -/
theorem C63_md5bin (m : Bytes) (h : m.length < 2 ^ 51) : md5bin m = Spec.md5 m := md5_right h

/-- C63, MD5 in hexadecimal digits. -/
theorem C63_md5 (m : Bytes) (h : m.length < 2 ^ 51) : md5 m = Spec.hex (Spec.md5 m) := by
  unfold md5
  rw [hexOut_eq, md5_right h]

/-- C63, SHA-256: the 32 bytes are the SHA-256 hash (FIPS 180-4) of every input shorter than 2^51 bytes. -/
theorem C63_sha256bin (m : Bytes) (h : m.length < 2 ^ 51) : shabin m .sha256 = Spec.sha256 m := sha256_right h

/-- C63, SHA-256 in hexadecimal digits. -/
theorem C63_sha256 (m : Bytes) (h : m.length < 2 ^ 51) : sha256 m = Spec.hex (Spec.sha256 m) := by
  unfold sha256
  rw [hexOut_eq, sha256_right h]

/-- C63, SHA-384: for every input shorter than 2^61 bytes, where its length in bits has 64 bits. -/
theorem C63_sha384bin (m : Bytes) (h : m.length < 2 ^ 61) : shabin m .sha384 = Spec.sha384 m := sha384_right h

/-- C63, SHA-512: for every input shorter than 2^61 bytes. -/
theorem C63_sha512bin (m : Bytes) (h : m.length < 2 ^ 61) : shabin m .sha512 = Spec.sha512 m := sha512_right h

/-- C63, the limit is where the code ends being right: with 2^51 bytes, the length that MD5 and SHA-256 mix in is another one
than the standards say, since its highest byte is taken from bit 54 instead of bit 56. -/
theorem C63_length_fails : md5Len (2 ^ 51) ≠ Spec.little 8 (8 * 2 ^ 51) ∧ sha256Len (2 ^ 51) ≠ Spec.bigBytes 8 (8 * 2 ^ 51) := by
  decide +kernel

/-- "abc", whose hashes the standards list. -/
def abc : Bytes := [97, 98, 99]

example : abc.length < 2 ^ 51 ∧
    md5bin abc = [0x90, 0x01, 0x50, 0x98, 0x3c, 0xd2, 0x4f, 0xb0, 0xd6, 0x96, 0x3f, 0x7d, 0x28, 0xe1, 0x7f, 0x72] ∧
    Spec.md5 abc = [0x90, 0x01, 0x50, 0x98, 0x3c, 0xd2, 0x4f, 0xb0, 0xd6, 0x96, 0x3f, 0x7d, 0x28, 0xe1, 0x7f, 0x72] := by
  decide +kernel

example : shabin abc .sha256 = [0xba, 0x78, 0x16, 0xbf, 0x8f, 0x01, 0xcf, 0xea, 0x41, 0x41, 0x40, 0xde, 0x5d, 0xae, 0x22, 0x23,
    0xb0, 0x03, 0x61, 0xa3, 0x96, 0x17, 0x7a, 0x9c, 0xb4, 0x10, 0xff, 0x61, 0xf2, 0x00, 0x15, 0xad] ∧
    (shabin abc .sha384).take 8 = [0xcb, 0x00, 0x75, 0x3f, 0x45, 0xa3, 0x5e, 0x8b] ∧
    (shabin abc .sha512).take 8 = [0xdd, 0xaf, 0x35, 0xa1, 0x93, 0x61, 0x7a, 0xba] := by decide +kernel

/-- An input that leaves no room for the length in its last block. -/
example : (List.replicate 119 7 : Bytes).length < 2 ^ 51 ∧ (Spec.blocks 64 (Spec.pad 64 8 (Spec.bigBytes 8) (List.replicate 119 7))).length = 2 ∧
    (Spec.blocks 64 (Spec.pad 64 8 (Spec.bigBytes 8) (List.replicate 120 7))).length = 3 := by decide +kernel

/-! ## C64: message authentication codes -/

theorem hmac_congr {H G : Bytes → Bytes} {N n B : Nat} (e : ∀ x, x.length < N → H x = G x) (hn : ∀ x, (H x).length = n) (hB : n ≤ B)
    {key msg : Bytes} (hk : key.length < N) (hm : B + msg.length < N) (hN : B + n < N) : Spec.hmac H B key msg = Spec.hmac G B key msg := by
  have k : Spec.blockKey H B key = Spec.blockKey G B key := by
    unfold Spec.blockKey
    rw [e key hk]
  have l : (Spec.blockKey H B key).length = B := by
    unfold Spec.blockKey
    by_cases c : key.length ≤ B
    · simp only [if_pos c, List.length_append, List.length_replicate]
      omega
    · simp only [if_neg c, List.length_append, List.length_replicate, hn]
      omega
  unfold Spec.hmac
  simp only
  rw [← k]
  rw [e (_ ++ H _) (by simp [l, hn]; omega)]
  rw [e (_ ++ msg) (by simp [l]; omega)]

/-- C64, HMAC-SHA256: for every key and message, the 32 bytes are the code that RFC 2104 defines over SHA-256. -/
theorem C64_sha256 (key msg : Bytes) (hk : key.length < 2 ^ 51) (hm : 64 + msg.length < 2 ^ 51) :
    hmacShabin msg key .sha256 = Spec.hmac Spec.sha256 64 key msg := by
  show hmacbin msg key 32 sha256bin 64 = _
  rw [hmacbin_right _ sha256bin_length (by omega)]
  exact hmac_congr (fun x hx => sha256_right hx) sha256bin_length (by omega) hk hm (by omega)

/-- C64, HMAC-SHA384. -/
theorem C64_sha384 (key msg : Bytes) (hk : key.length < 2 ^ 61) (hm : 128 + msg.length < 2 ^ 61) :
    hmacShabin msg key .sha384 = Spec.hmac Spec.sha384 128 key msg := by
  show hmacbin msg key 48 (fun x => sha512bin x true) 128 = _
  rw [hmacbin_right _ sha384bin_length (by omega)]
  exact hmac_congr (fun x hx => sha384_right hx) sha384bin_length (by omega) hk hm (by omega)

/-- C64, HMAC-SHA512. -/
theorem C64_sha512 (key msg : Bytes) (hk : key.length < 2 ^ 61) (hm : 128 + msg.length < 2 ^ 61) :
    hmacShabin msg key .sha512 = Spec.hmac Spec.sha512 128 key msg := by
  show hmacbin msg key 64 (fun x => sha512bin x false) 128 = _
  rw [hmacbin_right _ sha512bin_length (by omega)]
  exact hmac_congr (fun x hx => sha512_right hx) sha512bin_length (by omega) hk hm (by omega)

/-- C64, in hexadecimal digits: twice as many digits as there are bytes, and they give the bytes. -/
theorem C64_hex (key msg : Bytes) (hk : key.length < 2 ^ 51) (hm : 64 + msg.length < 2 ^ 51) :
    hmacSha msg key .sha256 = Spec.hex (Spec.hmac Spec.sha256 64 key msg) := by
  unfold hmacSha
  rw [hexOut_eq, C64_sha256 key msg hk hm]

/-- RFC 4231, test cases 1 and 6: a short key, and one that is longer than a block. -/
example : hmacShabin [0x48, 0x69, 0x20, 0x54, 0x68, 0x65, 0x72, 0x65] (List.replicate 20 0x0b) .sha256 =
    [0xb0, 0x34, 0x4c, 0x61, 0xd8, 0xdb, 0x38, 0x53, 0x5c, 0xa8, 0xaf, 0xce, 0xaf, 0x0b, 0xf1, 0x2b,
     0x88, 0x1d, 0xc2, 0x00, 0xc9, 0x83, 0x3d, 0xa7, 0x26, 0xe9, 0x37, 0x6c, 0x2e, 0x32, 0xcf, 0xf7] := by decide +kernel

example : (hmacShabin "Test Using Larger Than Block-Size Key - Hash Key First".toUTF8.toList (List.replicate 131 0xaa) .sha256).take 8 =
    [0x60, 0xe4, 0x31, 0x59, 0x1e, 0xe0, 0xb6, 0x7f] := by decide +kernel

/-! ## C42: session identifiers -/

/-- What is hashed for a viewer. -/
def textOf (mode : Nat) (v : Spec.Viewer) : Bytes := sessionText v.stream v.ip v.token v.protocol mode

/-- The session of a viewer. -/
def sessionOf (mode : Nat) (v : Spec.Viewer) : Bytes := generateSession v.stream v.ip v.token v.protocol mode

theorem and_bit (mode k : Nat) : (mode &&& 2 ^ k ≠ 0) ↔ mode / 2 ^ k % 2 = 1 := by
  have ht : mode.testBit k = decide (mode / 2 ^ k % 2 = 1) := Nat.testBit_eq_decide_div_mod_eq
  by_cases c : mode / 2 ^ k % 2 = 1
  · refine ⟨fun _ => c, fun _ h => ?_⟩
    have := congrArg (Nat.testBit · k) h
    simp [Nat.testBit_and, ht, c, Nat.testBit_two_pow_self] at this
  · refine ⟨fun h => absurd ?_ h, fun h => absurd h c⟩
    apply Nat.eq_of_testBit_eq
    intro i
    rw [Nat.testBit_and, Nat.testBit_two_pow, Nat.zero_testBit]
    by_cases e : k = i
    · subst e
      simp [ht, c]
    · simp [e]

theorem textOf_eq (mode : Nat) (v : Spec.Viewer) : textOf mode v =
    (if Spec.selects mode .stream then v.stream else []) ++ (if Spec.selects mode .ip then v.ip else []) ++
    (if Spec.selects mode .token then v.token else []) ++ (if Spec.selects mode .protocol then v.protocol else []) := by
  unfold textOf sessionText
  have h8 := and_bit mode 3
  have h4 := and_bit mode 2
  have h2 := and_bit mode 1
  have h1 := and_bit mode 0
  simp only [Nat.reducePow, Nat.div_one] at h8 h4 h2 h1
  simp only [h8, h4, h2, h1, Spec.selects, decide_eq_true_eq]

/-- C42, one session per viewer: the identifier is the SHA-256 hash of what the selected fields determine, so that connections
that agree in them share a session. -/
theorem C42_same (mode : Nat) (v w : Spec.Viewer) (h : Spec.Same mode v w) : sessionOf mode v = sessionOf mode w := by
  have e : textOf mode v = textOf mode w := by
    rw [textOf_eq, textOf_eq]
    have hs := h .stream
    have hi := h .ip
    have ht := h .token
    have hp := h .protocol
    simp only [Spec.Viewer.get] at hs hi ht hp
    congr 1
    · congr 1
      · congr 1
        · split
          · exact hs ‹_›
          · rfl
        · split
          · exact hi ‹_›
          · rfl
      · split
        · exact ht ‹_›
        · rfl
    · split
      · exact hp ‹_›
      · rfl
  exact congrArg sha256 e

theorem four_parts {a b c d a' b' c' d' : Bytes} (e : a ++ b ++ c ++ d = a' ++ b' ++ c' ++ d')
    (h : (b.length = b'.length ∧ c.length = c'.length ∧ d.length = d'.length) ∨ (a.length = a'.length ∧ c.length = c'.length ∧ d.length = d'.length) ∨
      (a.length = a'.length ∧ b.length = b'.length ∧ d.length = d'.length) ∨ (a.length = a'.length ∧ b.length = b'.length ∧ c.length = c'.length)) :
    a = a' ∧ b = b' ∧ c = c' ∧ d = d' := by
  have hl := congrArg List.length e
  simp only [List.length_append] at hl
  have h1 := List.append_inj e (by simp only [List.length_append]; omega)
  have h2 := List.append_inj h1.1 (by simp only [List.length_append]; omega)
  have h3 := List.append_inj h2.1 (by omega)
  exact ⟨h3.1, h3.2, h2.2, h1.2⟩

/-- C42, where it holds: if at most one of the selected fields, `x`, has another length, then viewers that differ in a selected
field differ in what is hashed. Missing from the full property: fields of any length (`C42_fails`); and that SHA-256 has no
collisions cannot be proved. -/
theorem C42_distinct_partial (mode : Nat) (v w : Spec.Viewer) (x : Spec.Field)
    (hl : ∀ f, f ≠ x → Spec.selects mode f = true → (v.get f).length = (w.get f).length) (hd : ¬Spec.Same mode v w) :
    textOf mode v ≠ textOf mode w := by
  intro e
  apply hd
  rw [textOf_eq, textOf_eq] at e
  have key : ∀ f, f ≠ x → (if Spec.selects mode f then v.get f else []).length = (if Spec.selects mode f then w.get f else []).length := by
    intro f hf
    by_cases c : Spec.selects mode f = true
    · rw [if_pos c, if_pos c]
      exact hl f hf c
    · rw [if_neg c, if_neg c]
  have hs := key .stream
  have hi := key .ip
  have ht := key .token
  have hp := key .protocol
  simp only [Spec.Viewer.get] at hs hi ht hp
  have parts := four_parts e (by
    cases x
    · exact .inl ⟨hi (by decide), ht (by decide), hp (by decide)⟩
    · exact .inr (.inl ⟨hs (by decide), ht (by decide), hp (by decide)⟩)
    · exact .inr (.inr (.inl ⟨hs (by decide), hi (by decide), hp (by decide)⟩))
    · exact .inr (.inr (.inr ⟨hs (by decide), hi (by decide), ht (by decide)⟩)))
  intro f c
  cases f <;> simp only [c, if_true] at parts <;> simp only [Spec.Viewer.get, parts]

/-- C42 fails: the fields are written behind each other with nothing between them, so that the viewer of the stream "ab" with the
token "c" and the viewer of the stream "a" with the same address and the token "bc" share a session, if the stream
and the token are selected. -/
theorem C42_fails : ∃ mode v w, ¬Spec.Same mode v w ∧ v.ip = w.ip ∧ textOf mode v = textOf mode w ∧ sessionOf mode v = sessionOf mode w := by
  refine ⟨10, ⟨[97, 98], [], [99], []⟩, ⟨[97], [], [98, 99], []⟩, ?_, rfl, by decide, congrArg sha256 (by decide)⟩
  intro h
  exact absurd (h .stream (by decide)) (by decide)

/-- The fields of `C42_distinct_partial` exist: the same address lengths, other streams. -/
example : Spec.Same 12 ⟨[97], [1, 2, 3, 4], [5], []⟩ ⟨[97], [1, 2, 3, 4], [6], [7]⟩ ∧
    ¬Spec.Same 14 ⟨[97], [1, 2, 3, 4], [5], []⟩ ⟨[97], [1, 2, 3, 4], [6, 9], [7]⟩ := by
  refine ⟨?_, fun h => absurd (h .token (by decide)) (by decide)⟩
  intro f h
  cases f <;> first | rfl | exact absurd h (by decide)

end Verif.Auth
