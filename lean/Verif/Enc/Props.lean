import Verif.Enc.Lemmas

/-!
# C01–C03: text encodings

`b64Encode`, `b64Decode`, `hexEncode`, `hexDecode`, `urlEncode`, `urlDecode` are the
models of the functions of `/repo/lib/encode.cpp`.
-/
namespace Verif.Enc
open Spec

/-! ## C01 Base64 -/

/-- C01. The encoder produces exactly the RFC 4648 text: padded for the standard alphabet,
unpadded for the URL alphabet. -/
theorem C01_base64_is_rfc4648 (s : Bytes) (url : Bool) :
    b64Encode s url = base64 url (!url) s := by
  obtain ⟨h1, h2⟩ := loop_eq url s
  unfold b64Encode base64
  cases url
  · simp only [Bool.not_false, if_true, Bool.false_eq_true, if_false]
    rw [h1]
    show digits false s ++ _ = digits false s ++ _
    congr 2
    show _ = (4 - (digits false s).length % 4) % 4
    omega
  · simp only [if_true, Bool.not_true, Bool.false_eq_true, if_false, List.append_nil]
    rw [h1, stripPad_digits]
    rfl

/-- C01. Decoding undoes encoding, for every byte string and either alphabet. -/
theorem C01_base64_roundtrip (s : Bytes) (url : Bool) : b64Decode (b64Encode s url) = s := by
  unfold b64Decode b64Encode
  obtain ⟨h1, _⟩ := loop_eq url s
  cases url
  · simp only [Bool.false_eq_true, if_false]
    rw [h1, dec_digits]
  · simp only [if_true]
    rw [h1, stripPad_digits]
    simpa using dec_digits true s 0

/-- C01. The padded text has `4 * ceil (n / 3)` characters, all of them alphabet
characters or '='. -/
theorem C01_base64_shape (s : Bytes) :
    (b64Encode s false).length = 4 * ((s.length + 2) / 3) ∧
      ∀ c ∈ b64Encode s false, c = 61 ∨ ∃ v < 64, c = digit false v := by
  obtain ⟨h1, h2⟩ := loop_eq false s
  constructor
  · unfold b64Encode; simp only [Bool.false_eq_true, if_false, h1, List.length_append,
      List.length_replicate]; exact h2
  · intro c hc
    rw [b64Encode] at hc
    simp only [Bool.false_eq_true, if_false, h1, List.mem_append, List.mem_replicate] at hc
    rcases hc with hc | ⟨_, rfl⟩
    · right
      simp only [digits, List.mem_map] at hc
      obtain ⟨v, hv, rfl⟩ := hc
      exact ⟨v, sextets_lt _ v hv, rfl⟩
    · exact .inl rfl

/-- Two different byte strings never share an encoding. -/
theorem C01_base64_injective (a b : Bytes) (url : Bool) (h : b64Encode a url = b64Encode b url) :
    a = b := by
  rw [← C01_base64_roundtrip a url, h, C01_base64_roundtrip]

theorem charVal_known : ∀ c : UInt8, b64CharVal c = 64 ∨
    (b64Chars false).contains c ∨ (b64Chars true).contains c := by decide +kernel

/-- The characters of the two alphabets are the digits of the specification. -/
theorem b64Chars_digits (url : Bool) : b64Chars url = (List.range 64).map (digit url) := by
  cases url <;> decide +kernel

/-- C01. Decoding stops at the first character of neither alphabet (padding included), whatever precedes
and follows it. -/
theorem C01_base64_stops (pre r : Bytes) (c : UInt8) (hc : ∀ url, ∀ v < 64, c ≠ digit url v) :
    b64Decode (pre ++ c :: r) = b64Decode pre := by
  have h64 : b64CharVal c = 64 := by
    rcases charVal_known c with h | h | h
    · exact h
    all_goals
      rw [b64Chars_digits] at h
      simp only [List.contains_iff_mem, List.mem_map, List.mem_range] at h
      obtain ⟨v, hv, rfl⟩ := h
      exact absurd rfl (hc _ v hv)
  have key : ∀ p, b64DecLoop (pre ++ c :: r) p = b64DecLoop pre p := by
    induction pre with
    | nil =>
      intro p
      rw [List.nil_append, b64DecLoop.eq_def]
      simp [h64, b64DecLoop]
    | cons a t ih =>
      intro p
      rw [List.cons_append, b64DecLoop.eq_def, b64DecLoop.eq_def (a :: t)]
      simp only [ih]
  exact key []

example : b64Decode [84, 87, 70, 117, 10, 84, 87] = [77, 97, 110] := by decide +kernel

example : b64Encode [77, 97, 110, 255] false = [84, 87, 70, 117, 47, 119, 61, 61] ∧
    b64Encode [77, 97, 110, 255] true = [84, 87, 70, 117, 95, 119] ∧
    b64Decode [84, 87, 70, 117, 95, 119] = [77, 97, 110, 255] := by decide +kernel

/-! ## C02 hexadecimal -/

/-- C02. Decoding undoes encoding, whatever the letter case of the text. -/
theorem C02_hex_roundtrip (s t : Bytes) (h : sameUpToCase t (hexEncode s)) :
    hexDecode t = some s := by
  induction s generalizing t with
  | nil =>
    simp only [sameUpToCase, hexEncode, List.flatMap_nil, List.map_nil, List.map_eq_nil_iff] at h
    subst h; rfl
  | cons b r ih =>
    obtain ⟨x, y, hxy, _, _, hx, hy⟩ := hexChr_spec b
    have he : hexEncode (b :: r) = x :: y :: hexEncode r := by
      unfold hexEncode; rw [List.flatMap_cons, hxy]; rfl
    simp only [sameUpToCase, he, List.map_cons] at h
    match t, h with
    | [], h => simp at h
    | [_], h => simp at h
    | u :: v :: t', h =>
      simp only [List.map_cons, List.cons.injEq] at h
      obtain ⟨hu, hv, ht⟩ := h
      have hu' : hexVal u = some (b.toNat / 16) := by rw [← hexVal_upper, hu, hexVal_upper, hx]
      have hv' : hexVal v = some (b.toNat % 16) := by rw [← hexVal_upper, hv, hexVal_upper, hy]
      rw [hexDecode, ih t' ht, (hex_pair hu' hv').1]; rfl

/-- C02. Two lower-case hexadecimal characters per byte. -/
theorem C02_hex_shape (s : Bytes) :
    (hexEncode s).length = 2 * s.length ∧ ∀ c ∈ hexEncode s, isLowerHex c := by
  induction s with
  | nil => simp [hexEncode]
  | cons b r ih =>
    obtain ⟨x, y, hxy, h1, h2, _, _⟩ := hexChr_spec b
    have he : hexEncode (b :: r) = x :: y :: hexEncode r := by
      unfold hexEncode; rw [List.flatMap_cons, hxy]; rfl
    rw [he]
    refine ⟨by simp [ih.1]; omega, ?_⟩
    intro c hc
    simp only [List.mem_cons] at hc
    rcases hc with rfl | rfl | hc
    · exact h1
    · exact h2
    · exact ih.2 c hc

/-- C02, violated precondition: an odd number of digits makes the decoder write one byte past
its output buffer. -/
theorem C02_hex_odd_is_undefined (t : Bytes) (h : t.length % 2 = 1) : hexDecode t = none := by
  induction t using hexDecode.induct with
  | case1 => simp at h
  | case2 => rfl
  | case3 a b r ih => rw [hexDecode, ih (by simp at h; omega)]; rfl

example : sameUpToCase [68, 101, 65, 100] (hexEncode [0xDE, 0xAD]) ∧
    hexDecode [68, 101, 65, 100] = some [0xDE, 0xAD] := by
  refine ⟨?_, by decide +kernel⟩
  show _ = _
  decide +kernel

/-! ## C03 percent-encoding -/

/-- C03. Decoding undoes encoding. In query mode the decoder must also be in query mode, and
the caller's list of exempted characters must contain neither '%' nor (in query mode) '+'. -/
theorem C03_url_roundtrip (ign s : Bytes) (query : Bool) (hp : 37 ∉ ign) (hq : query = true → 43 ∉ ign) :
    urlDecode query (urlEncode ign query s) = s := by
  induction s with
  | nil => rfl
  | cons c r ih =>
    rw [urlEncode]
    by_cases h1 : (urlPlain c || ign.contains c) = true
    · rw [if_pos h1]
      simp only [List.cons_append, List.nil_append]
      have hne : c ≠ 37 := by
        rintro rfl
        simp only [Bool.or_eq_true, List.contains_iff_mem] at h1
        rcases h1 with h | h
        · revert h; decide
        · exact hp h
      have hne2 : ¬ (c = 43 ∧ query = true) := by
        rintro ⟨rfl, hqt⟩
        simp only [Bool.or_eq_true, List.contains_iff_mem] at h1
        rcases h1 with h | h
        · revert h; decide
        · exact hq hqt h
      rw [urlDecode.eq_def]; simp only [hne, hne2, if_false, ih]
    · rw [if_neg h1]
      by_cases h2 : (c == 32 && query) = true
      · rw [if_pos h2]
        simp only [Bool.and_eq_true, beq_iff_eq] at h2
        obtain ⟨rfl, hq'⟩ := h2
        simp only [List.cons_append, List.nil_append]
        rw [urlDecode.eq_def]
        simp only [hq', if_true, and_self, show ¬ ((43 : UInt8) = 37) by decide, if_false]
        rw [hq'] at ih; rw [ih]
      · rw [if_neg h2]
        obtain ⟨x, y, hxy, _, _, hx, hy⟩ := hexChr_spec c
        rw [hxy]
        simp only [List.cons_append, List.nil_append]
        rw [urlDecode.eq_def]
        simp only [if_true]
        rw [ih, (hex_pair hx hy).2]

/-- C03. Only unreserved or exempted characters, '%' and lower-case hexadecimal digits, and (in
query mode) '+' are ever emitted. -/
theorem C03_url_safe (ign s : Bytes) (query : Bool) :
    ∀ c ∈ urlEncode ign query s,
      unreserved c ∨ c ∈ ign ∨ c = 37 ∨ (c = 43 ∧ query = true ∧ 32 ∈ s) := by
  induction s with
  | nil => simp [urlEncode]
  | cons b r ih =>
    intro c hc
    rw [urlEncode, List.mem_append] at hc
    rcases hc with hc | hc
    · split at hc
      next h =>
        simp only [List.mem_cons, List.not_mem_nil, or_false] at hc
        subst hc
        simp only [Bool.or_eq_true, List.contains_iff_mem] at h
        rcases h with h | h
        · exact .inl (urlPlain_unreserved c h)
        · exact .inr (.inl h)
      next h =>
        split at hc
        next h2 =>
          simp only [Bool.and_eq_true, beq_iff_eq] at h2
          simp only [List.mem_cons, List.not_mem_nil, or_false] at hc
          exact .inr (.inr (.inr ⟨hc, h2.2, by simp [h2.1]⟩))
        next h2 =>
          obtain ⟨x, y, hxy, h1, h3, _, _⟩ := hexChr_spec b
          rw [hxy] at hc
          simp only [List.mem_cons, List.not_mem_nil, or_false] at hc
          rcases hc with hc | hc | hc
          · exact .inr (.inr (.inl hc))
          · exact .inl (lowerHex_unreserved c (hc ▸ h1))
          · exact .inl (lowerHex_unreserved c (hc ▸ h3))
    · rcases ih c hc with h | h | h | h
      · exact .inl h
      · exact .inr (.inl h)
      · exact .inr (.inr (.inl h))
      · exact .inr (.inr (.inr ⟨h.1, h.2.1, List.mem_cons_of_mem _ h.2.2⟩))

/-- C03, necessity of the side condition: exempting '%' loses data. -/
theorem C03_url_exempting_percent_fails :
    ¬ ∀ s : Bytes, urlDecode false (urlEncode [37] false s) = s := by
  intro h; have := h [37, 52, 49]; revert this; decide +kernel

example : (37 : UInt8) ∉ [47, 58] ∧ urlEncode [47, 58] true [97, 47, 32, 43, 255] =
    [97, 47, 43, 37, 50, 98, 37, 102, 102] := by decide +kernel

end Verif.Enc
