import Verif.Ulp.Recover

/-! # C107: forward error correction of received media -/
namespace Verif.Ulp
open Verif

/-- C107, partial (`Group`: 8 or 16 packets in a row; no other packet is shorter than the lost one, which has at least 4 bytes of payload; the SSRC and the last 12 bytes are missing): if all packets of a group but one
are in the history, then from the correction that RFC 5109 prescribes for the group the lost one is recovered, up to its last 12 bytes: flags, payload type, marker, sequence
number, timestamp and payload. -/
theorem C107_recover_partial {base n k : Nat} {p : Nat → Bytes} {h : Hist} (hG : Group base n p) (hk : k < n) (hlost : find h ((base + k) % 65536) = none)
    (hgot : ∀ i < n, i ≠ k → find h ((base + i) % 65536) = some (p i)) (hl : ∀ i < n, (p k).length ≤ (p i).length) (h4 : 16 ≤ (p k).length) :
    ∃ r, recover h (protect base (List.range n) p) = .recovered r ∧ r.length + 12 = (p k).length ∧ ∀ (j : Nat), j < r.length → j < 8 ∨ 12 ≤ j → r[j]? = (p k)[j]? := by
  obtain ⟨r, h1, h2, h3⟩ := recover_eq hG hk ⟨hlost, hgot⟩ hl h4
  have := (hG.media k hk).long
  exact ⟨r, h1, by omega, fun j hj hc => h3 j (by omega) hc⟩

/-- C107: nothing is recovered if no packet of a group is missing, or more than one. -/
theorem C107_quiet {base n : Nat} {p : Nat → Bytes} {h : Hist} (hG : Group base n p)
    (hc : (∀ i < n, (find h ((base + i) % 65536)).isSome) ∨ ∃ i j, i < j ∧ j < n ∧ find h ((base + i) % 65536) = none ∧ find h ((base + j) % 65536) = none) :
    recover h (protect base (List.range n) p) = .nothing := by
  unfold recover
  rw [maskLen_two hG, protect_length, if_neg (by
    rcases hG.count with hn | hn <;> omega), covered_eq hG]
  split
  · rename_i missing hm
    exfalso
    have hmem : ∀ i < n, find h ((base + i) % 65536) = none → (base + i) % 65536 = missing := by
      intro i hi hf
      have : (base + i) % 65536 ∈ ((List.range n).map fun i => (base + i) % 65536).filter fun s => (find h s).isNone := by
        rw [List.mem_filter]
        exact ⟨List.mem_map.2 ⟨i, List.mem_range.2 hi, rfl⟩, by rw [hf]; rfl⟩
      rw [hm] at this
      exact List.mem_singleton.1 this
    rcases hc with hc | ⟨i, j, hij, hj, h1, h2⟩
    · have : missing ∈ ((List.range n).map fun i => (base + i) % 65536).filter fun s => (find h s).isNone := by rw [hm]; simp
      obtain ⟨h1, h2⟩ := List.mem_filter.1 this
      obtain ⟨i, hi, rfl⟩ := List.mem_map.1 h1
      have := hc i (List.mem_range.1 hi)
      cases hf : find h ((base + i) % 65536) with
      | none => rw [hf] at this; cases this
      | some _ => rw [hf] at h2; cases h2
    · have a1 := hmem i (by omega) h1
      have a2 := hmem j hj h2
      have : n ≤ 16 := by rcases hG.count with hn | hn <;> omega
      omega
  · rfl

theorem find_add (h : Hist) (s : Nat) (p : Bytes) (k : Nat) : find (addHist h s p) k = if k + 500 < s then none else if k = s then some p else find h k := by
  have hf : ∀ l : Hist, find (l.filter fun x => ¬ x.1 + 500 < s) k = if k + 500 < s then none else find l k := by
    intro l
    unfold find
    induction l with
    | nil => simp
    | cons a l ih =>
      by_cases ha : a.1 + 500 < s
      · rw [List.filter_cons, if_neg (by simpa using ha), ih, List.find?_cons]
        by_cases hk : a.1 = k
        · have : k + 500 < s := by omega
          simp [this]
        · simp [hk]
      · rw [List.filter_cons, if_pos (by simpa using ha), List.find?_cons, List.find?_cons]
        by_cases hk : a.1 = k
        · have : ¬ k + 500 < s := by omega
          simp [hk, this]
        · simp only [hk, decide_false]
          exact ih
  have hg : ∀ l : Hist, k ≠ s → find (l.filter fun x => x.1 ≠ s) k = find l k := by
    intro l hks
    unfold find
    induction l with
    | nil => rfl
    | cons a l ih =>
      by_cases ha : a.1 = s
      · rw [List.filter_cons, if_neg (by simp [ha]), List.find?_cons]
        have : ¬ a.1 = k := by omega
        simp only [this, decide_false]
        exact ih
      · rw [List.filter_cons, if_pos (by simp [ha]), List.find?_cons, List.find?_cons]
        by_cases hk : a.1 = k
        · simp [hk]
        · simp only [hk, decide_false]
          exact ih
  unfold addHist
  rw [hf]
  by_cases h1 : k + 500 < s
  · rw [if_pos h1, if_pos h1]
  · rw [if_neg h1, if_neg h1]
    by_cases h2 : k = s
    · subst h2
      rw [if_pos rfl]
      simp [find]
    · rw [if_neg h2, ← hg h h2]
      unfold find
      have : ¬ s = k := fun e => h2 e.symm
      rw [List.find?_cons]
      simp [this]

/-- C107, partial (sequence numbers that increase, without wrapping around): of the packets that arrived, exactly those are in the history whose number is at most 500 below the
last one. -/
theorem C107_history_partial (l : List (Nat × Bytes)) (s : Nat) (q : Bytes) (hi : (l ++ [(s, q)]).Pairwise fun a b => a.1 < b.1) (k : Nat) (p : Bytes) :
    find (arrive (l ++ [(s, q)])) k = some p ↔ (k, p) ∈ l ++ [(s, q)] ∧ s ≤ k + 500 := by
  have key : ∀ m : List (Nat × Bytes), ∀ (s : Nat) (q : Bytes), (m.reverse ++ [(s, q)]).Pairwise (fun a b => a.1 < b.1) →
      (find (arrive (m.reverse ++ [(s, q)])) k = some p ↔ (k, p) ∈ m.reverse ++ [(s, q)] ∧ s ≤ k + 500) := by
    intro m
    induction m with
    | nil =>
      intro s q _
      show find (addHist [] s q) k = some p ↔ _
      rw [find_add]
      by_cases h1 : k + 500 < s
      · rw [if_pos h1]; simp; omega
      · rw [if_neg h1]
        by_cases h2 : k = s
        · subst h2; simp [eq_comm]
        · rw [if_neg h2]; simp [find, h2]
    | cons a m ih =>
      intro s q hp
      rw [List.reverse_cons] at hp ⊢
      have hp1 := (List.pairwise_append.1 hp).1
      have hlast := (List.pairwise_append.1 hp).2.2
      have hs : a.1 < s := hlast a (by simp) (s, q) (by simp)
      have e : arrive (m.reverse ++ [a] ++ [(s, q)]) = addHist (arrive (m.reverse ++ [a])) s q := by unfold arrive; rw [List.foldl_append]; rfl
      rw [e, find_add]
      have iha := ih a.1 a.2 hp1
      by_cases h1 : k + 500 < s
      · rw [if_pos h1]; simp; omega
      · rw [if_neg h1]
        by_cases h2 : k = s
        · subst h2
          rw [if_pos rfl]
          constructor
          · intro h; cases h; exact ⟨by simp, by omega⟩
          · rintro ⟨h, _⟩
            rcases List.mem_append.1 h with h | h
            · exact absurd (hlast (k, p) h (k, q) (by simp)) (by simp)
            · simp at h; rw [h]
        · rw [if_neg h2]
          have e2 : (m.reverse ++ [a]) = m.reverse ++ [(a.1, a.2)] := rfl
          rw [e2, iha]
          constructor
          · rintro ⟨h, _⟩
            exact ⟨List.mem_append_left _ h, by omega⟩
          · rintro ⟨h, _⟩
            rcases List.mem_append.1 h with h | h
            · exact ⟨h, by omega⟩
            · simp at h; exact absurd h.1 h2
  have := key l.reverse s q (by rwa [List.reverse_reverse])
  rwa [List.reverse_reverse] at this

theorem top_bit (x : UInt8) : (x &&& 0x80 = 0 ∨ x &&& 0x80 = 0x80) ∧ x = (x &&& 0x80) ||| UInt8.ofNat (x.toNat % 128) := by
  have key : ∀ m < 256, (UInt8.ofNat m &&& 0x80 = 0 ∨ UInt8.ofNat m &&& 0x80 = 0x80) ∧ UInt8.ofNat m = (UInt8.ofNat m &&& 0x80) ||| UInt8.ofNat ((UInt8.ofNat m).toNat % 128) := by decide +kernel
  have := key x.toNat (UInt8.toNat_lt _)
  rwa [UInt8.ofNat_toNat] at this

theorem low_bits : ∀ m < 128, (((0 : UInt8) ||| UInt8.ofNat m) &&& 0x7F).toNat = m ∧ (((0x80 : UInt8) ||| UInt8.ofNat m) &&& 0x7F).toNat = m ∧
    ((0 : UInt8) ||| UInt8.ofNat m) &&& 0x80 = 0 ∧ ((0x80 : UInt8) ||| UInt8.ofNat m) &&& 0x80 = 0x80 := by decide +kernel

/-- C107: a media packet that is sent as redundant data with one block is handed on as it was. -/
theorem C107_media {seq : Nat} {p : Bytes} (hp : Media seq p) (h : Hist) (codec red ulp : Nat) (hc : (byte p 1).toNat % 128 = codec) (hr : red < 128) :
    addRed h (wrap p codec red) codec red ulp = .media p := by
  have hl := hp.long
  match p, hp.first with
  | b0 :: b1 :: b2 :: b3 :: b4 :: b5 :: b6 :: b7 :: b8 :: b9 :: b10 :: b11 :: rest, h0 =>
    have e0 : b0 = 0x80 := by simpa using h0
    subst e0
    have ec : b1.toNat % 128 = codec := hc
    have hcl : codec < 128 := by omega
    have ew : wrap (0x80 :: b1 :: b2 :: b3 :: b4 :: b5 :: b6 :: b7 :: b8 :: b9 :: b10 :: b11 :: rest) codec red =
        0x80 :: ((b1 &&& 0x80) ||| UInt8.ofNat red) :: b2 :: b3 :: b4 :: b5 :: b6 :: b7 :: b8 :: b9 :: b10 :: b11 :: UInt8.ofNat codec :: rest := rfl
    rw [ew]
    obtain ⟨t1, t2⟩ := top_bit b1
    obtain ⟨l1, l2, l3, l4⟩ := low_bits red hr
    have hx : (((b1 &&& 0x80) ||| UInt8.ofNat red) &&& 0x7F).toNat = red ∧ ((b1 &&& 0x80) ||| UInt8.ofNat red) &&& 0x80 = b1 &&& 0x80 := by
      rcases t1 with t | t <;> rw [t]
      · exact ⟨l1, l3⟩
      · exact ⟨l2, l4⟩
    generalize hy : (b1 &&& 0x80) ||| UInt8.ofNat red = y at *
    have e1 : Rtp.getHsize (0x80 :: y :: b2 :: b3 :: b4 :: b5 :: b6 :: b7 :: b8 :: b9 :: b10 :: b11 :: UInt8.ofNat codec :: rest) = some 12 := rfl
    have e2 : Rtp.getPayloadType (0x80 :: y :: b2 :: b3 :: b4 :: b5 :: b6 :: b7 :: b8 :: b9 :: b10 :: b11 :: UInt8.ofNat codec :: rest) = some red := by
      show some ((y &&& 0x7F).toNat) = _
      rw [hx.1]
    unfold addRed
    rw [e1, e2]
    simp only [ne_eq, not_true_eq_false, if_false]
    have e3 : (0x80 :: y :: b2 :: b3 :: b4 :: b5 :: b6 :: b7 :: b8 :: b9 :: b10 :: b11 :: UInt8.ofNat codec :: rest)[12]? = some (UInt8.ofNat codec) := rfl
    rw [e3]
    simp only
    have e4 : (UInt8.ofNat codec).toNat % 128 = codec := by rw [u8n]; omega
    rw [if_pos e4]
    have e5 : unwrap (0x80 :: y :: b2 :: b3 :: b4 :: b5 :: b6 :: b7 :: b8 :: b9 :: b10 :: b11 :: UInt8.ofNat codec :: rest) 12 codec =
        0x80 :: ((y &&& 0x80) ||| UInt8.ofNat codec) :: b2 :: b3 :: b4 :: b5 :: b6 :: b7 :: b8 :: b9 :: b10 :: b11 :: rest := rfl
    rw [e5, hx.2, ← ec, ← t2]

/-! ## Concrete cases -/

/-- Eight packets from number 65532. -/
def sample (i : Nat) : Bytes := [0x80, 0x60, UInt8.ofNat ((65532 + i) % 65536 / 256), UInt8.ofNat ((65532 + i) % 65536), 0, 0, 1, 0, 9, 9, 9, 9] ++ List.replicate (30 + i) (UInt8.ofNat (i + 1))

/-- All but the first of them arrived. -/
def got : Hist := (List.range 7).map fun i => ((65532 + (i + 1)) % 65536, sample (i + 1))

theorem sample_group : Group 65532 8 sample := by
  refine ⟨.inl rfl, by decide, ?_⟩
  intro i hi
  match i, hi with
  | 0, _ | 1, _ | 2, _ | 3, _ | 4, _ | 5, _ | 6, _ | 7, _ => exact ⟨by decide, by decide, by decide, by decide⟩

example : find got ((65532 + 0) % 65536) = none ∧ (∀ i < 8, i ≠ 0 → find got ((65532 + i) % 65536) = some (sample i)) ∧ (∀ i < 8, (sample 0).length ≤ (sample i).length) ∧ 16 ≤ (sample 0).length := by decide +kernel

example : Media 65532 (sample 0) ∧ (byte (sample 0) 1).toNat % 128 = 96 := ⟨sample_group.media 0 (by decide), by decide⟩

/-- C107, partial (bytes of the mask that are all ones or all zero; see `C107_mask_fails`): a correction covers the numbers whose bit is set in its mask, counted from the base
number and the highest bit of the first byte; the mask has 2 bytes, or 6 if the second bit of the correction is set. -/
theorem C107_covered_partial (f mask rest : Bytes) (long : Bool) (b0 b1 b2 b3 : UInt8) (mid : Bytes) (hf : f = b0 :: b1 :: b2 :: b3 :: mid ++ mask ++ rest) (hm : mid.length = 8)
    (h0 : b0 &&& 0x40 = if long then 0x40 else 0) (hl : mask.length = if long then 6 else 2) (hb : ∀ b ∈ mask, b = 0 ∨ b = 0xFF) (s : Nat) :
    s ∈ covered f ↔ ∃ (i : Nat) (b : UInt8), mask[i / 8]? = some b ∧ b.toNat / 2 ^ (7 - i % 8) % 2 = 1 ∧ s = (b2.toNat * 256 + b3.toNat + i) % 65536 := by
  have e1 : maskLen f = mask.length := by
    have key : ∀ b : UInt8, (b &&& 0x40 = 0x40 → b.toNat / 64 % 2 = 1) ∧ (b &&& 0x40 = 0 → b.toNat / 64 % 2 = 0) := by decide +kernel
    have e0 : at' f 0 = b0 := by rw [hf]; rfl
    unfold maskLen
    rw [e0, hl]
    cases long with
    | true => rw [(key b0).1 h0]; rfl
    | false => rw [(key b0).2 h0]; rfl
  have e2 : snBase f = b2.toNat * 256 + b3.toNat := by
    unfold snBase
    rw [hf]
    rfl
  have e3 : ∀ j < mask.length, at' f (12 + j) = (mask[j]?).getD 0 := by
    intro j hj
    unfold at'
    rw [hf, show b0 :: b1 :: b2 :: b3 :: mid ++ mask ++ rest = (b0 :: b1 :: b2 :: b3 :: mid) ++ (mask ++ rest) from by simp, List.getD_eq_getElem?_getD,
      List.getElem?_append_right (by simp [hm]), List.getElem?_append_left (by simp [hm]; omega)]
    simp [hm]
  have bit : ∀ i < 8, maskBit 0 i = false ∧ maskBit 0xFF i = true ∧ (0 : UInt8).toNat / 2 ^ (7 - i) % 2 = 0 ∧ (0xFF : UInt8).toNat / 2 ^ (7 - i) % 2 = 1 := by decide +kernel
  unfold covered
  simp only [List.mem_map, List.mem_filter, List.mem_range, e1, e2]
  constructor
  · rintro ⟨i, ⟨hi, hm'⟩, rfl⟩
    have hj : i / 8 < mask.length := by omega
    rw [e3 _ hj, List.getElem?_eq_getElem hj] at hm'
    refine ⟨i, mask[i / 8], List.getElem?_eq_getElem hj, ?_, rfl⟩
    obtain ⟨k1, k2, k3, k4⟩ := bit (i % 8) (by omega)
    rcases hb _ (List.getElem_mem hj) with hz | hz
    · rw [hz] at hm'; simp only [Option.getD_some, k1] at hm'; cases hm'
    · rw [hz]; exact k4
  · rintro ⟨i, b, hi, hbit, rfl⟩
    obtain ⟨hj, hbe⟩ := List.getElem?_eq_some_iff.1 hi
    refine ⟨i, ⟨by omega, ?_⟩, rfl⟩
    rw [e3 _ hj, hi]
    obtain ⟨k1, k2, k3, k4⟩ := bit (i % 8) (by omega)
    rcases hb b (hbe ▸ List.getElem_mem hj) with hz | hz
    · rw [hz, k3] at hbit; omega
    · rw [hz]; exact k2

/-- A correction with a long mask meets the hypotheses. -/
example : (0xC0 : UInt8) &&& 0x40 = (if true then 0x40 else 0) ∧ ([0xFF, 0, 0xFF, 0, 0, 0] : Bytes).length = (if true then 6 else 2)
    ∧ covered (0xC0 :: 0x60 :: 0 :: 9 :: [0, 0, 0, 0, 0, 0, 0, 0] ++ [0xFF, 0, 0xFF, 0, 0, 0] ++ [7]) = [9, 10, 11, 12, 13, 14, 15, 16, 25, 26, 27, 28, 29, 30, 31, 32] := by decide +kernel

/-! ## What the code does not do -/

/-- The recovered packet is never the lost one: it lacks 12 bytes. -/
theorem C107_cut_fails {base n k : Nat} {p : Nat → Bytes} {h : Hist} (hG : Group base n p) (hk : k < n) (hlost : find h ((base + k) % 65536) = none)
    (hgot : ∀ i < n, i ≠ k → find h ((base + i) % 65536) = some (p i)) (hl : ∀ i < n, (p k).length ≤ (p i).length) (h4 : 16 ≤ (p k).length) :
    recover h (protect base (List.range n) p) ≠ .recovered (p k) := by
  obtain ⟨r, h1, h2, _⟩ := C107_recover_partial hG hk hlost hgot hl h4
  rw [h1]
  intro he
  have : r = p k := Out.recovered.inj he
  rw [this] at h2
  omega

/-- A correction for two packets is taken for one of eight: with one of the two lost, nothing is recovered. -/
theorem C107_mask_fails : covered (protect 65532 [0, 1] sample) = [65532, 65533, 65534, 65535, 0, 1, 2, 3] ∧ recover [(65533, sample 1)] (protect 65532 [0, 1] sample) = .nothing := by
  decide +kernel

/-- If the lost packet is longer than another one, bytes outside of the other one are read. -/
theorem C107_longer_fails : ∃ (p : Nat → Bytes) (h : Hist), (∀ i < 8, Media i (p i)) ∧ find h 0 = none ∧ (∀ i < 8, i ≠ 0 → find h i = some (p i)) ∧ recover h (protect 0 (List.range 8) p) = .fault := by
  refine ⟨fun i => [0x80, 0x60, 0, UInt8.ofNat i, 0, 0, 1, 0, 9, 9, 9, 9] ++ List.replicate (if i = 0 then 2 else 1) 7,
    (List.range 7).map fun i => (i + 1, [0x80, 0x60, 0, UInt8.ofNat (i + 1), 0, 0, 1, 0, 9, 9, 9, 9] ++ [7]), ?_, by decide, by decide +kernel, by decide +kernel⟩
  intro i hi
  match i, hi with
  | 0, _ | 1, _ | 2, _ | 3, _ | 4, _ | 5, _ | 6, _ | 7, _ => exact ⟨by decide, by decide, by decide, by decide⟩

/-- If the lost packet has 1 to 3 bytes of payload, bytes behind the recovered packet are written. -/
theorem C107_tiny_fails : ∃ (p : Nat → Bytes) (h : Hist), (∀ i < 8, Media i (p i)) ∧ find h 0 = none ∧ (∀ i < 8, i ≠ 0 → find h i = some (p i)) ∧
    (∀ i < 8, (p 0).length ≤ (p i).length) ∧ recover h (protect 0 (List.range 8) p) = .fault := by
  refine ⟨fun i => [0x80, 0x60, 0, UInt8.ofNat i, 0, 0, 1, 0, 9, 9, 9, 9] ++ [7, 8, 9],
    (List.range 7).map fun i => (i + 1, [0x80, 0x60, 0, UInt8.ofNat (i + 1), 0, 0, 1, 0, 9, 9, 9, 9] ++ [7, 8, 9]), ?_, by decide, by decide +kernel, by decide, by decide +kernel⟩
  intro i hi
  match i, hi with
  | 0, _ | 1, _ | 2, _ | 3, _ | 4, _ | 5, _ | 6, _ | 7, _ => exact ⟨by decide, by decide, by decide, by decide⟩

/-- After the numbers wrap around, packets of the last round are still in the history and are taken for those of this round. -/
theorem C107_history_fails : find (arrive [(65500, [1]), (100, [2]), (30000, [3]), (65400, [4])]) 65500 = some [1] := by decide +kernel

/-- A correction of less than 23 bytes is a null pointer, which is used. -/
theorem C107_short_fails (h : Hist) (codec red ulp : Nat) (hr : red < 128) (hu : ulp < 128) (hc : codec ≠ ulp) (head rest : Bytes) (hh : head.length = 10) (hl : rest.length < 10) :
    addRed h ([0x80, UInt8.ofNat red] ++ head ++ [UInt8.ofNat ulp] ++ rest) codec red ulp = .fault := by
  have e1 : Rtp.getHsize ([0x80, UInt8.ofNat red] ++ head ++ [UInt8.ofNat ulp] ++ rest) = some 12 := rfl
  have e2 : Rtp.getPayloadType ([0x80, UInt8.ofNat red] ++ head ++ [UInt8.ofNat ulp] ++ rest) = some red := by
    show some ((UInt8.ofNat red &&& 0x7F).toNat) = _
    have := (low_bits red hr).1
    rw [UInt8.zero_or] at this
    rw [this]
  have e3 : ([0x80, UInt8.ofNat red] ++ head ++ [UInt8.ofNat ulp] ++ rest)[12]? = some (UInt8.ofNat ulp) := by
    rw [List.append_assoc, List.getElem?_append_right (by simp [hh])]
    simp [hh]
  unfold addRed
  rw [e1, e2]
  simp only [ne_eq, not_true_eq_false, if_false]
  rw [e3]
  simp only
  have e4 : (UInt8.ofNat ulp).toNat % 128 = ulp := by rw [u8n]; omega
  rw [e4, if_neg (fun e => hc e.symm), if_pos rfl, if_pos (by simp [hh]; omega)]

end Verif.Ulp
