import Verif.Nal.Model
import Verif.Ebml.Lemmas

/-!
# C11: NAL unit framing; C45: emulation prevention
-/
namespace Verif.Nal
open Verif.Bit

/-! ## Specification -/

/-- Length-prefixed units (the form MistServer stores): 4-byte big-endian length, then the unit. -/
def lengthPrefixed (units : List Bytes) : Bytes := (units.map fun u => beEnc 4 u.length ++ u).flatten

/-- One Annex B unit: a start code of 3 or 4 bytes, then the unit. -/
def annexUnit (u : Bool × Bytes) : Bytes := (if u.1 then [0, 0, 0, 1] else [0, 0, 1]) ++ u.2

/-- An Annex B byte stream. -/
def annexB (units : List (Bool × Bytes)) : Bytes := (units.map annexUnit).flatten

/-- The unit contains no start code. -/
def clean (u : Bytes) : Prop := ¬ [0, 0, 1] <:+: u

/-- A unit ending in a zero byte must be followed by a four byte start code (or be the last). -/
def delimited : List (Bool × Bytes) → Prop
  | [] => True
  | [_] => True
  | a :: b :: l => (b.1 = false → a.2.getLast? ≠ some 0) ∧ delimited (b :: l)

/-- ISO/IEC 14496-10 section 7.4.1: after two zero bytes an emulation prevention byte `03` is
inserted before every byte of value 0 to 3. `z` counts the zero bytes just written. -/
def escape (z : Nat) : Bytes → Bytes
  | [] => []
  | b :: r =>
    if z ≥ 2 ∧ b ≤ 3 then 3 :: b :: escape (if b = 0 then 1 else 0) r
    else b :: escape (if b = 0 then z + 1 else 0) r

/-! ## Lemmas -/

theorem prefix3 (l : Bytes) : [0, 0, 1] <+: l ↔ ∃ r, l = 0 :: 0 :: 1 :: r := by
  constructor
  · rintro ⟨r, rfl⟩; exact ⟨r, rfl⟩
  · rintro ⟨r, rfl⟩; exact ⟨r, rfl⟩

theorem findSub_eq {pat s : Bytes} {n : Nat} (h1 : pat <+: s.drop n) (hp : pat ≠ [])
    (h2 : ∀ m < n, ¬ pat <+: s.drop m) : findSub pat s = some n := by
  cases h : findSub pat s with
  | none =>
    by_cases hn : n ≤ s.length
    · exact absurd h1 (findSub_none h n hn)
    · rw [List.drop_eq_nil_of_le (by omega)] at h1
      exact absurd (List.prefix_nil.mp h1) hp
  | some k =>
    obtain ⟨_, h3, h4⟩ := findSub_some h
    have : ¬ k < n := fun hk => h2 k hk h3
    have : ¬ n < k := fun hk => h4 n hk h1
    exact congrArg some (by omega)

theorem no_code_before (u : Bytes) (hu : clean u) (z : Nat) (r : Bytes) (m : Nat) (hm : m < u.length + z) :
    ¬ [0, 0, 1] <+: (u ++ (List.replicate (z + 2) 0 ++ 1 :: r)).drop m := by
  intro h
  rw [prefix3] at h
  obtain ⟨t, ht⟩ := h
  by_cases hin : m + 3 ≤ u.length
  · apply hu
    refine ⟨u.take m, (u.drop m).drop 3, ?_⟩
    have e : (u ++ (List.replicate (z + 2) 0 ++ 1 :: r)).drop m = u.drop m ++ (List.replicate (z + 2) 0 ++ 1 :: r) :=
      List.drop_append_of_le_length (by omega)
    rw [e] at ht
    have h3 := congrArg (List.take 3) ht
    rw [List.take_append_of_le_length (by simp; omega)] at h3
    simp only [List.take_succ_cons, List.take_zero] at h3
    rw [← h3, List.append_assoc, List.take_append_drop, List.take_append_drop]
  · have h2 : (u ++ (List.replicate (z + 2) 0 ++ 1 :: r))[m + 2]? = some 1 := by
      have := congrArg (fun l => l[2]?) ht
      simp only [List.getElem?_drop] at this
      rw [this]; rfl
    rw [List.getElem?_append_right (by omega), List.getElem?_append_left (by simp; omega), List.getElem?_replicate,
      if_pos (by omega)] at h2
    exact absurd h2 (by decide)

theorem unitEnd_long (u r : Bytes) (hu : clean u) : unitEnd (u ++ [0, 0, 0, 1] ++ r) = u.length := by
  have h : findSub [0, 0, 1] (u ++ [0, 0, 0, 1] ++ r) = some (u.length + 1) := by
    apply findSub_eq
    · rw [List.append_assoc, show u.length + 1 = u.length + 1 from rfl, List.drop_length_add_append]; simp
    · simp
    · intro m hm
      have := no_code_before u hu 1 r m hm
      simpa [List.replicate] using this
  unfold unitEnd
  rw [h]
  have : (u ++ [0, 0, 0, 1] ++ r)[u.length + 1 - 1]? = some 0 := by simp
  simp only [this]
  simp

theorem unitEnd_short (u r : Bytes) (hu : clean u) (hz : u.getLast? ≠ some 0) : unitEnd (u ++ [0, 0, 1] ++ r) = u.length := by
  have h : findSub [0, 0, 1] (u ++ [0, 0, 1] ++ r) = some u.length := by
    apply findSub_eq
    · rw [List.append_assoc, List.drop_append]; simp
    · simp
    · intro m hm
      have := no_code_before u hu 0 r m hm
      simpa [List.replicate] using this
  unfold unitEnd
  rw [h]
  simp only
  rw [if_neg]
  rintro ⟨h1, h2⟩
  rw [List.append_assoc, List.getElem?_append_left (by omega)] at h2
  rw [List.getLast?_eq_getElem?] at hz
  exact hz h2

theorem unitEnd_last (u : Bytes) (hu : clean u) : unitEnd u = u.length := by
  unfold unitEnd
  cases h : findSub [0, 0, 1] u with
  | none => rfl
  | some k =>
    obtain ⟨_, h2, _⟩ := findSub_some h
    exact absurd (h2.isInfix.trans (List.drop_suffix k u).isInfix) hu

theorem skipTo_code (r : Bytes) : skipTo (0 :: 0 :: 1 :: r) = 0 :: 0 :: 1 :: r := by
  cases r with
  | nil => rfl
  | cons => simp [skipTo]

theorem skipTo_unit (u : Bool × Bytes) (r : Bytes) : skipTo (annexUnit u ++ r) = 0 :: 0 :: 1 :: (u.2 ++ r) := by
  obtain ⟨l, u⟩ := u
  cases l with
  | false => simp [annexUnit, skipTo_code]
  | true =>
    simp only [annexUnit, if_true, List.cons_append, List.nil_append]
    rw [skipTo]
    simp [skipTo_code]

theorem fromAnnexB_step (u : Bool × Bytes) (r : Bytes) (he : unitEnd (u.2 ++ r) = u.2.length) :
    fromAnnexB (annexUnit u ++ r) = htob .l u.2.length ++ (u.2 ++ fromAnnexB r) := by
  rw [fromAnnexB]
  have : annexUnit u ++ r ≠ [] := by
    obtain ⟨l, u⟩ := u; cases l <;> simp [annexUnit]
  rw [dif_neg this]
  simp only [skipTo_unit]
  rw [dif_neg (by simp)]
  simp [he]

theorem htob_l (n : Nat) : htob .l n = beEnc 4 n := by rw [Verif.Ebml.htob_be .l rfl]; rfl

theorem btoh_l (n : Nat) (h : n < 2 ^ 32) (r : Bytes) : btoh .l (beEnc 4 n ++ r) = some n := by
  have := Verif.Ebml.btoh_be .l rfl n r
  simp only [Codec.width] at this
  rw [this]; exact congrArg some (Nat.mod_eq_of_lt (by omega))

/-! ## Property theorems -/

/-- C11. Any Annex B stream, whatever mix of 3- and 4-byte start codes it uses, is turned into
exactly its units, in order, length-prefixed. -/
theorem C11_fromAnnexB (units : List (Bool × Bytes)) (hc : ∀ u ∈ units, clean u.2) (hd : delimited units) :
    fromAnnexB (annexB units) = lengthPrefixed (units.map Prod.snd) := by
  induction units with
  | nil => simp [annexB, lengthPrefixed, fromAnnexB]
  | cons u l ih =>
    have hl : fromAnnexB (annexB l) = lengthPrefixed (l.map Prod.snd) :=
      ih (fun v hv => hc v (by simp [hv])) (by cases l with | nil => trivial | cons v l => exact hd.2)
    have he : unitEnd (u.2 ++ annexB l) = u.2.length := by
      cases l with
      | nil => simpa [annexB] using unitEnd_last u.2 (hc u (by simp))
      | cons v l =>
        obtain ⟨lv, v⟩ := v
        cases lv with
        | false =>
          have := unitEnd_short u.2 (v ++ annexB l) (hc u (by simp)) (hd.1 rfl)
          simpa [annexB, annexUnit] using this
        | true =>
          have := unitEnd_long u.2 (v ++ annexB l) (hc u (by simp))
          simpa [annexB, annexUnit] using this
    have e : annexB (u :: l) = annexUnit u ++ annexB l := by simp [annexB]
    rw [e, fromAnnexB_step u _ he, hl, htob_l]
    simp [lengthPrefixed]

/-- C11. Length-prefixed units become the same units behind 4-byte start codes; every read stays
inside the input. -/
theorem C11_toAnnexB (units : List Bytes) (hs : ∀ u ∈ units, u.length < 2 ^ 32) :
    toAnnexB (lengthPrefixed units) = some (annexB (units.map fun u => (true, u))) := by
  induction units with
  | nil => simp [lengthPrefixed, toAnnexB, annexB]
  | cons u l ih =>
    have hu := hs u (by simp)
    have e : lengthPrefixed (u :: l) = beEnc 4 u.length ++ (u ++ lengthPrefixed l) := by simp [lengthPrefixed]
    rw [e, toAnnexB]
    have hne : beEnc 4 u.length ++ (u ++ lengthPrefixed l) ≠ [] := by
      intro h; have := congrArg List.length h; simp at this
    rw [dif_neg hne, btoh_l _ hu]
    simp only
    rw [if_pos (by simp; omega)]
    have d1 : (beEnc 4 u.length ++ (u ++ lengthPrefixed l)).drop (u.length + 4) = lengthPrefixed l := by
      rw [show u.length + 4 = (beEnc 4 u.length).length + u.length by simp; omega, List.drop_length_add_append]; simp
    have d2 : ((beEnc 4 u.length ++ (u ++ lengthPrefixed l)).drop 4).take u.length = u := by
      rw [List.drop_append_of_le_length (by simp), List.drop_eq_nil_of_le (by simp)]; simp
    rw [d1, d2, ih (fun v hv => hs v (by simp [hv]))]
    simp [annexB, annexUnit]

/-- C11. Converting to Annex B and back yields the same length-prefixed units, also for units that
are empty or end in zero bytes. -/
theorem C11_roundtrip (units : List Bytes) (hc : ∀ u ∈ units, clean u) (hs : ∀ u ∈ units, u.length < 2 ^ 32) :
    (toAnnexB (lengthPrefixed units)).map fromAnnexB = some (lengthPrefixed units) := by
  rw [C11_toAnnexB units hs, Option.map_some, C11_fromAnnexB]
  · simp [Function.comp_def]
  · intro u hu
    obtain ⟨v, hv, rfl⟩ := List.mem_map.mp hu
    exact hc v hv
  · clear hc hs
    induction units with
    | nil => trivial
    | cons u l ih => cases l with
      | nil => trivial
      | cons v l => exact ⟨by simp, ih⟩

/-- C11. `toAnnexB` keeps the size of the data (the caller's buffer of equal size suffices). -/
theorem C11_toAnnexB_size (data out : Bytes) (h : toAnnexB data = some out) : out.length = data.length := by
  induction hn : data.length using Nat.strongRecOn generalizing data out with
  | _ n ih =>
    rw [toAnnexB] at h
    split at h
    next he => simp at h; subst h; subst he; simpa using hn
    next he =>
      split at h
      · cases h
      next m hm =>
        split at h
        next hl =>
          rw [Option.map_eq_some_iff] at h
          obtain ⟨t, ht, rfl⟩ := h
          have := ih (data.drop (m + 4)).length (by simp; omega) _ _ ht rfl
          simp only [List.length_append, List.length_take, List.length_drop, this, List.length_cons, List.length_nil]
          omega
        · cases h

/-- C11. The listed sizes are those of the units including their 4-byte prefix. -/
theorem C11_sizes (units : List Bytes) (hs : ∀ u ∈ units, u.length < 2 ^ 31) :
    parseNalSizes (lengthPrefixed units) = some (units.map fun u => u.length + 4) := by
  induction units with
  | nil => simp [lengthPrefixed, parseNalSizes]
  | cons u l ih =>
    have hu := hs u (by simp)
    have e : lengthPrefixed (u :: l) = beEnc 4 u.length ++ (u ++ lengthPrefixed l) := by simp [lengthPrefixed]
    rw [e, parseNalSizes]
    have hne : beEnc 4 u.length ++ (u ++ lengthPrefixed l) ≠ [] := by
      intro h; have := congrArg List.length h; simp at this
    rw [dif_neg hne, btoh_l _ (by omega)]
    simp only
    rw [if_neg (by omega)]
    have d1 : (beEnc 4 u.length ++ (u ++ lengthPrefixed l)).drop (u.length + 4) = lengthPrefixed l := by
      rw [show u.length + 4 = (beEnc 4 u.length).length + u.length by simp; omega, List.drop_length_add_append]; simp
    rw [d1, ih (fun v hv => hs v (by simp [hv]))]
    simp

/-- C11. The scanner reports the first start code of any byte string, or that there is none. -/
theorem C11_scan (data : Bytes) (off : Nat) : scanAnnexB data off = (findSub [0, 0, 1] data).map (· + off) := by
  have big : ∀ c : UInt8, c ≠ 0 → ¬ c > 1 → c = 1 := by decide +kernel
  fun_induction scanAnnexB data off with
  | case1 a b c r off h ih =>
    have h0 : c ≠ 0 := by rintro rfl; exact absurd h (by decide)
    have h1 : c ≠ 1 := by rintro rfl; exact absurd h (by decide)
    rw [ih]
    have e : findSub [0, 0, 1] (a :: b :: c :: r) = (findSub [0, 0, 1] r).map (· + 3) := by
      simp only [findSub, List.isPrefixOf]
      simp [h0.symm, h1.symm]
      cases findSub [0, 0, 1] r <;> simp
    rw [e]; cases findSub [0, 0, 1] r <;> simp; omega
  | case2 a b r off h ih =>
    rw [ih]
    have e : findSub [0, 0, 1] (a :: b :: 0 :: r) = (findSub [0, 0, 1] (b :: 0 :: r)).map (· + 1) := by
      rw [findSub]; simp [List.isPrefixOf]
    rw [e]; cases findSub [0, 0, 1] (b :: 0 :: r) <;> simp; omega
  | case3 a b c r off h h0 h2 =>
    have := big c h0 h; subst this
    obtain ⟨rfl, rfl⟩ := h2
    rw [findSub]; simp [List.isPrefixOf]
  | case4 a b c r off h h0 h2 ih =>
    have := big c h0 h; subst this
    rw [ih]
    have e : findSub [0, 0, 1] (a :: b :: 1 :: r) = (findSub [0, 0, 1] r).map (· + 3) := by
      have h3 : ¬ (0 = a ∧ 0 = b) := fun hh => h2 ⟨hh.1.symm, hh.2.symm⟩
      simp only [findSub, List.isPrefixOf]
      simp [h3]
      cases findSub [0, 0, 1] r <;> simp
    rw [e]; cases findSub [0, 0, 1] r <;> simp; omega
  | case5 l off h =>
    match l, h with
    | [], _ => simp [findSub]
    | [a], _ => simp [findSub, List.isPrefixOf]
    | [a, b], _ => simp [findSub, List.isPrefixOf]
    | a :: b :: c :: r, h => exact absurd rfl (h a b c r)

/-- C11. In words: a reported position is a start code and nothing before it is; no report means
there is no start code anywhere. -/
theorem C11_scan_first (data : Bytes) :
    (∀ n, scanAnnexB data 0 = some n → [0, 0, 1] <+: data.drop n ∧ ∀ m < n, ¬ [0, 0, 1] <+: data.drop m) ∧
    (scanAnnexB data 0 = none ↔ clean data) := by
  rw [C11_scan]
  constructor
  · intro n h
    simp at h
    exact (findSub_some h).2
  · simp
    constructor
    · rintro h ⟨s, t, hst⟩
      refine findSub_none h s.length (by rw [← hst]; simp) ?_
      rw [← hst]; simp
    · intro hc
      cases h : findSub [0, 0, 1] data with
      | none => rfl
      | some k =>
        obtain ⟨_, h2, _⟩ := findSub_some h
        exact absurd (h2.isInfix.trans (List.drop_suffix k data).isInfix) hc

/-! ## C45: emulation prevention -/

theorem unescape_cons {a : UInt8} (ha : a ≠ 0) (l : Bytes) : unescapeFrom (a :: l) = a :: unescapeFrom l := by
  match l with
  | [] => rfl
  | [b] => rfl
  | b :: c :: r => rw [unescapeFrom, if_neg (fun h => ha h.1)]

theorem unescape_cons2 {b : UInt8} (hb : b ≠ 0) (a : UInt8) (l : Bytes) : unescapeFrom (a :: b :: l) = a :: b :: unescapeFrom l := by
  match l with
  | [] => rfl
  | c :: r => rw [unescapeFrom, if_neg (fun h => hb h.2.1), unescape_cons hb]

/-- The three escape states match the reader's look-behind. -/
theorem unescape_escape (r : Bytes) :
    unescapeFrom (escape 0 r) = r ∧ unescapeFrom (0 :: escape 1 r) = 0 :: r ∧
    ∀ z ≥ 2, unescapeFrom (0 :: 0 :: escape z r) = 0 :: 0 :: r := by
  induction r with
  | nil => exact ⟨rfl, rfl, fun _ _ => rfl⟩
  | cons b r ih =>
    obtain ⟨h0, h1, h2⟩ := ih
    have b3 : ∀ c : UInt8, ¬ c ≤ 3 → c ≠ 0 ∧ c ≠ 3 := by decide +kernel
    refine ⟨?_, ?_, ?_⟩
    · by_cases hb : b = 0
      · subst hb; simpa [escape] using h1
      · simp only [escape, if_neg hb]; simp [unescape_cons hb, h0]
    · by_cases hb : b = 0
      · subst hb; simpa [escape] using h2 2 (by decide)
      · simp only [escape, if_neg hb]; simp [unescape_cons2 hb, h0]
    · intro z hz
      by_cases hb3 : b ≤ 3
      · simp only [escape, hb3, hz, and_self, if_true]
        rw [unescapeFrom, if_pos ⟨rfl, rfl, rfl⟩]
        by_cases hb : b = 0
        · subst hb; simpa using h1
        · simp only [if_neg hb, unescape_cons hb, h0]
      · obtain ⟨hb, hb'⟩ := b3 b hb3
        simp only [escape, hb3, and_false, if_false, if_neg hb]
        rw [unescapeFrom, if_neg (fun h => hb' h.2.2)]
        simp [unescape_cons2 hb, h0]

/-- C45. Removing emulation prevention bytes inverts the standard's insertion, for every payload of
every NAL unit whose second byte is not zero (H.264 parameter sets, H.265 unit headers). -/
theorem C45_emulation_prevention (a b : UInt8) (hb : b ≠ 0) (r : Bytes) :
    removeEmulationPrevention (escape 0 (a :: b :: r)) = some (a :: b :: r) := by
  by_cases ha : a = 0
  · subst ha
    simp [escape, hb, removeEmulationPrevention, (unescape_escape r).1]
  · simp [escape, hb, ha, removeEmulationPrevention, (unescape_escape r).1]

/-- C45. An escaped payload never contains a start code, so the framing theorems apply to it. -/
theorem C45_escaped_is_clean (r : Bytes) : clean (escape 0 r) := by
  suffices h : ∀ r : Bytes, (clean (escape 0 r)) ∧ (clean (0 :: escape 1 r)) ∧ ∀ z ≥ 2, clean (0 :: 0 :: escape z r) from (h r).1
  have inf_cons : ∀ (a : UInt8) (l : Bytes), clean l → ¬ [0, 0, 1] <+: (a :: l) → clean (a :: l) := by
    intro a l h1 h2 h3
    rcases List.infix_cons_iff.mp h3 with h | h
    · exact h2 h
    · exact h1 h
  have nz : ∀ (a : UInt8) (l : Bytes), a ≠ 0 → clean l → clean (a :: l) := by
    intro a l ha h; apply inf_cons _ _ h; rw [prefix3]; rintro ⟨t, ht⟩; simp at ht; exact ha ht.1
  have nz2 : ∀ (a b : UInt8) (l : Bytes), b ≠ 0 → clean l → clean (a :: b :: l) := by
    intro a b l hb h; apply inf_cons _ _ (nz _ _ hb h); rw [prefix3]; rintro ⟨t, ht⟩; simp at ht; exact hb ht.2.1
  have nz3 : ∀ (a b c : UInt8) (l : Bytes), c ≠ 0 → c ≠ 1 → clean l → clean (a :: b :: c :: l) := by
    intro a b c l h0 h1 h; apply inf_cons _ _ (nz2 _ _ _ h0 h); rw [prefix3]; rintro ⟨t, ht⟩; simp at ht; exact h1 ht.2.2.1
  intro r
  induction r with
  | nil =>
    have s : ∀ l : Bytes, l.length < 3 → clean l := by
      intro l hl h; have := h.length_le; simp at this; omega
    refine ⟨s _ (by simp [escape]), s _ (by simp [escape]), fun z _ => s _ (by simp [escape])⟩
  | cons b r ih =>
    obtain ⟨h0, h1, h2⟩ := ih
    have b3 : ∀ c : UInt8, ¬ c ≤ 3 → c ≠ 0 ∧ c ≠ 1 := by decide +kernel
    refine ⟨?_, ?_, ?_⟩
    · by_cases hb : b = 0
      · subst hb; simpa [escape] using h1
      · simp only [escape, if_neg hb]; simpa using nz _ _ hb h0
    · by_cases hb : b = 0
      · subst hb; simpa [escape] using h2 2 (by decide)
      · simp only [escape, if_neg hb]; simpa using nz2 _ _ _ hb h0
    · intro z hz
      by_cases hb3 : b ≤ 3
      · simp only [escape, hb3, hz, and_self, if_true]
        by_cases hb : b = 0
        · subst hb; simpa using nz3 0 0 3 _ (by decide) (by decide) h1
        · simp only [if_neg hb]; exact nz3 0 0 3 _ (by decide) (by decide) (nz _ _ hb h0)
      · obtain ⟨hb, hb'⟩ := b3 b hb3
        simp only [escape, hb3, and_false, if_false, if_neg hb]
        exact nz3 _ _ _ _ hb hb' h0

/-- C45, where it fails: an escape whose zero bytes start in the first two bytes is not removed. -/
theorem C45_second_byte_zero_fails :
    removeEmulationPrevention (escape 0 [0x67, 0, 0, 1]) = some [0x67, 0, 0, 3, 1] := by decide +kernel

/-! ## Non-vacuity and limits -/

example : fromAnnexB (annexB [(true, [0x67, 0x42, 0]), (true, []), (false, [0x65, 0, 0, 2]), (false, [9, 0])]) =
    lengthPrefixed [[0x67, 0x42, 0], [], [0x65, 0, 0, 2], [9, 0]] :=
  C11_fromAnnexB _ (by
    have s : ∀ l : Bytes, findSub [0, 0, 1] l = none → clean l := fun l h => by
      have := (C11_scan_first l).2; rw [C11_scan] at this; exact this.mp (by simp [h])
    intro u hu
    simp only [List.mem_cons, List.not_mem_nil, or_false] at hu
    rcases hu with rfl | rfl | rfl | rfl <;> exact s _ (by decide)) (by simp [delimited])
example : removeEmulationPrevention (escape 0 [0x67, 0x42, 0, 0, 1, 0, 0, 0, 0, 3]) = some [0x67, 0x42, 0, 0, 1, 0, 0, 0, 0, 3] :=
  C45_emulation_prevention _ _ (by decide) _
example : escape 0 [0x67, 0x42, 0, 0, 1, 0, 0, 0, 0, 3] = [0x67, 0x42, 0, 0, 3, 1, 0, 0, 3, 0, 0, 3, 3] := by decide +kernel
example : scanAnnexB [5, 0, 0, 0, 1, 9] 0 = some 2 := by decide +kernel

end Verif.Nal
