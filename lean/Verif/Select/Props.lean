import Verif.Select.Lemmas

/-!
# C82: track selectors
-/
namespace Verif.Select
open Spec
open Verif.Http (atoll decimal digits lower space)

/-! ## What texts ask for -/

/-- None of the first words. -/
def Early (w : Bytes) : Prop :=
  ¬ (w.length ≥ 2 ∧ w.head? = some 105 ∧ digitsOf w.tail ≠ []) ∧ ¬ (w = sAll ∨ w = sStar) ∧ w ∉ sMaxBps ∧ w ∉ sMinBps

theorem early_head {c : UInt8} {r : Bytes} (h : c ∉ [105, 97, 42, 104, 98, 109, 108, (119 : UInt8)]) : Early (c :: r) := by
  simp only [List.mem_cons, List.not_mem_nil, or_false, not_or] at h
  obtain ⟨h1, h2, h3, h4, h5, h6, h7, h8⟩ := h
  refine ⟨?_, ?_, ?_, ?_⟩
  · rintro ⟨_, h, _⟩
    simp at h
    exact h1 h
  · rintro (h | h)
    · exact h2 (List.cons.inj h).1
    · exact h3 (List.cons.inj h).1
  · simp [sMaxBps, h4, h5, h6]
  · simp [sMinBps, h6, h7, h8]

theorem rule_early {ty w : Bytes} (h : Early w) : rule ty w =
    ((compared w).orElse fun _ => (limited w).orElse fun _ => (near w).orElse fun _ => (audioRule ty w).orElse fun _ => videoRule ty w).getD
      (.name (if w.length = 2 then twoToThree w else w)) := by
  unfold rule
  rw [if_neg h.1, if_neg h.2.1, if_neg h.2.2.1, if_neg h.2.2.2]

theorem compared_none {c : UInt8} {r : Bytes} (h1 : c ≠ 60) (h2 : c ≠ 62) : compared (c :: r) = none := by
  unfold compared
  rw [if_neg (by simpa using h1), if_neg (by simpa using h2)]

theorem limited_none {c : UInt8} {r : Bytes} (h : c ≠ 109) : limited (c :: r) = none := by
  unfold limited
  rw [if_neg]
  rintro ⟨_, h'⟩
  rw [show (c :: r).take 4 = c :: r.take 3 from rfl] at h'
  exact h (List.cons.inj h').1

theorem near_none {w : Bytes} (h : rate [] w = 0) : near w = none := by
  unfold near
  rw [if_neg (by simp [h])]

theorem rule_id {ty : Bytes} {n : Nat} (h : n < 2 ^ 63) : rule ty (105 :: decimal n) = .id n := by
  have hd : digitsOf (decimal n) = decimal n := by
    have := digitsOf_decimal n (r := []) (by simp)
    rwa [List.append_nil] at this
  unfold rule
  rw [if_pos ⟨by
    have := Http.decimal_ne n
    have := List.length_pos_iff.2 this
    simp only [List.length_cons]
    omega, rfl, by
    show digitsOf (decimal n) ≠ []
    rw [hd]
    exact Http.decimal_ne n⟩]
  show Rule.id (atoll (decimal n)) = _
  rw [Http.atoll_decimal n h]

theorem rule_under {ty : Bytes} {n : Nat} {u : RateUnit} (h0 : 0 < n) (h : n * u.factor < 2 ^ 32) :
    rule ty (60 :: (decimal n ++ u.text)) = .bpsUnder (n * u.factor / 8) := by
  have hr := rate_text h (pre := [60]) (by simp)
  rw [List.singleton_append] at hr
  have h1 : n * u.factor ≠ 0 := Nat.mul_ne_zero (by omega) (Nat.pos_iff_ne_zero.1 (factor_pos u))
  rw [rule_early (early_head (by decide))]
  unfold compared
  rw [if_pos (show (60 :: (decimal n ++ u.text)).head? = some 60 from rfl), hr, if_pos h1]
  rfl

theorem rule_over {ty : Bytes} {n : Nat} {u : RateUnit} (h0 : 0 < n) (h : n * u.factor < 2 ^ 32) :
    rule ty (62 :: (decimal n ++ u.text)) = .bpsOver (n * u.factor / 8) := by
  have hr := rate_text h (pre := [62]) (by simp)
  rw [List.singleton_append] at hr
  have h1 : n * u.factor ≠ 0 := Nat.mul_ne_zero (by omega) (Nat.pos_iff_ne_zero.1 (factor_pos u))
  rw [rule_early (early_head (by decide))]
  unfold compared
  rw [if_neg (show ¬ (62 :: (decimal n ++ u.text)).head? = some 60 by simp), if_pos (show (62 :: (decimal n ++ u.text)).head? = some 62 from rfl), hr, if_pos h1]
  rfl

theorem no_bps_res (c : UInt8) (hc : c ≠ 98) (x y : Nat) : has Select.bps (c :: (decimal x ++ 120 :: decimal y)) = false := by
  apply has_no (c := 98) (by decide)
  have h1 := not_mem_decimal (c := 98) x (by decide)
  have h2 := not_mem_decimal (c := 98) y (by decide)
  simp [h1, h2, Ne.symm hc]

theorem product_bound {x y : Nat} (h0 : 0 < x * y) (h : x * y < 2 ^ 32) : x < 2 ^ 32 ∧ y < 2 ^ 32 := by
  have hx : 0 < x := Nat.pos_of_mul_pos_right h0
  have hy : 0 < y := Nat.pos_of_mul_pos_left h0
  exact ⟨Nat.lt_of_le_of_lt (Nat.le_mul_of_pos_right x hy) h, Nat.lt_of_le_of_lt (Nat.le_mul_of_pos_left y hx) h⟩

theorem rule_smaller {ty : Bytes} {x y : Nat} (h0 : 0 < x * y) (h : x * y < 2 ^ 32) :
    rule ty (60 :: (decimal x ++ 120 :: decimal y)) = .areaUnder (x * y) := by
  obtain ⟨hx, hy⟩ := product_bound h0 h
  have hr : rate [60] (60 :: (decimal x ++ 120 :: decimal y)) = 0 := rate_no_bps (no_bps_res 60 (by decide) x y)
  have hs := scan2_decimal hx hy [60]
  rw [List.singleton_append] at hs
  rw [rule_early (early_head (by decide))]
  unfold compared
  rw [if_pos (show (60 :: (decimal x ++ 120 :: decimal y)).head? = some 60 from rfl), hr, if_neg (by simp), hs]
  simp only [Nat.mod_eq_of_lt h]
  rw [if_pos (by omega)]
  rfl

theorem rule_larger {ty : Bytes} {x y : Nat} (h0 : 0 < x * y) (h : x * y < 2 ^ 32) :
    rule ty (62 :: (decimal x ++ 120 :: decimal y)) = .areaOver (x * y) := by
  obtain ⟨hx, hy⟩ := product_bound h0 h
  have hr : rate [62] (62 :: (decimal x ++ 120 :: decimal y)) = 0 := rate_no_bps (no_bps_res 62 (by decide) x y)
  have hs := scan2_decimal hx hy [62]
  rw [List.singleton_append] at hs
  rw [rule_early (early_head (by decide))]
  unfold compared
  rw [if_neg (show ¬ (62 :: (decimal x ++ 120 :: decimal y)).head? = some 60 by simp), if_pos (show (62 :: (decimal x ++ 120 :: decimal y)).head? = some 62 from rfl), hr, if_neg (by simp), hs]
  simp only [Nat.mod_eq_of_lt h]
  rw [if_pos (by omega)]
  rfl

theorem unit_length (u : RateUnit) : 3 ≤ u.text.length := by cases u <;> decide

theorem rule_upTo {ty : Bytes} {n : Nat} {u : RateUnit} (h0 : 0 < n) (h : n * u.factor < 2 ^ 32) :
    rule ty (sMaxUnder ++ (decimal n ++ u.text)) = .bpsUpTo (n * u.factor / 8) := by
  have hr := rate_text h (pre := sMaxUnder) (by simp)
  have h1 : n * u.factor ≠ 0 := Nat.mul_ne_zero (by omega) (Nat.pos_iff_ne_zero.1 (factor_pos u))
  have hl := List.length_pos_iff.2 (Http.decimal_ne n)
  have hu := unit_length u
  have he : Early (sMaxUnder ++ (decimal n ++ u.text)) := by
    refine ⟨?_, ?_, ?_, ?_⟩
    · rintro ⟨_, h, _⟩
      simp [sMaxUnder] at h
    · rintro (h | h) <;> simp [sMaxUnder, sAll, sStar] at h
    · simp [sMaxUnder, sMaxBps]
    · simp [sMaxUnder, sMinBps]
  rw [rule_early he]
  have hc : compared (sMaxUnder ++ (decimal n ++ u.text)) = none := compared_none (by decide) (by decide)
  have hlim : limited (sMaxUnder ++ (decimal n ++ u.text)) = some (.bpsUpTo (n * u.factor / 8)) := by
    unfold limited
    rw [if_pos, hr, if_pos h1]
    refine ⟨?_, rfl⟩
    simp only [List.length_append]
    have : sMaxUnder.length = 4 := rfl
    omega
  rw [hc, hlim]
  rfl

theorem digit_early {c : UInt8} (h : IsDigit c) : c ∉ [105, 97, 42, 104, 98, 109, 108, (119 : UInt8)] ∧ c ≠ 60 ∧ c ≠ 62 ∧ c ≠ 109 ∧ c ≠ 126 := by
  have : ∀ b : UInt8, IsDigit b → b ∉ [105, 97, 42, 104, 98, 109, 108, (119 : UInt8)] ∧ b ≠ 60 ∧ b ≠ 62 ∧ b ≠ 109 ∧ b ≠ 126 := by decide +kernel
  exact this c h

/-- Texts that start with a number. -/
theorem rule_digit {ty : Bytes} (n : Nat) (r : Bytes) : rule ty (decimal n ++ r) =
    ((near (decimal n ++ r)).orElse fun _ => (audioRule ty (decimal n ++ r)).orElse fun _ => videoRule ty (decimal n ++ r)).getD
      (.name (if (decimal n ++ r).length = 2 then twoToThree (decimal n ++ r) else (decimal n ++ r))) := by
  obtain ⟨c, q, hc, hd⟩ := decimal_cons n
  obtain ⟨h1, h2, h3, h4, _⟩ := digit_early hd
  have hcons : decimal n ++ r = c :: (q ++ r) := by rw [hc]; rfl
  rw [hcons, rule_early (early_head h1), compared_none h2 h3, limited_none h4]
  rfl

theorem rule_near {ty : Bytes} {n : Nat} {u : RateUnit} (h0 : 0 < n) (h : n * u.factor < 2 ^ 32) :
    rule ty (decimal n ++ u.text) = .bpsNear (n * u.factor / 8) := by
  have hr := rate_text h (pre := []) (by simp)
  rw [List.nil_append] at hr
  have h1 : n * u.factor ≠ 0 := Nat.mul_ne_zero (by omega) (Nat.pos_iff_ne_zero.1 (factor_pos u))
  rw [rule_digit]
  unfold near
  rw [hr, if_pos h1]
  rfl

theorem decimal_word {n : Nat} {r w : Bytes} (hw : ∀ c, w.head? = some c → ¬ IsDigit c) (h : decimal n ++ r = w) : False := by
  obtain ⟨c, q, hc, hd⟩ := decimal_cons n
  rw [hc] at h
  subst h
  exact hw c rfl hd

theorem rule_channels {ty : Bytes} (hty : ty = [] ∨ ty = sAudio) {n : Nat} (h0 : 0 < n) (hn : n < 2 ^ 32) : rule ty (decimal n ++ sCh) = .channels n := by
  have hnb : has Select.bps (decimal n ++ sCh) = false := by
    apply has_no (c := 98) (by decide)
    have h1 := not_mem_decimal (c := 98) n (by decide)
    simp [h1, sCh]
  have hs := scan1_decimal hn [] (r := sCh) (by intro c hc; simp [sCh] at hc; subst hc; decide)
  rw [List.nil_append] at hs
  rw [rule_digit, near_none (rate_no_bps hnb)]
  have hch : channelsOf (decimal n ++ sCh) = n := by
    unfold channelsOf
    simp only [has_end, if_true, hs, Option.getD_some]
  have ha : audioRule ty (decimal n ++ sCh) = some (.channels n) := by
    unfold audioRule
    rw [if_pos hty, if_neg (fun h => decimal_word (w := sSurround) (by intro c hc; simp [sSurround] at hc; subst hc; decide) h), hch, if_pos (by omega)]
  rw [ha]
  rfl

theorem video_not_audio {ty : Bytes} (w : Bytes) (hw : ¬ w = sSurround) (hc : channelsOf w = 0) : audioRule ty w = none := by
  unfold audioRule
  by_cases h : ty = [] ∨ ty = sAudio
  · rw [if_pos h, if_neg hw, if_neg (by simp [hc])]
  · rw [if_neg h]

theorem channels_none {w : Bytes} (h1 : w ≠ sMono) (h2 : w ≠ sStereo) (h3 : has sCh w = false) : channelsOf w = 0 := by
  unfold channelsOf
  simp [h1, h2, h3]

theorem rule_like {ty : Bytes} (hty : ty = [] ∨ ty = sVideo) {x y : Nat} (hx : x < 2 ^ 32) (hy : y < 2 ^ 32) (ha : x * y < 2 ^ 32) :
    rule ty (126 :: (decimal x ++ 120 :: decimal y)) = .resNear (x * y) := by
  have hs := scan2_decimal hx hy [126]
  rw [List.singleton_append] at hs
  have hch : has sCh (126 :: (decimal x ++ 120 :: decimal y)) = false := by
    apply has_no (c := 99) (by decide)
    have h1 := not_mem_decimal (c := 99) x (by decide)
    have h2 := not_mem_decimal (c := 99) y (by decide)
    simp [h1, h2]
  rw [rule_early (early_head (by decide)), compared_none (by decide) (by decide), limited_none (by decide),
    near_none (rate_no_bps (no_bps_res 126 (by decide) x y)), video_not_audio _ (by simp [sSurround]) (channels_none (by simp [sMono]) (by simp [sStereo]) hch)]
  have hv : videoRule ty (126 :: (decimal x ++ 120 :: decimal y)) = some (.resNear (x * y)) := by
    unfold videoRule
    rw [if_pos hty, if_neg (by simp [sBframes]), if_neg (by simp [sMaxRes]), if_neg (by simp [sMinRes]), hs]
    simp only [Nat.mod_eq_of_lt ha]
  rw [hv]
  rfl

theorem rule_exactly {ty : Bytes} {x y : Nat} : rule ty (decimal x ++ 120 :: decimal y) = .name (decimal x ++ 120 :: decimal y) := by
  have hnb : has Select.bps (decimal x ++ 120 :: decimal y) = false := by
    apply has_no (c := 98) (by decide)
    have h1 := not_mem_decimal (c := 98) x (by decide)
    have h2 := not_mem_decimal (c := 98) y (by decide)
    simp [h1, h2]
  have hch : has sCh (decimal x ++ 120 :: decimal y) = false := by
    apply has_no (c := 99) (by decide)
    have h1 := not_mem_decimal (c := 99) x (by decide)
    have h2 := not_mem_decimal (c := 99) y (by decide)
    simp [h1, h2]
  have hne : ∀ w : Bytes, (∀ c, w.head? = some c → ¬ IsDigit c) → ¬ decimal x ++ 120 :: decimal y = w := fun w hw h => decimal_word hw h
  have hv : videoRule ty (decimal x ++ 120 :: decimal y) = none := by
    unfold videoRule
    by_cases h : ty = [] ∨ ty = sVideo
    · rw [if_pos h, if_neg (hne _ (by simp [sBframes]; decide)), if_neg (by
          intro hm
          simp only [sMaxRes, List.mem_cons, List.not_mem_nil, or_false] at hm
          rcases hm with hm | hm | hm
          · exact hne _ (by simp; decide) hm
          · exact hne _ (by simp; decide) hm
          · exact hne _ (by simp; decide) hm), if_neg (by
          intro hm
          simp only [sMinRes, List.mem_cons, List.not_mem_nil, or_false] at hm
          rcases hm with hm | hm | hm
          · exact hne _ (by simp; decide) hm
          · exact hne _ (by simp; decide) hm
          · exact hne _ (by simp; decide) hm)]
      obtain ⟨c, q, hc, hd⟩ := decimal_cons x
      have hcons : decimal x ++ 120 :: decimal y = c :: (q ++ 120 :: decimal y) := by rw [hc]; rfl
      rw [hcons, scan2_prefix (Ne.symm (digit_early hd).2.2.2.2)]
    · rw [if_neg h]
  rw [rule_digit, near_none (rate_no_bps hnb), video_not_audio _ (hne _ (by simp [sSurround]; decide))
    (channels_none (hne _ (by simp [sMono]; decide)) (hne _ (by simp [sStereo]; decide)) hch), hv]
  show Rule.name (if _ then _ else _) = _
  rw [if_neg]
  have h1 := List.length_pos_iff.2 (Http.decimal_ne x)
  have h2 := List.length_pos_iff.2 (Http.decimal_ne y)
  simp only [List.length_append, List.length_cons]
  omega

theorem word_char {c : UInt8} (h : (97 ≤ c ∧ c ≤ 122) ∨ (48 ≤ c ∧ c ≤ 57)) : c ≠ 42 ∧ c ≠ 60 ∧ c ≠ 62 ∧ c ≠ 126 ∧ c ≠ 44 ∧ c ≠ 33 ∧ c ≠ 124 ∧ c ≠ 45 := by
  have : ∀ b : UInt8, ((97 ≤ b ∧ b ≤ 122) ∨ (48 ≤ b ∧ b ≤ 57)) → b ≠ 42 ∧ b ≠ 60 ∧ b ≠ 62 ∧ b ≠ 126 ∧ b ≠ 44 ∧ b ≠ 33 ∧ b ≠ 124 ∧ b ≠ 45 := by decide +kernel
  exact this c h

theorem letter_no {c : UInt8} (h : 97 ≤ c ∧ c ≤ 122) : NoNumber c := by
  have : ∀ b : UInt8, (97 ≤ b ∧ b ≤ 122) → NoNumber b := by decide +kernel
  exact this c h

theorem rule_word {ty w : Bytes} (h : Word w) : rule ty w = .name (if w.length = 2 then twoToThree w else w) := by
  obtain ⟨c, r, hw, hc1, hc2, hi⟩ := h.first
  have hown := h.own
  have hch := h.chars
  have hcc := word_char (hch c (by rw [hw]; exact List.mem_cons_self))
  have hnn := letter_no ⟨hc1, hc2⟩
  simp only [keywords, List.mem_append, List.mem_cons, List.not_mem_nil, or_false, not_or] at hown
  obtain ⟨⟨⟨⟨⟨k1, k2, k3, k4, k5, k6⟩, k7⟩, k8⟩, k9⟩, k10⟩ := hown
  have hs1 : scan1 [] w = none := by rw [hw]; exact scan1_none hnn
  have he : Early w := by
    refine ⟨?_, ?_, k7, k8⟩
    · rintro ⟨_, h1, h2⟩
      rw [hw] at h1 h2
      simp only [List.head?_cons, Option.some.injEq] at h1
      simp only [List.tail_cons] at h2
      cases r with
      | nil => exact h2 rfl
      | cons d r =>
        have := hi d h1 rfl
        apply h2
        unfold digitsOf
        rw [List.takeWhile_cons_of_neg]
        simpa using this
    · rintro (h1 | h1)
      · exact k1 h1
      · rw [hw] at h1
        exact hcc.1 (List.cons.inj h1).1
  have hlim : limited w = none := by
    unfold limited
    rw [if_neg]
    rintro ⟨_, h2⟩
    have : (60 : UInt8) ∈ w.take 4 := by rw [h2]; decide
    exact (word_char (hch 60 (List.mem_of_mem_take this))).2.1 rfl
  have hcha : channelsOf w = 0 := by
    unfold channelsOf
    simp [k4, k5, hs1]
  have hvid : videoRule ty w = none := by
    unfold videoRule
    by_cases hty : ty = [] ∨ ty = sVideo
    · rw [if_pos hty, if_neg k6, if_neg k9, if_neg k10, hw, scan2_prefix (Ne.symm hcc.2.2.2.1)]
    · rw [if_neg hty]
  have hcmp : compared w = none := by rw [hw]; exact compared_none hcc.2.1 hcc.2.2.1
  rw [rule_early he, hcmp, hlim, near_none (rate_none hs1), video_not_audio _ k3 hcha, hvid]
  rfl

theorem code_resolution (w : Bytes) : resolution (twoToThree w) = none := by
  have hall : ∀ c ∈ und :: codes.map (·.2), resolution c = none := by decide +kernel
  apply hall
  unfold twoToThree
  cases h : codes.lookup w with
  | none => exact List.mem_cons_self
  | some v =>
    apply List.mem_cons_of_mem
    rw [List.mem_map]
    obtain ⟨a, b, hab, _⟩ := List.lookup_eq_some_iff.1 h
    exact ⟨(w, v), by rw [hab]; simp, rfl⟩

theorem word_resolution {w : Bytes} (h : Word w) (h2 : w.length ≠ 2) : resolution w = none := by
  obtain ⟨c, r, hw, hc1, hc2, _⟩ := h.first
  have hd : ∀ x : UInt8, (97 ≤ x ∧ x ≤ 122) → x ≠ 55 ∧ x ≠ 49 := by decide +kernel
  obtain ⟨h55, h49⟩ := hd c ⟨hc1, hc2⟩
  unfold resolution
  rw [if_neg (by rw [hw]; simp)]
  simp only
  split
  · rw [if_neg (by rw [hw]; rintro ⟨_, h⟩; exact h55 (List.cons.inj h).1), if_neg (by rw [hw]; rintro ⟨_, h⟩; exact h49 (List.cons.inj h).1),
      if_neg (by rw [hw]; rintro ⟨_, h⟩; exact h49 (List.cons.inj h).1)]
  · rw [if_neg (fun h => h2 h.2), hw]
    exact scan2_none (letter_no ⟨hc1, hc2⟩)

theorem exact_resolution {x y : Nat} (hx : x < 2 ^ 32) (hy : y < 2 ^ 32) : resolution (decimal x ++ 120 :: decimal y) = some (x, y) := by
  have hs := scan2_decimal hx hy []
  rw [List.nil_append] at hs
  obtain ⟨c, q, hc, hd⟩ := decimal_cons y
  have hlast : ∀ b, (decimal x ++ 120 :: decimal y).getLast? = some b → IsDigit b := by
    intro b hb
    rw [List.getLast?_append, List.getLast?_cons_of_ne_nil (Http.decimal_ne y)] at hb
    cases hl : (decimal y).getLast? with
    | none =>
      rw [List.getLast?_eq_none_iff] at hl
      exact absurd hl (Http.decimal_ne y)
    | some e =>
      rw [hl] at hb
      simp only [Option.some_or, Option.some.injEq] at hb
      subst hb
      exact Http.decimal_digits y e (List.mem_of_getLast? hl)
  unfold resolution
  rw [if_neg (by simp)]
  simp only
  rw [if_neg (by
    rintro (h | h)
    · exact absurd (hlast _ h) (by decide)
    · exact absurd (hlast _ h) (by decide)), if_neg (by
    rintro ⟨h | h, _⟩
    · exact absurd (hlast _ h) (by decide)
    · exact absurd (hlast _ h) (by decide)), hs]

/-! ## What they give -/

theorem meets_every {m : List Track} {l : Sel} {ty : Bytes} {p : Track → Bool} {q : Track → Prop} (h : ∀ t ∈ m, p t = true ↔ q t) :
    Meets m l ty (.every q) (ofTracks ((among m l ty).filter p)) := by
  intro i
  rw [ofTracks_iff]
  constructor
  · rintro ⟨t, ht, hi⟩
    rw [List.mem_filter, mem_among] at ht
    exact ⟨t, ht.1, hi, (h t ht.1.1).1 ht.2⟩
  · rintro ⟨t, hc, hi, hp⟩
    exact ⟨t, by rw [List.mem_filter, mem_among]; exact ⟨hc, (h t hc.1).2 hp⟩, hi⟩

theorem meets_all {m : List Track} {l : Sel} {ty : Bytes} : Meets m l ty (.every fun _ => True) (ofTracks (among m l ty)) := by
  have := meets_every (m := m) (l := l) (ty := ty) (p := fun _ => true) (q := fun _ => True) (by simp)
  rwa [List.filter_eq_self.2 (by simp)] at this

theorem single_iff (t : Track) (i : Nat) : ofTracks (some t).toList i = true ↔ i = t.index := by
  rw [ofTracks_iff]
  simp [eq_comm]

theorem meets_one {m : List Track} {l : Sel} {ty : Bytes} {q : Track → Prop} {b : Track → Track → Prop} {o : Option Track}
    (h : (o = none ∧ ∀ t ∈ among m l ty, ¬ q t) ∨ ∃ t ∈ among m l ty, o = some t ∧ q t ∧ ∀ u ∈ among m l ty, q u → ¬ b u t) :
    Meets m l ty (.one q b) (ofTracks o.toList) := by
  rcases h with ⟨h1, h2⟩ | ⟨t, ht, h1, h2, h3⟩
  · right
    subst h1
    exact ⟨fun t ht => h2 t (mem_among.2 ht), fun i => rfl⟩
  · left
    subst h1
    exact ⟨t, mem_among.1 ht, h2, fun i => single_iff t i, fun u hu hq => h3 u (mem_among.2 hu) hq⟩

theorem area_eq {t : Track} (h : Sane t) : t.area = t.width * t.height := by
  unfold Track.area
  have := h.area
  exact Nat.mod_eq_of_lt (by omega)

/-- The tracks that can be chosen are from the stream. -/
theorem among_sub {m : List Track} {l : Sel} {ty : Bytes} {t : Track} (h : t ∈ among m l ty) : t ∈ m := (mem_among.1 h).1

theorem apply_meets {m : List Track} (hm : ∀ t ∈ m, Sane t) (l : Sel) {ty w : Bytes} {x : Want} (h : Says ty w x) (hi : ∀ n, x ≠ .index n) :
    Meets m l ty x (apply m l ty (rule ty w)) := by
  cases h with
  | number n _ => exact absurd rfl (hi n)
  | id n h =>
    rw [rule_id h]
    intro i
    show ofTracks _ i = true ↔ _
    rw [ofTracks_iff]
    constructor
    · rintro ⟨t, ht, hi⟩
      rw [List.mem_filter, Bool.and_eq_true, decide_eq_true_eq] at ht
      exact ⟨t, ht.1, hi ▸ ht.2.1, hi, by omega⟩
    · rintro ⟨t, ht, hl, hi, hid⟩
      refine ⟨t, ?_, hi⟩
      rw [List.mem_filter, Bool.and_eq_true, decide_eq_true_eq]
      exact ⟨ht, hi ▸ hl, by omega⟩
  | all =>
    rw [show rule ty sAll = .all from rfl]
    exact meets_all
  | star =>
    rw [show rule ty [42] = .all from rfl]
    exact meets_all
  | maxBps w hw =>
    have : rule ty w = .maxBps := by
      simp only [sMaxBps, List.mem_cons, List.not_mem_nil, or_false] at hw
      rcases hw with rfl | rfl | rfl <;> rfl
    rw [this]
    apply meets_one
    rcases largest_spec (·.bps) (among m l ty) none 0 with ⟨h1, h2⟩ | ⟨t, ht, h1, h2, h3⟩
    · left
      refine ⟨h1, fun t ht => ?_⟩
      have := h2 t ht
      omega
    · right
      refine ⟨t, ht, h1, h2, fun u hu _ => ?_⟩
      have := h3 u hu
      omega
  | minBps w hw =>
    have : rule ty w = .minBps := by
      simp only [sMinBps, List.mem_cons, List.not_mem_nil, or_false] at hw
      rcases hw with rfl | rfl | rfl <;> rfl
    rw [this]
    apply meets_one
    rcases smallest_spec (·.bps) (among m l ty) none (2 ^ 32 - 1) with ⟨h1, h2⟩ | ⟨t, ht, h1, h2, h3⟩
    · left
      refine ⟨h1, fun t ht => ?_⟩
      have h4 := h2 t ht
      have h5 := (hm t (among_sub ht)).bps
      omega
    · right
      refine ⟨t, ht, h1, trivial, fun u hu _ => ?_⟩
      have := h3 u hu
      omega
  | under n u h0 h =>
    rw [rule_under h0 h]
    exact meets_every (by simp)
  | over n u h0 h =>
    rw [rule_over h0 h]
    exact meets_every (by simp)
  | smaller x y h0 h =>
    rw [rule_smaller h0 h]
    exact meets_every (by intro t ht; rw [area_eq (hm t ht)]; simp)
  | larger x y h0 h =>
    rw [rule_larger h0 h]
    exact meets_every (by intro t ht; rw [area_eq (hm t ht)]; simp)
  | upTo n u h0 h =>
    rw [rule_upTo h0 h]
    apply meets_one
    rcases highest_spec (n * u.factor / 8) (among m l ty) with ⟨h1, h2⟩ | ⟨t, ht, h1, h2⟩
    · left
      exact ⟨h2, by rw [h1]; simp⟩
    · right
      exact ⟨t, ht, h1, trivial, fun v hv _ => h2 v hv⟩
  | closest n u h0 h =>
    rw [rule_near h0 h]
    apply meets_one
    rcases nearest_spec (·.bps) (n * u.factor / 8) (among m l ty) with ⟨h1, h2⟩ | ⟨t, ht, h1, h2⟩
    · left
      exact ⟨h2, by rw [h1]; simp⟩
    · right
      exact ⟨t, ht, h1, trivial, fun v hv _ => Nat.not_lt.2 (h2 v hv)⟩
  | surround hty =>
    have : rule ty sSurround = .surround := by rcases hty with rfl | rfl <;> rfl
    rw [this]
    exact meets_every (by simp)
  | mono hty =>
    have : rule ty sMono = .channels 1 := by rcases hty with rfl | rfl <;> rfl
    rw [this]
    exact meets_every (by simp)
  | stereo hty =>
    have : rule ty sStereo = .channels 2 := by rcases hty with rfl | rfl <;> rfl
    rw [this]
    exact meets_every (by simp)
  | channels hty n h0 hn =>
    rw [rule_channels hty h0 hn]
    exact meets_every (by simp)
  | bframes hty =>
    have : rule ty sBframes = .bframes := by rcases hty with rfl | rfl <;> rfl
    rw [this]
    exact meets_every (by simp)
  | maxRes hty w hw =>
    have : rule ty w = .maxRes := by
      simp only [sMaxRes, List.mem_cons, List.not_mem_nil, or_false] at hw
      rcases hty with rfl | rfl <;> rcases hw with rfl | rfl | rfl <;> rfl
    rw [this]
    apply meets_one
    rcases largest_spec (·.area) (among m l ty) none 0 with ⟨h1, h2⟩ | ⟨t, ht, h1, h2, h3⟩
    · left
      refine ⟨h1, fun t ht => ?_⟩
      have h4 := h2 t ht
      simp only [area_eq (hm t (among_sub ht))] at h4
      show ¬ 0 < t.width * t.height
      omega
    · right
      simp only [area_eq (hm t (among_sub ht))] at h2
      refine ⟨t, ht, h1, h2, fun u hu _ => ?_⟩
      have h4 := h3 u hu
      simp only [area_eq (hm u (among_sub hu)), area_eq (hm t (among_sub ht))] at h4
      exact Nat.not_lt.2 h4
  | minRes hty w hw =>
    have : rule ty w = .minRes := by
      simp only [sMinRes, List.mem_cons, List.not_mem_nil, or_false] at hw
      rcases hty with rfl | rfl <;> rcases hw with rfl | rfl | rfl <;> rfl
    rw [this]
    apply meets_one
    rcases smallest_spec (·.area) (among m l ty) none (2 ^ 32 - 1) with ⟨h1, h2⟩ | ⟨t, ht, h1, h2, h3⟩
    · left
      refine ⟨h1, fun t ht => ?_⟩
      have h4 := h2 t ht
      have h5 := (hm t (among_sub ht)).area
      simp only [area_eq (hm t (among_sub ht))] at h4
      omega
    · right
      refine ⟨t, ht, h1, trivial, fun u hu _ => ?_⟩
      have h4 := h3 u hu
      simp only [area_eq (hm u (among_sub hu)), area_eq (hm t (among_sub ht))] at h4
      exact Nat.not_lt.2 h4
  | like hty x y hx hy ha =>
    rw [rule_like hty hx hy ha]
    apply meets_one
    rcases nearest_spec (·.area) (x * y) (among m l ty) with ⟨h1, h2⟩ | ⟨t, ht, h1, h2⟩
    · left
      exact ⟨h2, by rw [h1]; simp⟩
    · right
      refine ⟨t, ht, h1, trivial, fun v hv _ => Nat.not_lt.2 ?_⟩
      have h3 := h2 v hv
      simp only [area_eq (hm v (among_sub hv)), area_eq (hm t (among_sub ht))] at h3
      exact h3
  | exactly hty x y hx hy =>
    rw [rule_exactly]
    apply meets_every
    intro t _
    unfold named
    rw [exact_resolution hx hy]
    have hb : (decide (ty = []) || decide (ty = sVideo)) = true := by rcases hty with h | h <;> simp [h]
    simp only [hb, Bool.true_and, Bool.or_eq_true, Bool.and_eq_true, decide_eq_true_eq]
    constructor
    · rintro ((h | h) | h)
      · exact Or.inr (Or.inl h)
      · exact Or.inr (Or.inr h.symm)
      · exact Or.inl h
    · rintro (h | h | h)
      · exact Or.inr h
      · exact Or.inl (Or.inl h)
      · exact Or.inl (Or.inr h.symm)
  | format hty e he =>
    have hr : rule ty e.1 = .name e.1 ∧ resolution e.1 = some e.2 := by
      simp only [formats, List.mem_cons, List.not_mem_nil, or_false] at he
      rcases hty with rfl | rfl <;> rcases he with rfl | rfl | rfl <;> exact ⟨by decide +kernel, by decide +kernel⟩
    rw [hr.1]
    apply meets_every
    intro t _
    unfold named
    rw [hr.2]
    have hb : (decide (ty = []) || decide (ty = sVideo)) = true := by rcases hty with h | h <;> simp [h]
    simp only [hb, Bool.true_and, Bool.or_eq_true, Bool.and_eq_true, decide_eq_true_eq]
    constructor
    · rintro ((h | h) | h)
      · exact Or.inr (Or.inl h)
      · exact Or.inr (Or.inr h.symm)
      · exact Or.inl h
    · rintro (h | h | h)
      · exact Or.inr h
      · exact Or.inl (Or.inl h)
      · exact Or.inl (Or.inr h.symm)
  | word w h h2 =>
    rw [rule_word h, if_neg h2]
    apply meets_every
    intro t _
    unfold named
    rw [word_resolution h h2]
    simp only [Bool.and_false, Bool.or_false, Bool.or_eq_true, decide_eq_true_eq]
    exact ⟨fun h => h.imp id Eq.symm, fun h => h.imp id Eq.symm⟩
  | language w h h2 =>
    rw [rule_word h, if_pos h2]
    apply meets_every
    intro t _
    unfold named
    rw [code_resolution]
    simp only [Bool.and_false, Bool.or_false, Bool.or_eq_true, decide_eq_true_eq]
    exact ⟨fun h => h.imp id Eq.symm, fun h => h.imp id Eq.symm⟩

/-! ## In capital letters -/

theorem lower_digit {c : UInt8} (h : IsDigit (lower c)) : lower c = c := by
  have : ∀ b : UInt8, IsDigit (lower b) → lower b = b := by decide +kernel
  exact this c h

theorem lower_mem {c : UInt8} {v : Bytes} (h : c ∈ v) (hc : lower c = c) : c ∈ v.map lower := by
  rw [List.mem_map]
  exact ⟨c, h, hc⟩

theorem map_lower_digits {v w : Bytes} (hw : ∀ c ∈ w, IsDigit c) (h : v.map lower = w) : v = w := by
  induction v generalizing w with
  | nil => simpa using h
  | cons c v ih =>
    cases w with
    | nil => simp at h
    | cons d w =>
      simp only [List.map_cons, List.cons.injEq] at h
      have hd := hw d List.mem_cons_self
      rw [← h.1] at hd
      rw [← h.1, lower_digit hd, ih (fun x hx => hw x (List.mem_cons_of_mem _ hx)) h.2]

theorem showInt_chars (i : Int) : ∀ c ∈ showInt i, IsDigit c ∨ c = 45 := by
  intro c hc
  unfold showInt at hc
  split at hc
  · rcases List.mem_cons.1 hc with rfl | hc
    · exact Or.inr rfl
    · exact Or.inl (Http.decimal_digits _ c hc)
  · exact Or.inl (Http.decimal_digits _ c hc)

theorem showInt_nat (n : Nat) : showInt (n : Int) = decimal n := by
  unfold showInt
  rw [if_neg (by omega)]
  rfl

/-- What all selectors but numbers have: a character of another kind, and none with a meaning in lists. -/
structure Shape (w : Bytes) : Prop where
  other : ∃ c ∈ w, ¬ IsDigit c ∧ c ≠ 45
  comma : 44 ∉ w
  own : w ≠ sNone
  first : w.head? ≠ some 33 ∧ w.head? ≠ some 124

theorem says_shape {ty w : Bytes} {x : Want} (h : Says ty w x) (hi : ∀ n, x ≠ .index n) : Shape w := by
  have n44 := fun n => not_mem_decimal (c := 44) n (by decide)
  have dig : ∀ (n : Nat) (r : Bytes), (decimal n ++ r) ≠ sNone ∧ (decimal n ++ r).head? ≠ some 33 ∧ (decimal n ++ r).head? ≠ some 124 := by
    intro n r
    obtain ⟨c, q, hc, hd⟩ := decimal_cons n
    have : ∀ b : UInt8, IsDigit b → b ≠ 110 ∧ b ≠ 33 ∧ b ≠ 124 := by decide +kernel
    obtain ⟨h1, h2, h3⟩ := this c hd
    rw [hc]
    exact ⟨fun h => h1 (List.cons.inj h).1, by simpa using h2, by simpa using h3⟩
  have unit : ∀ u : RateUnit, 44 ∉ u.text ∧ (112 : UInt8) ∈ u.text := by intro u; cases u <;> decide
  cases h with
  | number n _ => exact absurd rfl (hi n)
  | id n h => exact ⟨⟨105, List.mem_cons_self, by decide, by decide⟩, by simp [n44], by simp [sNone], by simp, by simp⟩
  | all => exact ⟨⟨97, by decide, by decide, by decide⟩, by decide, by decide, by decide, by decide⟩
  | star => exact ⟨⟨42, by decide, by decide, by decide⟩, by decide, by decide, by decide, by decide⟩
  | maxBps w hw =>
    simp only [sMaxBps, List.mem_cons, List.not_mem_nil, or_false] at hw
    rcases hw with rfl | rfl | rfl <;> exact ⟨⟨98, by decide, by decide, by decide⟩, by decide, by decide, by decide, by decide⟩
  | minBps w hw =>
    simp only [sMinBps, List.mem_cons, List.not_mem_nil, or_false] at hw
    rcases hw with rfl | rfl | rfl <;> exact ⟨⟨98, by decide, by decide, by decide⟩, by decide, by decide, by decide, by decide⟩
  | under n u h0 h => exact ⟨⟨60, List.mem_cons_self, by decide, by decide⟩, by simp [n44, unit], by simp [sNone], by simp, by simp⟩
  | over n u h0 h => exact ⟨⟨62, List.mem_cons_self, by decide, by decide⟩, by simp [n44, unit], by simp [sNone], by simp, by simp⟩
  | smaller x y h0 h => exact ⟨⟨60, List.mem_cons_self, by decide, by decide⟩, by simp [n44], by simp [sNone], by simp, by simp⟩
  | larger x y h0 h => exact ⟨⟨62, List.mem_cons_self, by decide, by decide⟩, by simp [n44], by simp [sNone], by simp, by simp⟩
  | upTo n u h0 h => exact ⟨⟨60, by simp [sMaxUnder], by decide, by decide⟩, by simp [n44, unit, sMaxUnder], by simp [sNone, sMaxUnder], by simp [sMaxUnder], by simp [sMaxUnder]⟩
  | closest n u h0 h =>
    refine ⟨⟨112, by simp [unit], by decide, by decide⟩, by simp [n44, unit], (dig n _).1, (dig n _).2⟩
  | surround hty => exact ⟨⟨115, by decide, by decide, by decide⟩, by decide, by decide, by decide, by decide⟩
  | mono hty => exact ⟨⟨109, by decide, by decide, by decide⟩, by decide, by decide, by decide, by decide⟩
  | stereo hty => exact ⟨⟨115, by decide, by decide, by decide⟩, by decide, by decide, by decide, by decide⟩
  | channels hty n h0 hn => exact ⟨⟨99, by simp [sCh], by decide, by decide⟩, by simp [n44, sCh], (dig n _).1, (dig n _).2⟩
  | bframes hty => exact ⟨⟨98, by decide, by decide, by decide⟩, by decide, by decide, by decide, by decide⟩
  | maxRes hty w hw =>
    simp only [sMaxRes, List.mem_cons, List.not_mem_nil, or_false] at hw
    rcases hw with rfl | rfl | rfl <;> exact ⟨⟨114, by decide, by decide, by decide⟩, by decide, by decide, by decide, by decide⟩
  | minRes hty w hw =>
    simp only [sMinRes, List.mem_cons, List.not_mem_nil, or_false] at hw
    rcases hw with rfl | rfl | rfl <;> exact ⟨⟨114, by decide, by decide, by decide⟩, by decide, by decide, by decide, by decide⟩
  | like hty x y hx hy ha => exact ⟨⟨126, List.mem_cons_self, by decide, by decide⟩, by simp [n44], by simp [sNone], by simp, by simp⟩
  | exactly hty x y hx hy => exact ⟨⟨120, by simp, by decide, by decide⟩, by simp [n44], (dig x _).1, (dig x _).2⟩
  | format hty e he =>
    simp only [formats, List.mem_cons, List.not_mem_nil, or_false] at he
    rcases he with rfl | rfl | rfl <;> exact ⟨⟨112, by decide, by decide, by decide⟩, by decide, by decide, by decide, by decide⟩
  | word w h h2 =>
    obtain ⟨c, r, hw, hc1, hc2, _⟩ := h.first
    refine ⟨⟨c, by rw [hw]; exact List.mem_cons_self, (letter_no ⟨hc1, hc2⟩).2.2.2, (letter_no ⟨hc1, hc2⟩).2.1⟩, ?_, ?_, ?_, ?_⟩
    · intro h44
      exact (word_char (h.chars 44 h44)).2.2.2.2.1 rfl
    · intro he
      exact h.own (by rw [he]; decide)
    · intro he
      exact (word_char (h.chars 33 (List.mem_of_mem_head? he))).2.2.2.2.2.1 rfl
    · intro he
      exact (word_char (h.chars 124 (List.mem_of_mem_head? he))).2.2.2.2.2.2.1 rfl
  | language w h h2 =>
    obtain ⟨c, r, hw, hc1, hc2, _⟩ := h.first
    refine ⟨⟨c, by rw [hw]; exact List.mem_cons_self, (letter_no ⟨hc1, hc2⟩).2.2.2, (letter_no ⟨hc1, hc2⟩).2.1⟩, ?_, ?_, ?_, ?_⟩
    · intro h44
      exact (word_char (h.chars 44 h44)).2.2.2.2.1 rfl
    · intro he
      exact h.own (by rw [he]; decide)
    · intro he
      exact (word_char (h.chars 33 (List.mem_of_mem_head? he))).2.2.2.2.2.1 rfl
    · intro he
      exact (word_char (h.chars 124 (List.mem_of_mem_head? he))).2.2.2.2.2.2.1 rfl

theorem head_lower {v : Bytes} {c : UInt8} (hc : lower c = c) (h : v.head? = some c) : (v.map lower).head? = some c := by
  cases v with
  | nil => simp at h
  | cons d v =>
    simp only [List.head?_cons, Option.some.injEq] at h
    subst h
    simp [hc]

theorem pick_shape {m : List Track} {l : Sel} {ty v : Bytes} (h : Shape (v.map lower)) : find m l ty v = apply m l ty (rule ty (v.map lower)) := by
  have hcomma : 44 ∉ v := fun h' => h.comma (lower_mem h' (by decide))
  obtain ⟨c, hc, hnd, h45⟩ := h.other
  obtain ⟨d, hd, hdc⟩ := List.mem_map.1 hc
  have hdig : ¬ IsDigit d ∧ d ≠ 45 := by
    have : ∀ b : UInt8, ¬ IsDigit (lower b) → lower b ≠ 45 → ¬ IsDigit b ∧ b ≠ 45 := by decide +kernel
    subst hdc
    exact this d hnd h45
  have hnone : ¬ (v = sMinus ∨ v = sNone) := by
    rintro (he | he)
    · subst he
      simp only [sMinus, List.mem_cons, List.not_mem_nil, or_false] at hd
      rcases hd with rfl | rfl
      · exact hdig.2 rfl
      · exact hdig.1 (by decide)
    · subst he
      exact h.own rfl
  have hlit : ¬ v = showInt (atoll v) := by
    intro he
    rw [he] at hd
    rcases showInt_chars _ d hd with h1 | h1
    · exact hdig.1 h1
    · exact hdig.2 h1
  have hne : v ≠ [] := by
    rintro rfl
    simp at hd
  unfold find
  rw [if_neg (fun he => h.first.1 (head_lower (by decide) he))]
  unfold pick
  rw [if_neg hnone, if_neg hcomma]
  unfold pickOne
  rw [if_neg hne, if_neg hnone, if_neg hlit]

theorem pick_number {m : List Track} {l : Sel} {ty : Bytes} {n : Nat} (h : n < 2 ^ 63) : Meets m l ty (.index n) (find m l ty (decimal n)) := by
  have hdg := Http.decimal_digits n
  have hno : ∀ c ∈ decimal n, c ≠ 44 ∧ c ≠ 45 ∧ c ≠ 110 ∧ c ≠ 33 := by
    have : ∀ b : UInt8, IsDigit b → b ≠ 44 ∧ b ≠ 45 ∧ b ≠ 110 ∧ b ≠ 33 := by decide +kernel
    exact fun c hc => this c (hdg c hc)
  have hnone : ¬ (decimal n = sMinus ∨ decimal n = sNone) := by
    rintro (he | he)
    · exact (hno 45 (by rw [he]; decide)).2.1 rfl
    · exact (hno 110 (by rw [he]; decide)).2.2.1 rfl
  intro i
  unfold find
  rw [if_neg (fun he : (decimal n).head? = some 33 => (hno 33 (List.mem_of_mem_head? he)).2.2.2 rfl)]
  unfold pick
  rw [if_neg hnone, if_neg (fun he => (hno 44 he).1 rfl)]
  unfold pickOne
  rw [if_neg (Http.decimal_ne n), if_neg hnone, if_pos (by rw [Http.atoll_decimal n h, showInt_nat]), Http.atoll_decimal n h, ofTracks_iff]
  constructor
  · rintro ⟨t, ht, hi⟩
    rw [List.mem_filter, Bool.and_eq_true, decide_eq_true_eq, isA_iff] at ht
    exact ⟨by omega, t, ht.1, by omega, ht.2.2⟩
  · rintro ⟨hi, t, ht, hn, ho⟩
    refine ⟨t, ?_, by omega⟩
    rw [List.mem_filter, Bool.and_eq_true, decide_eq_true_eq, isA_iff]
    exact ⟨ht, by omega, ho⟩

/-- C82: a selector, in letters of any case, selects what it says. The maxima of bit rate and resolution leave out tracks for which they
are not known. -/
theorem C82_partial {m : List Track} (hm : ∀ t ∈ m, Sane t) (l : Sel) {ty v : Bytes} {x : Want} (h : Says ty (v.map lower) x) :
    Meets m l ty x (find m l ty v) := by
  by_cases hi : ∃ n, x = .index n
  · obtain ⟨n, rfl⟩ := hi
    generalize hw : v.map lower = w at h
    cases h with
    | number n h =>
      rw [map_lower_digits (fun c hc => Http.decimal_digits n c hc) hw]
      exact pick_number h
  · have hi' : ∀ n, x ≠ .index n := fun n hn => hi ⟨n, hn⟩
    rw [pick_shape (says_shape h hi')]
    exact apply_meets hm l h hi'

/-! ## Lists -/

theorem items_one {a : Bytes} (h : 44 ∉ a) : items a = [a] := by
  induction a with
  | nil => rfl
  | cons c a ih =>
    simp only [List.mem_cons, not_or] at h
    unfold items
    rw [if_neg (Ne.symm h.1), ih h.2]

theorem items_ne (a : Bytes) : items a ≠ [] := by
  induction a with
  | nil => simp [items]
  | cons c a ih =>
    unfold items
    split
    · simp
    · split <;> simp

theorem items_append (a b : Bytes) (hb : 44 ∉ b) : items (a ++ 44 :: b) = items a ++ [b] := by
  induction a with
  | nil =>
    rw [List.nil_append]
    unfold items
    rw [if_pos rfl, items_one hb]
    rfl
  | cons c a ih =>
    rw [List.cons_append]
    unfold items
    rw [ih]
    by_cases hc : c = 44
    · rw [if_pos hc, if_pos hc]
      rfl
    · rw [if_neg hc, if_neg hc]
      cases h : items a with
      | nil => exact absurd h (items_ne a)
      | cons x y => rfl

/-- Not an item that starts with '!' or '|'. -/
def Plain (v : Bytes) : Prop := v.head? ≠ some 33 ∧ v.head? ≠ some 124

theorem pick_eq_fold {m : List Track} {l : Sel} {ty a : Bytes} (ha : Plain a) : pick m l ty a = (items a).foldl (item m l ty) (fun _ => false) := by
  have hone : ∀ v, 44 ∉ v → Plain v → (items v).foldl (item m l ty) (fun _ => false) = pickOne m l ty v := by
    intro v hv hp
    rw [items_one hv]
    simp only [List.foldl_cons, List.foldl_nil, item]
    rw [if_neg hp.2, if_neg hp.1]
    funext i
    exact Bool.false_or _
  unfold pick
  by_cases h1 : a = sMinus ∨ a = sNone
  · rw [if_pos h1]
    have : 44 ∉ a := by rcases h1 with rfl | rfl <;> decide
    rw [hone a this ha]
    unfold pickOne
    rw [if_neg (by rcases h1 with rfl | rfl <;> decide), if_pos h1]
  · rw [if_neg h1]
    by_cases h2 : 44 ∈ a
    · rw [if_pos h2]
    · rw [if_neg h2, hone a h2 ha]

theorem pick_snoc {m : List Track} {l : Sel} {ty a b : Bytes} (ha : Plain a) (hb : 44 ∉ b) : pick m l ty (a ++ 44 :: b) = item m l ty (pick m l ty a) b := by
  have hp : Plain (a ++ 44 :: b) := by
    cases a with
    | nil => exact ⟨by simp, by simp⟩
    | cons c a => exact ha
  rw [pick_eq_fold hp, items_append a b hb, List.foldl_append, ← pick_eq_fold ha]
  rfl

theorem pickOne_eq {m : List Track} {l : Sel} {ty b : Bytes} (hb : 44 ∉ b) : pick m l ty b = pickOne m l ty b := by
  unfold pick
  by_cases h1 : b = sMinus ∨ b = sNone
  · rw [if_pos h1]
    unfold pickOne
    rw [if_neg (by rcases h1 with rfl | rfl <;> decide), if_pos h1]
  · rw [if_neg h1, if_neg hb]

/-- C82: items of a list are added. -/
theorem C82_union (m : List Track) (l : Sel) (ty a b : Bytes) (ha : Plain a) (hb : Plain b) (hc : 44 ∉ b) (i : Nat) :
    pick m l ty (a ++ 44 :: b) i = true ↔ pick m l ty a i = true ∨ pick m l ty b i = true := by
  rw [pick_snoc ha hc, pickOne_eq hc]
  unfold item
  rw [if_neg hb.2, if_neg hb.1]
  exact Bool.or_eq_true_iff

/-- C82: an item behind '|' selects among what was selected before. -/
theorem C82_narrow (m : List Track) (l : Sel) (ty a b : Bytes) (ha : Plain a) (hc : 44 ∉ b) :
    pick m l ty (a ++ 44 :: 124 :: b) = pick m (pick m l ty a) ty b := by
  rw [pick_snoc ha (by simp [hc]), pickOne_eq hc]
  rfl

/-- C82: an item behind '!' takes away. -/
theorem C82_remove (m : List Track) (l : Sel) (ty a b : Bytes) (ha : Plain a) (hc : 44 ∉ b) (i : Nat) :
    pick m l ty (a ++ 44 :: 33 :: b) i = true ↔ pick m l ty a i = true ∧ ¬ pick m (pick m l ty a) ty b i = true := by
  rw [pick_snoc ha (by simp [hc]), pickOne_eq hc]
  show (pick m l ty a i && !pickOne m (pick m l ty a) ty b i) = true ↔ _
  simp

/-- C82: a list that starts with '!' takes away from all. -/
theorem C82_not (m : List Track) (l : Sel) (ty b : Bytes) (hc : 44 ∉ b) (i : Nat) :
    find m l ty (33 :: b) i = true ↔ (∃ t, Cand m l ty t ∧ t.index = i) ∧ ¬ pick m (pick m l ty sAll) ty b i = true := by
  unfold find
  rw [if_pos (show (33 :: b).head? = some 33 from rfl), List.append_assoc]
  show pick m l ty (sAll ++ 44 :: 33 :: b) i = true ↔ _
  rw [C82_remove m l ty sAll b ⟨by decide, by decide⟩ hc i]
  have : pick m l ty sAll = ofTracks (among m l ty) := by
    rw [pickOne_eq (by decide)]
    unfold pickOne
    rw [if_neg (by decide), if_neg (by decide), if_neg (by decide +kernel)]
    rfl
  rw [this, ofTracks_iff]
  simp only [mem_among]

theorem apply_within (m : List Track) (l : Sel) (ty : Bytes) (r : Rule) (i : Nat) (h : apply m l ty r i = true) : l i = true ∧ ∃ t ∈ m, t.index = i := by
  have sub : ∀ ts : List Track, (∀ t ∈ ts, t ∈ among m l ty) → ofTracks ts i = true → l i = true ∧ ∃ t ∈ m, t.index = i := by
    intro ts hts h
    obtain ⟨t, ht, hi⟩ := ofTracks_iff.1 h
    obtain ⟨h1, h2, _⟩ := mem_among.1 (hts t ht)
    exact ⟨hi ▸ h2, t, h1, hi⟩
  have fil : ∀ p : Track → Bool, ∀ t ∈ (among m l ty).filter p, t ∈ among m l ty := fun p t ht => (List.mem_filter.1 ht).1
  have opt : ∀ o : Option Track, (o = none ∨ ∃ t ∈ among m l ty, o = some t) → ∀ t ∈ o.toList, t ∈ among m l ty := by
    rintro o (rfl | ⟨t, ht, rfl⟩) u hu
    · simp at hu
    · simp at hu
      exact hu ▸ ht
  cases r with
  | id n =>
    obtain ⟨t, ht, hi⟩ := ofTracks_iff.1 h
    rw [List.mem_filter, Bool.and_eq_true] at ht
    exact ⟨hi ▸ ht.2.1, t, ht.1, hi⟩
  | all => exact sub _ (fun t ht => ht) h
  | maxBps =>
    refine sub _ (opt _ ?_) h
    rcases largest_spec (·.bps) (among m l ty) none 0 with ⟨h1, _⟩ | ⟨t, ht, h1, _⟩
    · exact Or.inl h1
    · exact Or.inr ⟨t, ht, h1⟩
  | minBps =>
    refine sub _ (opt _ ?_) h
    rcases smallest_spec (·.bps) (among m l ty) none (2 ^ 32 - 1) with ⟨h1, _⟩ | ⟨t, ht, h1, _⟩
    · exact Or.inl h1
    · exact Or.inr ⟨t, ht, h1⟩
  | bpsUnder n => exact sub _ (fil _) h
  | bpsOver n => exact sub _ (fil _) h
  | areaUnder n => exact sub _ (fil _) h
  | areaOver n => exact sub _ (fil _) h
  | bpsUpTo n =>
    refine sub _ (opt _ ?_) h
    rcases highest_spec n (among m l ty) with ⟨_, h1⟩ | ⟨t, ht, h1, _⟩
    · exact Or.inl h1
    · exact Or.inr ⟨t, ht, h1⟩
  | bpsNear n =>
    refine sub _ (opt _ ?_) h
    rcases nearest_spec (·.bps) n (among m l ty) with ⟨_, h1⟩ | ⟨t, ht, h1, _⟩
    · exact Or.inl h1
    · exact Or.inr ⟨t, ht, h1⟩
  | surround => exact sub _ (fil _) h
  | channels n => exact sub _ (fil _) h
  | bframes => exact sub _ (fil _) h
  | maxRes =>
    refine sub _ (opt _ ?_) h
    rcases largest_spec (·.area) (among m l ty) none 0 with ⟨h1, _⟩ | ⟨t, ht, h1, _⟩
    · exact Or.inl h1
    · exact Or.inr ⟨t, ht, h1⟩
  | minRes =>
    refine sub _ (opt _ ?_) h
    rcases smallest_spec (·.area) (among m l ty) none (2 ^ 32 - 1) with ⟨h1, _⟩ | ⟨t, ht, h1, _⟩
    · exact Or.inl h1
    · exact Or.inr ⟨t, ht, h1⟩
  | resNear n =>
    refine sub _ (opt _ ?_) h
    rcases nearest_spec (·.area) n (among m l ty) with ⟨_, h1⟩ | ⟨t, ht, h1, _⟩
    · exact Or.inl h1
    · exact Or.inr ⟨t, ht, h1⟩
  | name w => exact sub _ (fil _) h

/-- C82: any text at all selects only tracks of the stream, and if it is not a number only tracks that it may choose from. -/
theorem C82_within_partial (m : List Track) (l : Sel) (ty v : Bytes) (hc : 44 ∉ v) (i : Nat) (h : pick m l ty v i = true) :
    (∃ t ∈ m, t.index = i) ∧ ((∃ c ∈ v, ¬ IsDigit c) → l i = true) := by
  rw [pickOne_eq hc] at h
  unfold pickOne at h
  split at h
  · cases h
  split at h
  · cases h
  split at h
  · next hlit =>
    obtain ⟨t, ht, hi⟩ := ofTracks_iff.1 h
    rw [List.mem_filter, Bool.and_eq_true, decide_eq_true_eq] at ht
    refine ⟨⟨t, ht.1, hi⟩, ?_⟩
    rintro ⟨c, hc, hd⟩
    exfalso
    have hnn : 0 ≤ atoll v := by omega
    unfold showInt at hlit
    rw [if_neg (by omega)] at hlit
    rw [hlit] at hc
    exact hd (Http.decimal_digits _ c hc)
  · obtain ⟨h1, h2⟩ := apply_within m l ty _ i h
    exact ⟨h2, fun _ => h1⟩

/-- An item of a list without its mark. -/
def unmark (it : Bytes) : Bytes := if it.head? = some 33 ∨ it.head? = some 124 then it.tail else it

/-- A number. -/
def Number (v : Bytes) : Prop := v ≠ [] ∧ ∀ c ∈ v, IsDigit c

theorem pickOne_within {m : List Track} {l : Sel} {ty v : Bytes} (hn : ¬ Number v) {i : Nat} (h : pickOne m l ty v i = true) : l i = true := by
  unfold pickOne at h
  split at h
  · cases h
  split at h
  · cases h
  split at h
  · next hne _ hlit =>
    obtain ⟨t, ht, hi⟩ := ofTracks_iff.1 h
    rw [List.mem_filter, Bool.and_eq_true, decide_eq_true_eq] at ht
    refine absurd ⟨hne, ?_⟩ hn
    intro c hc
    unfold showInt at hlit
    rw [if_neg (by omega)] at hlit
    rw [hlit] at hc
    exact Http.decimal_digits _ c hc
  · exact (apply_within m l ty _ i h).1

theorem items_cons (c : UInt8) (r : Bytes) : items (c :: r) = if c = 44 then [] :: items r else match items r with
    | [] => [[c]]
    | a :: l => (c :: a) :: l := rfl

theorem items_append_list (a b : Bytes) : items (a ++ 44 :: b) = items a ++ items b := by
  induction a with
  | nil =>
    rw [List.nil_append, items_cons, if_pos rfl]
    rfl
  | cons c a ih =>
    rw [List.cons_append, items_cons, items_cons, ih]
    by_cases hc : c = 44
    · rw [if_pos hc, if_pos hc]
      rfl
    · rw [if_neg hc, if_neg hc]
      cases h : items a with
      | nil => exact absurd h (items_ne a)
      | cons x y => rfl

theorem fold_within {m : List Track} {l : Sel} {ty : Bytes} {its : List Bytes} (hn : ∀ it ∈ its, ¬ Number (unmark it)) {res : Sel}
    (hres : ∀ i, res i = true → l i = true) {i : Nat} (h : its.foldl (item m l ty) res i = true) : l i = true := by
  induction its generalizing res with
  | nil => exact hres i h
  | cons it its ih =>
    rw [List.foldl_cons] at h
    refine ih (fun x hx => hn x (List.mem_cons_of_mem _ hx)) ?_ h
    intro j hj
    have hit := hn it List.mem_cons_self
    unfold item at hj
    unfold unmark at hit
    split at hj
    · next h1 =>
      rw [if_pos (Or.inr h1)] at hit
      exact hres j (pickOne_within hit hj)
    · next h1 =>
      split at hj
      · rw [Bool.and_eq_true] at hj
        exact hres j hj.1
      · next h2 =>
        rw [if_neg (by rintro (h | h); exact h2 h; exact h1 h)] at hit
        rw [Bool.or_eq_true] at hj
        exact hj.elim (hres j) (pickOne_within hit)

/-- C82: lists of selectors without numbers select only from the tracks they may choose from. -/
theorem C82_within_list_partial (m : List Track) (l : Sel) (ty v : Bytes) (hn : ∀ it ∈ items v, ¬ Number (unmark it)) (i : Nat)
    (h : find m l ty v i = true) : l i = true := by
  have hpick : ∀ v, (∀ it ∈ items v, ¬ Number (unmark it)) → pick m l ty v i = true → l i = true := by
    intro v hn h
    unfold pick at h
    split at h
    · cases h
    · split at h
      · exact fold_within hn (fun i hi => by cases hi) h
      · next h44 =>
        rw [items_one h44] at hn
        have hv := hn v List.mem_cons_self
        unfold unmark at hv
        by_cases hm : v.head? = some 33 ∨ v.head? = some 124
        · refine pickOne_within ?_ h
          rintro ⟨_, hd⟩
          rcases hm with hm | hm
          · exact absurd (hd _ (List.mem_of_mem_head? hm)) (by decide)
          · exact absurd (hd _ (List.mem_of_mem_head? hm)) (by decide)
        · rw [if_neg hm] at hv
          exact pickOne_within hv h
  unfold find at h
  split at h
  · refine hpick _ ?_ h
    have he : sAll ++ [44] ++ v = sAll ++ 44 :: v := by simp
    rw [he, items_append_list]
    intro it hit
    rcases List.mem_append.1 hit with hit | hit
    · rw [show items sAll = [sAll] from by decide, List.mem_singleton] at hit
      subst hit
      rintro ⟨_, hd⟩
      exact absurd (hd 97 (by decide)) (by decide)
    · exact hn it hit
  · exact hpick v hn h

/-! ## Where it fails -/

/-- A track for examples. -/
private def trk (i : Nat) (type codec : Bytes) (rate w h : Nat) : Track := ⟨i, i + 1, type, codec, und, rate, w, h, 0, false, [], 0, false⟩

/-- "H264". -/
private def sH264 : Bytes := [72, 50, 54, 52]
/-- "AAC". -/
private def sAAC : Bytes := [65, 65, 67]

/-- C82 fails for numbers: an item behind '|' can add a track that was not selected before. -/
theorem C82_number_fails : ∃ (m : List Track) (l : Sel) (ty a b : Bytes) (i : Nat),
    pick m l ty a i = false ∧ l i = false ∧ pick m l ty (a ++ 44 :: 124 :: b) i = true :=
  ⟨[trk 0 sVideo sH264 100 640 360, trk 1 sVideo sH264 200 1280 720], fun i => i == 0, sVideo, sAll, [49], 1, by decide +kernel, by decide +kernel, by decide +kernel⟩

/-- C82 fails for IDs: they select tracks of other types. -/
theorem C82_id_fails : ∃ (m : List Track) (l : Sel) (v : Bytes) (t : Track), t ∈ m ∧ ¬ Of sVideo t ∧ find m l sVideo v t.index = true :=
  ⟨[trk 0 sAudio sAAC 100 0 0], fun _ => true, [105, 49], trk 0 sAudio sAAC 100 0 0, by simp, by unfold Of; decide +kernel, by decide +kernel⟩

/-- C82 fails for resolutions of two characters: "4k" is taken for a language that is not known, and selects the tracks without language. -/
theorem C82_4k_fails (m : List Track) (l : Sel) (ty : Bytes) (i : Nat) :
    find m l ty [52, 107] i = true ↔ ∃ t, Cand m l ty t ∧ t.index = i ∧ (t.lang = und ∨ t.codec.map lower = und) := by
  have hr : rule ty [52, 107] = .name und := by
    have h := rule_digit (ty := ty) 4 [107]
    rw [show decimal 4 ++ [107] = [52, 107] from by decide +kernel] at h
    rw [h, show near [52, 107] = none from by decide +kernel, video_not_audio _ (by decide) (by decide +kernel)]
    have : videoRule ty [52, 107] = none := by
      unfold videoRule
      by_cases hty : ty = [] ∨ ty = sVideo
      · rw [if_pos hty]
        decide +kernel
      · rw [if_neg hty]
    rw [this]
    decide +kernel
  have hs : Shape (([52, 107] : Bytes).map lower) := ⟨⟨107, by decide, by decide, by decide⟩, by decide, by decide, by decide, by decide⟩
  rw [pick_shape hs, show ([52, 107] : Bytes).map lower = [52, 107] from by decide, hr]
  have : Meets m l ty (.every fun t => t.lang = und ∨ t.codec.map lower = und) (apply m l ty (.name und)) := by
    apply meets_every
    intro t _
    unfold named
    rw [show resolution und = none from by decide +kernel]
    simp only [Bool.and_false, Bool.or_false, Bool.or_eq_true, decide_eq_true_eq]
    exact ⟨fun h => h.imp id Eq.symm, fun h => h.imp id Eq.symm⟩
  exact this i

/-- C82 fails for the highest bit rate as long as no bit rate is known: nothing is selected. -/
theorem C82_unknown_fails (m : List Track) (l : Sel) (ty : Bytes) (h : ∀ t ∈ m, t.bps = 0) (v : Bytes) (hv : v ∈ sMaxBps) (i : Nat) : find m l ty v i = false := by
  have hr : find m l ty v = apply m l ty .maxBps := by
    have hs : Shape (v.map lower) ∧ rule ty (v.map lower) = .maxBps := by
      simp only [sMaxBps, List.mem_cons, List.not_mem_nil, or_false] at hv
      rcases hv with rfl | rfl | rfl <;> exact ⟨⟨⟨98, by decide, by decide, by decide⟩, by decide, by decide, by decide, by decide⟩, rfl⟩
    rw [pick_shape hs.1, hs.2]
  rw [hr]
  show ofTracks (largest (·.bps) (among m l ty) none 0).toList i = false
  rcases largest_spec (·.bps) (among m l ty) none 0 with ⟨h1, _⟩ | ⟨t, ht, _, h2, _⟩
  · rw [h1]
    rfl
  · have := h t (among_sub ht)
    omega

/-- C82 fails for bit rates from 4096 mbps on: they are cut to 32 bits. "<4097mbps" means less than 1 mbps. -/
theorem C82_overflow_fails : ∃ (m : List Track) (l : Sel), (∀ t ∈ m, Sane t ∧ t.bps * 8 < 4097 * 1048576) ∧ m ≠ [] ∧
    ∀ i, find m l sVideo [60, 52, 48, 57, 55, 109, 98, 112, 115] i = false := by
  refine ⟨[trk 0 sVideo sH264 1000000 640 360], fun _ => true, ?_, by simp, ?_⟩
  · intro t ht
    simp only [List.mem_singleton] at ht
    subst ht
    exact ⟨⟨by decide, by decide⟩, by decide⟩
  · intro i
    have : find [trk 0 sVideo sH264 1000000 640 360] (fun _ => true) sVideo [60, 52, 48, 57, 55, 109, 98, 112, 115] = ofTracks [] := by
      rw [pick_shape ⟨⟨60, by decide, by decide, by decide⟩, by decide, by decide, by decide, by decide⟩]
      have hr : rule sVideo (([60, 52, 48, 57, 55, 109, 98, 112, 115] : Bytes).map lower) = .bpsUnder 131072 := by decide +kernel
      rw [hr]
      rfl
    rw [this]
    rfl

/-! ## Not empty -/

private def sample : List Track := [trk 0 sVideo sH264 300000 1920 1080, trk 1 sVideo sH264 100000 1280 720, trk 2 sAudio sAAC 16000 0 0]

example : ∀ t ∈ sample, Sane t := by
  intro t ht
  simp only [sample, List.mem_cons, List.not_mem_nil, or_false] at ht
  rcases ht with rfl | rfl | rfl <;> exact ⟨by decide, by decide⟩

/-- "maxbps", "<1mbps", "~1000x700", "h264,!1920x1080", "!maxbps" and "aac". -/
example : ([[109, 97, 120, 98, 112, 115], [60, 49, 109, 98, 112, 115], [126, 49, 48, 48, 48, 120, 55, 48, 48],
    [72, 50, 54, 52, 44, 33, 49, 57, 50, 48, 120, 49, 48, 56, 48], [33, 109, 97, 120, 98, 112, 115], [97, 97, 99]] : List Bytes).map
    (fun v => [0, 1, 2].map (find sample (fun _ => true) sVideo v)) =
    [[true, false, false], [false, true, false], [false, true, false], [false, true, false], [false, true, false], [false, false, false]] := by decide +kernel

example : Says sVideo [60, 49, 109, 98, 112, 115] (.every fun t => t.bps < 1 * 1048576 / 8) := by
  have := Says.under (ty := sVideo) 1 .mbps (by decide) (by decide)
  rw [show (60 :: (decimal 1 ++ RateUnit.text .mbps) : Bytes) = [60, 49, 109, 98, 112, 115] from by decide +kernel] at this
  exact this

/-- "h264" and "en" are words. -/
example : Word [104, 50, 54, 52] ∧ Word [101, 110] ∧ twoToThree [101, 110] = [101, 110, 103] :=
  ⟨⟨⟨104, [50, 54, 52], rfl, by decide +kernel, by decide +kernel, by intro d h; cases h⟩, by decide +kernel, by decide +kernel⟩,
    ⟨⟨101, [110], rfl, by decide +kernel, by decide +kernel, by intro d h; cases h⟩, by decide +kernel, by decide +kernel⟩, by decide +kernel⟩

end Verif.Select
