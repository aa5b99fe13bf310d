import Verif.Flv.Stream

/-!
# Media messages of any content (C87)
-/
namespace Verif.Flv

theorem get_lt {d : Bytes} {i : Nat} (h : i < d.length) : ∃ x, d[i]? = some x := ⟨d[i], List.getElem?_eq_getElem h⟩

theorem four_lt {d : Bytes} {i : Nat} (h : i + 4 ≤ d.length) : ∃ cc, four d i = some cc := ⟨_, if_pos h⟩

theorem receive_some {d : Bytes} (hm : mediaData d ≠ none) (h : mediaData d ≠ some [] → trackID d ≠ none ∧ codecOf d ≠ none ∧ needsInit d ≠ none ∧ isInit d ≠ none ∧
    tagTime d ≠ none ∧ offset d ≠ none ∧ isKeyframe d ≠ none) : receive d ≠ none := by
  obtain ⟨m, hm⟩ := Option.ne_none_iff_exists'.mp hm
  by_cases he : m = []
  · simp [receive, hm, he]
  · obtain ⟨h1, h2, h3, h4, h5, h6, h7⟩ := h (by rw [hm]; simpa using he)
    obtain ⟨a1, h1⟩ := Option.ne_none_iff_exists'.mp h1
    obtain ⟨a2, h2⟩ := Option.ne_none_iff_exists'.mp h2
    obtain ⟨a3, h3⟩ := Option.ne_none_iff_exists'.mp h3
    obtain ⟨a4, h4⟩ := Option.ne_none_iff_exists'.mp h4
    obtain ⟨a5, h5⟩ := Option.ne_none_iff_exists'.mp h5
    obtain ⟨a6, h6⟩ := Option.ne_none_iff_exists'.mp h6
    obtain ⟨a7, h7⟩ := Option.ne_none_iff_exists'.mp h7
    simp only [receive, hm, h1, h2, h3, h4, h5, h6, h7, Option.bind_eq_bind, Option.bind_some, Option.pure_def, if_neg he]
    split <;> simp

/-- Messages with room for all that is looked at. -/
theorem long_some {d : Bytes} (hl : 21 ≤ d.length) {ty b : UInt8} (h0 : d[0]? = some ty) (h11 : d[11]? = some b) (hty : ty = 8 ∨ ty = 9)
    (hb : b.toNat < 128 ∨ b.toNat % 16 ≠ 7) : receive d ≠ none := by
  obtain ⟨x12, h12⟩ := get_lt (d := d) (i := 12) (by omega)
  obtain ⟨x13, h13⟩ := get_lt (d := d) (i := 13) (by omega)
  obtain ⟨x14, h14⟩ := get_lt (d := d) (i := 14) (by omega)
  obtain ⟨x15, h15⟩ := get_lt (d := d) (i := 15) (by omega)
  obtain ⟨x17, h17⟩ := get_lt (d := d) (i := 17) (by omega)
  obtain ⟨x18, h18⟩ := get_lt (d := d) (i := 18) (by omega)
  obtain ⟨x19, h19⟩ := get_lt (d := d) (i := 19) (by omega)
  obtain ⟨x20, h20⟩ := get_lt (d := d) (i := 20) (by omega)
  obtain ⟨x4, h4⟩ := get_lt (d := d) (i := 4) (by omega)
  obtain ⟨x5, h5⟩ := get_lt (d := d) (i := 5) (by omega)
  obtain ⟨x6, h6⟩ := get_lt (d := d) (i := 6) (by omega)
  obtain ⟨x7, h7⟩ := get_lt (d := d) (i := 7) (by omega)
  obtain ⟨c12, g12⟩ := four_lt (d := d) (i := 12) (by omega)
  obtain ⟨c13, g13⟩ := four_lt (d := d) (i := 13) (by omega)
  have hs : b.toNat ≥ 128 → skipModEx d 11 = some 11 := fun h => skip_plain h11 (by omega)
  have hs9 : b.toNat / 16 = 9 → skipModEx d 11 = some 11 := fun h => skip_plain h11 (by omega)
  have hoff : dataOffset d ≠ none := by
    by_cases h128 : b.toNat ≥ 128
    · simp only [dataOffset, h0, h11, h12, g12, g13, hs h128, Option.bind_eq_bind, Option.bind_some, Option.pure_def]
      repeat' split
      all_goals simp
    · simp only [dataOffset, h0, h11, Option.bind_eq_bind, Option.bind_some, Option.pure_def]
      rw [if_neg (by omega)]
      repeat' split
      all_goals first | (simp; done) | (exfalso; omega)
  obtain ⟨o, ho⟩ := Option.ne_none_iff_exists'.mp hoff
  refine receive_some ?_ fun _ => ⟨?_, ?_, ?_, ?_, ?_, ?_, ?_⟩
  · simp only [mediaData, ho, Option.bind_eq_bind, Option.bind_some, Option.pure_def]; split <;> simp
  · simp only [trackID, h0, h11, Option.bind_eq_bind, Option.bind_some, Option.pure_def]
    repeat' split
    all_goals first | simp only [hs9 (by assumption), h11, h12, h17, Option.bind_some] | simp only [hs (by assumption), h11, h12, h17, Option.bind_some] | skip
    all_goals repeat' split
    all_goals first | (simp; done) | (exfalso; rcases hty with h | h <;> subst h <;> simp_all; done)
  · simp only [codecOf, h0, Option.bind_eq_bind, Option.bind_some]
    split
    · simp only [audioCodec, h11, Option.bind_eq_bind, Option.bind_some, Option.pure_def]
      split
      all_goals first | simp only [hs9 (by assumption), h11, h12, g12, g13, Option.bind_some] | skip
      all_goals repeat' split
      all_goals simp
    · simp only [videoCodec, h11, Option.bind_eq_bind, Option.bind_some, Option.pure_def]
      split
      · simp only [hs (by assumption), h11, h12, g12, g13, Option.bind_some]
        repeat' split
        all_goals simp
      · simp
  · simp only [needsInit, h0, h11, Option.bind_eq_bind, Option.bind_some, Option.pure_def]
    repeat' split
    all_goals first | simp only [hs9 (by assumption), h11, h12, g12, g13, Option.bind_some] | simp only [hs (by assumption), h11, h12, g12, g13, Option.bind_some] | skip
    all_goals repeat' split
    all_goals simp
  · simp only [isInit, h0, h11, h12, Option.bind_eq_bind, Option.bind_some, Option.pure_def]
    repeat' split
    all_goals first | simp only [hs9 (by assumption), h11, h12, Option.bind_some] | simp only [hs (by assumption), h11, h12, Option.bind_some] | skip
    all_goals repeat' split
    all_goals simp
  · simp [tagTime, h4, h5, h6, h7]
  · simp only [offset, h11, Option.bind_eq_bind, Option.bind_some, Option.pure_def]
    repeat' split
    all_goals first | simp only [hs (by assumption), h11, h12, g12, g13, Option.bind_some] | skip
    all_goals repeat' split
    all_goals simp [signed24, h13, h14, h15, h17, h18, h19, h20]
  · simp only [isKeyframe, h0, h11, Option.bind_eq_bind, Option.bind_some, Option.pure_def]; split <;> simp

theorem off (b : UInt8) (d : Bytes) (n : Nat) (h11 : d[11]? = some b) (hlen : d.length = 16 + n) {x12 x13 x14 x15 : UInt8} (h12 : d[12]? = some x12)
    (h13 : d[13]? = some x13) (h14 : d[14]? = some x14) (h15 : d[15]? = some x15) {c12 : Bytes} (g12 : four d 12 = some c12)
    (hs : b.toNat ≥ 128 → skipModEx d 11 = some 11) (g13 : x12 ≠ 0 → ∃ c13, four d 13 = some c13) (e13 : ∀ cc, four d 13 = some cc → ¬ (cc = ccAVC ∨ cc = ccHEVC))
    (f12 : ∀ cc, four d 12 = some cc → (cc = ccAVC ∨ cc = ccHEVC) → n = 4) : offset d ≠ none := by
  by_cases h128 : b.toNat ≥ 128
  · simp only [offset, h11, h12, hs h128, Option.bind_eq_bind, Option.bind_some, Option.pure_def]
    rw [if_pos h128]
    split
    · simp
    split
    · split
      · simp
      · rename_i hq
        obtain ⟨c13, g⟩ := g13 (by rintro rfl; simp at hq)
        rw [g, Option.bind_some, if_neg (e13 _ g)]; simp
    · rw [g12, Option.bind_some]
      split
      · rename_i hc
        have := f12 _ g12 hc
        obtain ⟨x17, h17⟩ := get_lt (d := d) (i := 17) (by omega)
        obtain ⟨x18, h18⟩ := get_lt (d := d) (i := 18) (by omega)
        obtain ⟨x19, h19⟩ := get_lt (d := d) (i := 19) (by omega)
        simp [signed24, h17, h18, h19]
      · simp
  · simp only [offset, h11, Option.bind_eq_bind, Option.bind_some, Option.pure_def]
    rw [if_neg h128]
    split
    · simp
    · simp [signed24, h13, h14, h15]

/-- Short messages. -/
theorem short_some {ty : Nat} (hty : ty = 8 ∨ ty = 9) {time : Nat} {sid body : Bytes} (hsid : sid.length = 3) (hl : body.length < 6)
    (hb : ∀ b ∈ body.head?, b.toNat < 128 ∨ b.toNat % 16 ≠ 7) : receive (tagOf ty time sid body) ≠ none := by
  obtain ⟨s1, s2, s3, rfl⟩ : ∃ a b c, sid = [a, b, c] := by
    match sid, hsid with
    | [a, b, c], _ => exact ⟨a, b, c, rfl⟩
  have key : ∀ (b : UInt8) (r : Bytes), body = b :: r → r.length < 5 → receive (tagOf ty time [s1, s2, s3] body) ≠ none := by
    intro b r hbr hr
    subst hbr
    have hb := hb b rfl
    have h11 := first_byte (sid := [s1, s2, s3]) (time := time) rfl ty b r
    have h0 : (tagOf ty time [s1, s2, s3] (b :: r))[0]? = some (UInt8.ofNat ty) := rfl
    have hlen : (tagOf ty time [s1, s2, s3] (b :: r)).length = 16 + r.length := by rw [tag_length rfl]; simp; omega
    have e12 : r = [] → (tagOf ty time [s1, s2, s3] (b :: r))[12]? = some 0 := by rintro rfl; simp [tagOf, be24, timeBytes, be32]
    have e13 : ∀ cc, four (tagOf ty time [s1, s2, s3] (b :: r)) 13 = some cc → ¬ (cc = ccAVC ∨ cc = ccHEVC) := by
      intro cc hcc
      match r, hr with
      | [], _ => simp [four, tagOf, be24, timeBytes, be32] at hcc
      | [x1], _ => simp [four, tagOf, be24, timeBytes, be32] at hcc; subst hcc; simp [ccAVC, ccHEVC]
      | [x1, x2], _ => simp [four, tagOf, be24, timeBytes, be32] at hcc; subst hcc; simp [ccAVC, ccHEVC]
      | [x1, x2, x3], _ => simp [four, tagOf, be24, timeBytes, be32] at hcc; subst hcc; simp [ccAVC, ccHEVC]
      | [x1, x2, x3, x4], _ => simp [four, tagOf, be24, timeBytes, be32] at hcc; subst hcc; simp [ccAVC, ccHEVC]
    have f12 : ∀ cc, four (tagOf ty time [s1, s2, s3] (b :: r)) 12 = some cc → (cc = ccAVC ∨ cc = ccHEVC) → r.length = 4 := by
      intro cc hcc
      match r, hr with
      | [], _ => simp [four, tagOf, be24, timeBytes, be32] at hcc; subst hcc; simp [ccAVC, ccHEVC]
      | [x1], _ => simp [four, tagOf, be24, timeBytes, be32] at hcc; subst hcc; simp [ccAVC, ccHEVC]
      | [x1, x2], _ => simp [four, tagOf, be24, timeBytes, be32] at hcc; subst hcc; simp [ccAVC, ccHEVC]
      | [x1, x2, x3], _ => simp [four, tagOf, be24, timeBytes, be32] at hcc; subst hcc; simp [ccAVC, ccHEVC]
      | [x1, x2, x3, x4], _ => intro _; rfl
    have htime : tagTime (tagOf ty time [s1, s2, s3] (b :: r)) ≠ none := by simp [tagTime, tagOf, be24, timeBytes]
    have hne : r ≠ [] → 1 ≤ r.length := by intro h; cases r; exact absurd rfl h; simp
    generalize tagOf ty time [s1, s2, s3] (b :: r) = d at *
    have hs : b.toNat ≥ 128 → skipModEx d 11 = some 11 := fun h => skip_plain h11 (by omega)
    have hs9 : b.toNat / 16 = 9 → skipModEx d 11 = some 11 := fun h => skip_plain h11 (by omega)
    obtain ⟨x12, h12⟩ := get_lt (d := d) (i := 12) (by omega)
    obtain ⟨x13, h13⟩ := get_lt (d := d) (i := 13) (by omega)
    obtain ⟨x14, h14⟩ := get_lt (d := d) (i := 14) (by omega)
    obtain ⟨x15, h15⟩ := get_lt (d := d) (i := 15) (by omega)
    obtain ⟨c12, g12⟩ := four_lt (d := d) (i := 12) (by omega)
    have h00 : r = [] → x12 = 0 := by intro h; have := e12 h; rw [h12] at this; exact Option.some.inj this
    have g13 : x12 ≠ 0 → ∃ c13, four d 13 = some c13 := fun h => four_lt (by have := hne (fun h' => h (h00 h')); omega)
    have sub : ∀ o, dataOffset d = some o → mediaData d ≠ some [] → o < 16 := by
      intro o ho hm
      simp only [mediaData, ho, Option.bind_eq_bind, Option.bind_some, Option.pure_def] at hm
      by_cases h : o < 16
      · exact h
      · exfalso; apply hm
        split
        · rfl
        · rw [List.take_eq_nil_iff.mpr (Or.inl (by omega))]
    rcases hty with rfl | rfl
    · -- audio
      rw [show UInt8.ofNat 8 = 8 from rfl] at h0
      have hdo : ∃ o, dataOffset d = some o ∧ (b.toNat / 16 = 9 → 16 ≤ o) := by
        by_cases h9 : b.toNat / 16 = 9
        · simp only [dataOffset, h0, h11, h12, hs9 h9, Option.bind_eq_bind, Option.bind_some, Option.pure_def]
          rw [if_neg (by simp), if_neg (by simp [h9]), if_pos ⟨trivial, h9⟩]
          repeat' split
          all_goals exact ⟨_, rfl, fun _ => by omega⟩
        · refine ⟨if b.toNat / 16 = 10 then 13 else 12, ?_, fun h => absurd h h9⟩
          simp only [dataOffset, h0, h11, Option.bind_eq_bind, Option.bind_some, Option.pure_def]
          rw [if_neg (by simp)]
          by_cases h10 : b.toNat / 16 = 10
          · rw [if_pos ⟨trivial, h10⟩, if_pos h10]
          · rw [if_neg (by simp [h10]), if_neg (by simp [h9]), if_neg (by simp), if_neg h10]
      obtain ⟨o, ho, ho9⟩ := hdo
      refine receive_some ?_ fun hm => ?_
      · simp only [mediaData, ho, Option.bind_eq_bind, Option.bind_some, Option.pure_def]; split <;> simp
      have h9 : b.toNat / 16 ≠ 9 := fun h => by have := ho9 h; have := sub o ho hm; omega
      refine ⟨?_, ?_, ?_, ?_, htime, ?_, ?_⟩
      · rw [a_track h0 h11 h9]; simp
      · simp only [codecOf, h0, Option.bind_eq_bind, Option.bind_some, if_true, audioCodec, h11, Option.pure_def]
        split
        all_goals first | (simp; done) | (exfalso; omega)
      · simp only [needsInit, h0, h11, Option.bind_eq_bind, Option.bind_some, Option.pure_def]
        rw [if_neg (by decide), if_pos trivial]
        repeat' split
        all_goals first | (simp; done) | (exfalso; omega)
      · simp only [isInit, h0, h11, h12, Option.bind_eq_bind, Option.bind_some, Option.pure_def]
        rw [if_neg (by decide), if_pos trivial]
        repeat' split
        all_goals first | (simp; done) | (exfalso; omega)
      · exact off b d r.length h11 hlen h12 h13 h14 h15 g12 hs g13 e13 f12
      · simp [isKeyframe, h0]
    · rw [show UInt8.ofNat 9 = 9 from rfl] at h0
      have hdo : ∃ o, dataOffset d = some o ∧ (o < 16 → b.toNat < 128 ∨ b.toNat % 16 ≥ 8 ∨ (b.toNat % 16 = 6 ∧ x12.toNat / 16 = 2)) := by
        by_cases h128 : b.toNat ≥ 128
        · simp only [dataOffset, h0, h11, h12, hs h128, Option.bind_eq_bind, Option.bind_some, Option.pure_def]
          rw [if_pos ⟨trivial, h128⟩]
          split
          case h_6 h6 =>
            by_cases hq : x12.toNat / 16 = 2
            · exact ⟨12, by rw [if_pos hq], fun _ => Or.inr (Or.inr ⟨h6, hq⟩)⟩
            · rw [if_neg hq]
              by_cases hq1 : x12.toNat % 16 = 1
              · obtain ⟨c13, g13⟩ := g13 (by rintro rfl; simp at hq1)
                rw [if_pos hq1, g13, Option.bind_some]
                split
                all_goals exact ⟨_, rfl, by omega⟩
              · rw [if_neg hq1]; exact ⟨_, rfl, by omega⟩
          case h_7 h7 =>
            rw [g12, Option.bind_some]
            split
            all_goals exact ⟨_, rfl, by omega⟩
          case h_8 => simp only [imp_false] at *; exact ⟨_, rfl, fun _ => by omega⟩
          all_goals exact ⟨_, rfl, by omega⟩
        · exact ⟨_, v_dataOffset h0 h11 h128, fun _ => Or.inl (by omega)⟩
      obtain ⟨o, ho, ho9⟩ := hdo
      refine receive_some ?_ fun hm => ?_
      · simp only [mediaData, ho, Option.bind_eq_bind, Option.bind_some, Option.pure_def]; split <;> simp
      have hc := ho9 (sub o ho hm)
      refine ⟨?_, ?_, ?_, ?_, htime, ?_, ?_⟩
      · by_cases h128 : b.toNat ≥ 128
        · simp only [trackID, h0, h11, h12, hs h128, Option.bind_eq_bind, Option.bind_some, Option.pure_def]
          rw [if_neg (by decide), if_pos trivial, if_pos h128]
          split
          · rw [if_pos (by omega)]; simp
          · simp
        · rw [v_track h0 h11 h128]; simp
      · simp only [codecOf, h0, Option.bind_eq_bind, Option.bind_some, videoCodec, h11, Option.pure_def]
        rw [if_neg (by decide)]
        split
        · simp only [hs (by assumption), h11, h12, g12, Option.bind_some]
          split
          · rw [if_pos (by omega)]; simp
          · split <;> simp
        · simp
      · by_cases h128 : b.toNat ≥ 128
        · simp only [needsInit, h0, h11, h12, hs h128, Option.bind_eq_bind, Option.bind_some, Option.pure_def]
          rw [if_pos trivial]
          repeat' split
          all_goals first | (simp; done) | (exfalso; omega)
        · rw [v_needs h0 h11 h128]; simp
      · simp only [isInit, h0, h11, h12, Option.bind_eq_bind, Option.bind_some, Option.pure_def]
        rw [if_pos trivial]
        split
        · simp only [hs (by assumption), h11, h12, Option.bind_some]
          repeat' split
          all_goals simp
        · repeat' split
          all_goals simp
      · exact off b d r.length h11 hlen h12 h13 h14 h15 g12 hs g13 e13 f12
      · rw [v_keyb h0 h11]; simp
  match body, hl with
  | [], _ => rcases hty with rfl | rfl <;> simp [receive, mediaData, dataOffset, tagOf, be24, timeBytes, be32]
  | b :: r, hl => exact key b r rfl (by simp at hl; omega)

/-- C87: whatever a media message contains, nothing outside of it is looked at. Missing: messages that begin with ModEx parts, see `C87_fails`;
well-formed ones are in C85. -/
theorem C87_partial {ty : Nat} (hty : ty = 8 ∨ ty = 9) {time : Nat} {sid body : Bytes} (hsid : sid.length = 3)
    (hb : ∀ b ∈ body.head?, b.toNat < 128 ∨ b.toNat % 16 ≠ 7) : receive (tagOf ty time sid body) ≠ none := by
  by_cases hl : body.length < 6
  · exact short_some hty hsid hl hb
  · cases body with
    | nil => simp at hl
    | cons b r =>
      refine long_some (by rw [tag_length hsid]; simp at hl ⊢; omega) (tag_zero _ _ _ _) (first_byte hsid ty b r) ?_ (hb b rfl)
      rcases hty with rfl | rfl
      · exact Or.inl rfl
      · exact Or.inr rfl

/-- C87 fails: a message of two bytes, the size of a ModEx part behind the first of which is larger than the message, makes the server read behind it
(flv_tag.cpp 187-199), and so does an AAC message with 16 kHz. -/
theorem C87_fails : receive (tagOf 9 0 [0, 0, 0] [0x97, 200]) = none ∧ receive (tagOf 8 0 [0, 0, 0] [0xA7, 200, 0, 0, 0]) = none := by decide +kernel

end Verif.Flv
