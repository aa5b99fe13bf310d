import Verif.Flv.Read

/-!
# Media messages of RTMP (C85)
-/
namespace Verif.Flv
open Spec

/-- The number of the track of a message. -/
def number (base one : Nat) : Option Nat → Nat
  | none => one
  | some i => base + i

section
variable {sid : Bytes} {time : Nat}

/-- All but the offset of a coded frame of an enhanced video message. -/
theorem video_parts (hsid : sid.length = 3) (ht : time < 2 ^ 32) {ft : Nat} (hft : FrameType ft) {mods : List (Nat × Bytes)} (hm : GoodMods mods)
    {multi : Option Nat} (hmu : ∀ i, multi = some i → i < 256) {name : String} {cc : Bytes} {ho : Bool} (hv : VideoCode name cc ho)
    {pt : Nat} {off : Int} {rest data : Bytes} (hc : Coded ho pt off rest data) (hne : data ≠ []) {off' : Int}
    (hoff : offset (tagOf 9 time sid (Spec.video ft mods multi cc pt rest)) = some off') :
    receive (tagOf 9 time sid (Spec.video ft mods multi cc pt rest)) =
      some (.frame ⟨number 400 1 multi, name, time, off', decide (ft = 1), data⟩) := by
  obtain ⟨hf1, hf4⟩ := hft
  obtain ⟨n1, n2, n3⟩ := videoName_ok hv
  have hpt : pt = 1 ∨ pt = 3 := by cases hc <;> simp
  have hk : decide ((8 + ft) % 8 = 1) = decide (ft = 1) := by apply decide_eq_decide.mpr; omega
  cases multi with
  | none =>
    obtain ⟨Q, b, c, T, hT, h⟩ := enh hsid 9 time (8 + ft) pt (by omega) (by omega) (by omega) mods hm (cc ++ rest)
    change receive (tagOf 9 time sid (enhanced (8 + ft) pt mods ++ (cc ++ rest))) = _
    change offset (tagOf 9 time sid (enhanced (8 + ft) pt mods ++ (cc ++ rest))) = _ at hoff
    have h9 : UInt8.ofNat 9 = 9 := rfl
    rw [h9] at h
    have htime := tag_time 9 time sid (enhanced (8 + ft) pt mods ++ (cc ++ rest)) ht
    generalize hd : tagOf 9 time sid (enhanced (8 + ft) pt mods ++ (cc ++ rest)) = d at *
    rw [List.append_assoc] at h
    refine receive_frame (ni := true) (ii := false) ?_ hne (v1_track h (by omega) (by omega)) ((codecOf_video h.zero).trans
      (v1_codec hv h (by omega) (by omega) (by omega))) (v1_needs h (by omega) (by omega) (by omega)) ?_ (by simp) htime hoff
      ((v_key h).trans (by rw [hk]))
    · cases hc with
      | withOffset hho o hfit =>
        have ho8 := v1_off_coded h (by omega) n2
        rw [if_pos (n3.mpr hho)] at ho8
        refine data_at d (Q ++ b :: (cc ++ si24 off)) data T (by rw [h.eq]; simp) hT ?_
        rw [ho8]; simp [n2, si24_length]
      | noOffset hho =>
        have ho8 := v1_off_coded h (by omega) n2
        rw [if_neg (fun hh => by rw [n3.mp hh] at hho; cases hho)] at ho8
        refine data_at d (Q ++ b :: cc) rest T (by rw [h.eq]; simp) hT ?_
        rw [ho8]; simp [n2]
      | zero =>
        refine data_at d (Q ++ b :: cc) rest T (by rw [h.eq]; simp) hT ?_
        rw [v1_off_plain h (by omega) (by omega)]; simp [n2]
    · rw [v1_isInit h (by omega) (by omega)]
      rcases hpt with e | e <;> rw [e] <;> rfl
  | some i =>
    have hi := hmu i rfl
    obtain ⟨Q, b, c, T, hT, h⟩ := enh hsid 9 time (8 + ft) 6 (by omega) (by omega) (by omega) mods hm
      (UInt8.ofNat pt :: (cc ++ UInt8.ofNat i :: rest))
    change receive (tagOf 9 time sid (enhanced (8 + ft) 6 mods ++ (UInt8.ofNat pt :: (cc ++ UInt8.ofNat i :: rest)))) = _
    change offset (tagOf 9 time sid (enhanced (8 + ft) 6 mods ++ (UInt8.ofNat pt :: (cc ++ UInt8.ofNat i :: rest)))) = _ at hoff
    have h9 : UInt8.ofNat 9 = 9 := rfl
    rw [h9] at h
    have htime := tag_time 9 time sid (enhanced (8 + ft) 6 mods ++ (UInt8.ofNat pt :: (cc ++ UInt8.ofNat i :: rest))) ht
    generalize hd : tagOf 9 time sid (enhanced (8 + ft) 6 mods ++ (UInt8.ofNat pt :: (cc ++ UInt8.ofNat i :: rest))) = d at *
    rw [List.cons_append, List.append_assoc] at h
    have hq0 : (UInt8.ofNat pt).toNat / 16 = 0 := by rw [toNat_ofNat]; omega
    have hq : (UInt8.ofNat pt).toNat % 16 = pt := by rw [toNat_ofNat]; omega
    refine receive_frame (ni := true) (ii := false) ?_ hne ?_ ((codecOf_video h.zero).trans
      (vm_codec hv h (by omega) hq0 (by omega))) (vm_needs h (by omega) hq0 (by omega)) ?_ (by simp) htime hoff
      ((v_key h).trans (by rw [hk]))
    · have hoo := vm_off h n2 (by omega) hq0
      rw [hq] at hoo
      cases hc with
      | withOffset hho o hfit =>
        rw [if_pos ⟨rfl, n3.mpr hho⟩] at hoo
        refine data_at d (Q ++ b :: UInt8.ofNat 1 :: (cc ++ UInt8.ofNat i :: si24 off)) data T (by rw [h.eq]; simp) hT ?_
        rw [hoo]; simp [n2, si24_length]
      | noOffset hho =>
        rw [if_neg (fun hh => by rw [n3.mp hh.2] at hho; cases hho)] at hoo
        refine data_at d (Q ++ b :: UInt8.ofNat 1 :: (cc ++ [UInt8.ofNat i])) rest T (by rw [h.eq]; simp) hT ?_
        rw [hoo]; simp [n2]
      | zero =>
        rw [if_neg (fun hh => by omega)] at hoo
        refine data_at d (Q ++ b :: UInt8.ofNat 3 :: (cc ++ [UInt8.ofNat i])) rest T (by rw [h.eq]; simp) hT ?_
        rw [hoo]; simp [n2]
    · rw [List.cons_append] at h
      rw [vm_track h n2 (by omega) hq0, toNat_ofNat, Nat.mod_eq_of_lt hi]; rfl
    · rw [vm_isInit h (by omega), hq]
      rcases hpt with e | e <;> rw [e] <;> rfl

/-- C85 (enhanced video): a coded frame in an enhanced video message of any sender, behind any ModEx parts, arrives on its track with its
codec, time, offset, key flag and data. Missing: frames with an offset (packet type 1 of AVC and HEVC) in messages without a track
number, see `C85_offset_fails`. -/
theorem C85_video_partial (hsid : sid.length = 3) (ht : time < 2 ^ 32) {ft : Nat} (hft : FrameType ft) {mods : List (Nat × Bytes)}
    (hm : GoodMods mods) {multi : Option Nat} (hmu : ∀ i, multi = some i → i < 256) {name : String} {cc : Bytes} {ho : Bool}
    (hv : VideoCode name cc ho) {pt : Nat} {off : Int} {rest data : Bytes} (hc : Coded ho pt off rest data) (hne : data ≠ [])
    (hx : multi ≠ none ∨ pt = 3 ∨ ho = false) :
    receive (tagOf 9 time sid (Spec.video ft mods multi cc pt rest)) =
      some (.frame ⟨number 400 1 multi, name, time, off, decide (ft = 1), data⟩) := by
  refine video_parts hsid ht hft hm hmu hv hc hne ?_
  obtain ⟨hf1, hf4⟩ := hft
  obtain ⟨n1, n2, n3⟩ := videoName_ok hv
  have hpt : pt = 1 ∨ pt = 3 := by cases hc <;> simp
  cases multi with
  | none =>
    obtain ⟨Q, b, c, T, hT, h⟩ := enh hsid 9 time (8 + ft) pt (by omega) (by omega) (by omega) mods hm (cc ++ rest)
    rw [List.append_assoc] at h
    cases hc with
    | withOffset hho o hfit =>
      rcases hx with hx | hx | hx
      · exact absurd rfl hx
      · cases hx
      · rw [hho] at hx; cases hx
    | noOffset hho => exact offset_none h (by omega) n2 (fun hh => by rw [n3.mp hh] at hho; cases hho)
    | zero => exact offset_other h (by omega) (by omega) (by omega)
  | some i =>
    obtain ⟨Q, b, c, T, hT, h⟩ := enh hsid 9 time (8 + ft) 6 (by omega) (by omega) (by omega) mods hm
      (UInt8.ofNat pt :: (cc ++ UInt8.ofNat i :: rest))
    rw [List.cons_append, List.append_assoc, List.cons_append] at h
    have hq : (UInt8.ofNat pt).toNat % 16 = pt := by rw [toNat_ofNat]; omega
    cases hc with
    | withOffset hho o hfit =>
      exact vm_offset h n2 (by omega) (by omega) (n3.mpr hho) off hfit (data ++ T) (by simp)
    | noOffset hho => exact vm_offset_none h n2 (by omega) (Or.inr fun hh => by rw [n3.mp hh] at hho; cases hho)
    | zero => exact vm_offset_none h n2 (by omega) (Or.inl (by omega))

/-- C85: in the missing case all but the offset is right. -/
theorem C85_video_rest_partial (hsid : sid.length = 3) (ht : time < 2 ^ 32) {ft : Nat} (hft : FrameType ft) {mods : List (Nat × Bytes)}
    (hm : GoodMods mods) {name : String} {cc : Bytes} (hv : VideoCode name cc true) {off : Int} (hfit : Fits24 off) {data : Bytes}
    (hne : data ≠ []) :
    ∃ off', receive (tagOf 9 time sid (Spec.video ft mods none cc 1 (si24 off ++ data))) =
      some (.frame ⟨1, name, time, off', decide (ft = 1), data⟩) := by
  obtain ⟨n1, n2, n3⟩ := videoName_ok hv
  suffices h : ∃ o, offset (tagOf 9 time sid (Spec.video ft mods none cc 1 (si24 off ++ data))) = some o by
    obtain ⟨o, ho⟩ := h
    exact ⟨o, video_parts hsid ht hft hm (by simp) hv (Coded.withOffset rfl off hfit data) hne ho⟩
  obtain ⟨hf1, hf4⟩ := hft
  obtain ⟨Q, b, c, T, hT, h⟩ := enh hsid 9 time (8 + ft) 1 (by omega) (by omega) (by omega) mods hm (cc ++ (si24 off ++ data))
  change ∃ o, offset (tagOf 9 time sid (enhanced (8 + ft) 1 mods ++ (cc ++ (si24 off ++ data)))) = some o
  generalize hd : tagOf 9 time sid (enhanced (8 + ft) 1 mods ++ (cc ++ (si24 off ++ data))) = d at *
  rw [List.append_assoc] at h
  have hcc := h.hi
  have hb := h.top
  have hl : Q.length + 13 ≤ d.length := by
    have := List.length_pos_iff.mpr hne
    rw [h.eq]; simp [n2, si24_length, hT]; omega
  have g : ∀ k, k < d.length → ∃ x, d[k]? = some x := fun k hk => ⟨d[k], List.getElem?_eq_getElem hk⟩
  obtain ⟨x, hx⟩ := g (Q.length + 6) (by omega)
  obtain ⟨y, hy⟩ := g (Q.length + 6 + 1) (by omega)
  obtain ⟨z, hz⟩ := g (Q.length + 6 + 2) (by omega)
  simp only [offset, h.first, h.skip, h.at, Option.bind_eq_bind, Option.bind_some, Option.pure_def]
  rw [if_pos (by omega), if_neg (by omega), if_neg (by omega), h.four [] cc _ rfl n2 1 rfl]
  simp only [Option.bind_some]
  rw [if_pos (n3.mpr rfl)]
  simp only [signed24, hx, hy, hz, Option.bind_eq_bind, Option.bind_some, Option.pure_def]
  exact ⟨_, rfl⟩

/-- C85 fails: an HEVC frame with an offset of 40 ms, sent by the server itself, arrives with one of more than ten seconds: the offset is
read one byte too late (flv_tag.cpp 452). -/
theorem C85_offset_fails : VideoCode "HEVC" ccHEVC true ∧ Fits24 40 ∧ sendVideo "HEVC" none 40 false false [0, 0, 0, 1, 2] = Spec.video 2 [] none ccHEVC 1 (si24 40 ++ [0, 0, 0, 1, 2]) ∧
    receive (tagOf 9 1000 [0, 0, 0] (sendVideo "HEVC" none 40 false false [0, 0, 0, 1, 2])) =
      some (.frame ⟨1, "HEVC", 1000, 10240, false, [0, 0, 0, 1, 2]⟩) := by
  refine ⟨?_, by constructor <;> decide, by decide +kernel, by decide +kernel⟩
  rw [show ccHEVC = "hvc1".toUTF8.toList by decide +kernel]; exact VideoCode.hevc

/-- C85 (enhanced video): the decoder configuration (packet type 0) becomes the init data of its track. -/
theorem C85_video_init (hsid : sid.length = 3) {ft : Nat} (hft : FrameType ft) {mods : List (Nat × Bytes)}
    (hm : GoodMods mods) {multi : Option Nat} (hmu : ∀ i, multi = some i → i < 256) {name : String} {cc : Bytes} {ho : Bool}
    (hv : VideoCode name cc ho) {config : Bytes} (hne : config ≠ []) :
    receive (tagOf 9 time sid (Spec.video ft mods multi cc 0 config)) = some (.init (number 400 1 multi) name config) := by
  obtain ⟨hf1, hf4⟩ := hft
  obtain ⟨n1, n2, n3⟩ := videoName_ok hv
  cases multi with
  | none =>
    obtain ⟨Q, b, c, T, hT, h⟩ := enh hsid 9 time (8 + ft) 0 (by omega) (by omega) (by omega) mods hm (cc ++ config)
    change receive (tagOf 9 time sid (enhanced (8 + ft) 0 mods ++ (cc ++ config))) = _
    have h9 : UInt8.ofNat 9 = 9 := rfl
    rw [h9] at h
    generalize hd : tagOf 9 time sid (enhanced (8 + ft) 0 mods ++ (cc ++ config)) = d at *
    rw [List.append_assoc] at h
    refine receive_init ?_ hne (v1_track h (by omega) (by omega)) ((codecOf_video h.zero).trans
      (v1_codec hv h (by omega) (by omega) (by omega))) (v1_needs h (by omega) (by omega) (by omega)) (v1_isInit h (by omega) (by omega))
    refine data_at d (Q ++ b :: cc) config T (by rw [h.eq]; simp) hT ?_
    rw [v1_off_plain h (by omega) (by omega)]; simp [n2]
  | some i =>
    have hi := hmu i rfl
    obtain ⟨Q, b, c, T, hT, h⟩ := enh hsid 9 time (8 + ft) 6 (by omega) (by omega) (by omega) mods hm
      (UInt8.ofNat 0 :: (cc ++ UInt8.ofNat i :: config))
    change receive (tagOf 9 time sid (enhanced (8 + ft) 6 mods ++ (UInt8.ofNat 0 :: (cc ++ UInt8.ofNat i :: config)))) = _
    have h9 : UInt8.ofNat 9 = 9 := rfl
    rw [h9] at h
    generalize hd : tagOf 9 time sid (enhanced (8 + ft) 6 mods ++ (UInt8.ofNat 0 :: (cc ++ UInt8.ofNat i :: config))) = d at *
    rw [List.cons_append, List.append_assoc] at h
    have hoo := vm_off h n2 (by omega) (by decide)
    rw [if_neg (fun hh => by have := hh.1; revert this; decide)] at hoo
    refine receive_init ?_ hne ?_ ((codecOf_video h.zero).trans
      (vm_codec hv h (by omega) (by decide) (by decide))) (vm_needs h (by omega) (by decide) (by decide)) (vm_isInit h (by omega))
    · refine data_at d (Q ++ b :: UInt8.ofNat 0 :: (cc ++ [UInt8.ofNat i])) config T (by rw [h.eq]; simp) hT ?_
      rw [hoo]; simp [n2]
    · rw [List.cons_append] at h
      rw [vm_track h n2 (by omega) (by decide), toNat_ofNat, Nat.mod_eq_of_lt hi]; rfl

/-- C85 (enhanced audio): coded frames (packet type 1) arrive on their track with codec, time and data, without an offset. -/
theorem C85_audio (hsid : sid.length = 3) (ht : time < 2 ^ 32) {mods : List (Nat × Bytes)} (hm : GoodMods mods) {multi : Option Nat}
    (hmu : ∀ i, multi = some i → i < 256) {name : String} {cc : Bytes} {ni : Bool} (hv : AudioCode name cc ni) {data : Bytes}
    (hne : data ≠ []) :
    receive (tagOf 8 time sid (Spec.audio mods multi cc 1 data)) = some (.frame ⟨number 100 2 multi, name, time, 0, false, data⟩) := by
  obtain ⟨n1, n2, n3, n4⟩ := audioName_ok hv
  have h8 : UInt8.ofNat 8 = 8 := rfl
  cases multi with
  | none =>
    obtain ⟨Q, b, c, T, hT, h⟩ := enh hsid 8 time 9 1 (by omega) (by omega) (by omega) mods hm (cc ++ data)
    change receive (tagOf 8 time sid (enhanced 9 1 mods ++ (cc ++ data))) = _
    rw [h8] at h
    have htime := tag_time 8 time sid (enhanced 9 1 mods ++ (cc ++ data)) ht
    generalize hd : tagOf 8 time sid (enhanced 9 1 mods ++ (cc ++ data)) = d at *
    rw [List.append_assoc] at h
    refine receive_frame (ni := ni) (ii := false) ?_ hne (a1_track h (by omega)) ((codecOf_audio h.zero).trans (a1_codec hv h (by omega)))
      ((a1_needs h n2 (by omega)).trans (by rw [n3])) (a1_isInit h (by omega)) (by simp) htime (offset_none h (by omega) n2 n4) (a_key h.zero)
    refine data_at d (Q ++ b :: cc) data T (by rw [h.eq]; simp) hT ?_
    rw [a1_off h (by omega)]; simp [n2]
  | some i =>
    have hi := hmu i rfl
    obtain ⟨Q, b, c, T, hT, h⟩ := enh hsid 8 time 9 5 (by omega) (by omega) (by omega) mods hm
      (UInt8.ofNat 1 :: (cc ++ UInt8.ofNat i :: data))
    change receive (tagOf 8 time sid (enhanced 9 5 mods ++ (UInt8.ofNat 1 :: (cc ++ UInt8.ofNat i :: data)))) = _
    rw [h8] at h
    have htime := tag_time 8 time sid (enhanced 9 5 mods ++ (UInt8.ofNat 1 :: (cc ++ UInt8.ofNat i :: data))) ht
    generalize hd : tagOf 8 time sid (enhanced 9 5 mods ++ (UInt8.ofNat 1 :: (cc ++ UInt8.ofNat i :: data))) = d at *
    rw [List.cons_append, List.append_assoc] at h
    refine receive_frame (ni := ni) (ii := false) ?_ hne ?_ ((codecOf_audio h.zero).trans (am_codec hv h (by decide)))
      ((am_needs h n2 (by decide)).trans (by rw [n3])) (am_isInit h) (by simp) htime (offset_other h (by omega) (by omega) (by omega))
      (a_key h.zero)
    · refine data_at d (Q ++ b :: UInt8.ofNat 1 :: (cc ++ [UInt8.ofNat i])) data T (by rw [h.eq]; simp) hT ?_
      rw [am_off h (by decide)]; simp [n2]
    · rw [List.cons_append] at h
      rw [am_track h n2 (by decide), toNat_ofNat, Nat.mod_eq_of_lt hi]; rfl

/-- C85 (enhanced audio): the decoder configuration (packet type 0) becomes the init data of its track. -/
theorem C85_audio_init (hsid : sid.length = 3) {mods : List (Nat × Bytes)} (hm : GoodMods mods) {multi : Option Nat}
    (hmu : ∀ i, multi = some i → i < 256) {name : String} {cc : Bytes} (hv : AudioCode name cc true) {config : Bytes}
    (hne : config ≠ []) :
    receive (tagOf 8 time sid (Spec.audio mods multi cc 0 config)) = some (.init (number 100 2 multi) name config) := by
  obtain ⟨n1, n2, n3, n4⟩ := audioName_ok hv
  have h8 : UInt8.ofNat 8 = 8 := rfl
  cases multi with
  | none =>
    obtain ⟨Q, b, c, T, hT, h⟩ := enh hsid 8 time 9 0 (by omega) (by omega) (by omega) mods hm (cc ++ config)
    change receive (tagOf 8 time sid (enhanced 9 0 mods ++ (cc ++ config))) = _
    rw [h8] at h
    generalize hd : tagOf 8 time sid (enhanced 9 0 mods ++ (cc ++ config)) = d at *
    rw [List.append_assoc] at h
    refine receive_init ?_ hne (a1_track h (by omega)) ((codecOf_audio h.zero).trans (a1_codec hv h (by omega)))
      ((a1_needs h n2 (by omega)).trans (by rw [n3])) (a1_isInit h (by omega))
    refine data_at d (Q ++ b :: cc) config T (by rw [h.eq]; simp) hT ?_
    rw [a1_off h (by omega)]; simp [n2]
  | some i =>
    have hi := hmu i rfl
    obtain ⟨Q, b, c, T, hT, h⟩ := enh hsid 8 time 9 5 (by omega) (by omega) (by omega) mods hm
      (UInt8.ofNat 0 :: (cc ++ UInt8.ofNat i :: config))
    change receive (tagOf 8 time sid (enhanced 9 5 mods ++ (UInt8.ofNat 0 :: (cc ++ UInt8.ofNat i :: config)))) = _
    rw [h8] at h
    generalize hd : tagOf 8 time sid (enhanced 9 5 mods ++ (UInt8.ofNat 0 :: (cc ++ UInt8.ofNat i :: config))) = d at *
    rw [List.cons_append, List.append_assoc] at h
    refine receive_init ?_ hne ?_ ((codecOf_audio h.zero).trans (am_codec hv h (by decide)))
      ((am_needs h n2 (by decide)).trans (by rw [n3])) (am_isInit h)
    · refine data_at d (Q ++ b :: UInt8.ofNat 0 :: (cc ++ [UInt8.ofNat i])) config T (by rw [h.eq]; simp) hT ?_
      rw [am_off h (by decide)]; simp [n2]
    · rw [List.cons_append] at h
      rw [am_track h n2 (by decide), toNat_ofNat, Nat.mod_eq_of_lt hi]; rfl

end

end Verif.Flv
