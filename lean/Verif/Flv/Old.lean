import Verif.Flv.Props

/-!
# Media messages of RTMP without an enhanced header, and those of the server itself (C85)
-/
namespace Verif.Flv
open Spec

section
variable {sid : Bytes} {time : Nat}

theorem first_byte (hsid : sid.length = 3) (ty : Nat) (x : UInt8) (r : Bytes) : (tagOf ty time sid (x :: r))[11]? = some x := by
  have := tag_get hsid ty time (x :: r) 0
  simpa using this

theorem second_byte (hsid : sid.length = 3) (ty : Nat) (x y : UInt8) (r : Bytes) : (tagOf ty time sid (x :: y :: r))[12]? = some y := by
  have := tag_get hsid ty time (x :: y :: r) 1
  simpa using this

/-- The data behind `A`. -/
theorem data_behind (hsid : sid.length = 3) (ty : Nat) (A D : Bytes) (n : Nat) (hn : n = 11 + A.length)
    (h : dataOffset (tagOf ty time sid (A ++ D)) = some n) : mediaData (tagOf ty time sid (A ++ D)) = some D := by
  refine data_at _ (head ty time sid (A ++ D).length ++ A) D (be32 ((A ++ D).length + 11)) ?_ rfl ?_
  · rw [tagOf_eq]; simp
  · rw [h, hn]; simp [head_length hsid]

theorem v_bits {ft n : Nat} (hft : FrameType ft) (hn : n < 16) :
    ¬ ((UInt8.ofNat (ft * 16 + n)).toNat ≥ 128) ∧ (UInt8.ofNat (ft * 16 + n)).toNat % 16 = n ∧ (UInt8.ofNat (ft * 16 + n)).toNat / 16 = ft := by
  obtain ⟨h1, h2⟩ := hft
  rw [toNat_ofNat]
  refine ⟨?_, ?_, ?_⟩ <;> omega

theorem v_track {d : Bytes} {x : UInt8} (h0 : d[0]? = some 9) (h11 : d[11]? = some x) (hx : ¬ x.toNat ≥ 128) : trackID d = some 1 := by
  simp only [trackID, h0, h11, Option.bind_eq_bind, Option.bind_some, Option.pure_def]
  rw [if_neg (by decide), if_pos trivial, if_neg hx]

theorem v_needs {d : Bytes} {x : UInt8} (h0 : d[0]? = some 9) (h11 : d[11]? = some x) (hx : ¬ x.toNat ≥ 128) :
    needsInit d = some (decide (x.toNat % 16 = 2) || decide (x.toNat % 16 = 7)) := by
  simp only [needsInit, h0, h11, Option.bind_eq_bind, Option.bind_some, Option.pure_def]
  rw [if_pos trivial, if_neg hx]

theorem v_keyb {d : Bytes} {x : UInt8} (h0 : d[0]? = some 9) (h11 : d[11]? = some x) :
    isKeyframe d = some (decide (x.toNat / 16 % 8 = 1)) := by
  simp only [isKeyframe, h0, h11, Option.bind_eq_bind, Option.bind_some, Option.pure_def]
  rw [if_neg (by decide)]

theorem v_isInit7 {d : Bytes} {x y : UInt8} (h0 : d[0]? = some 9) (h11 : d[11]? = some x) (h12 : d[12]? = some y) (hx : ¬ x.toNat ≥ 128)
    (h5 : x.toNat / 16 ≠ 5) (h7 : x.toNat % 16 = 7) : isInit d = some (decide (y = 0)) := by
  simp only [isInit, h0, h11, h12, Option.bind_eq_bind, Option.bind_some, Option.pure_def]
  rw [if_pos trivial, if_neg hx, if_neg h5, if_pos h7]

theorem v_isInit {d : Bytes} {x : UInt8} (h0 : d[0]? = some 9) (h11 : d[11]? = some x) (hx : ¬ x.toNat ≥ 128)
    (h5 : x.toNat / 16 ≠ 5) (h7 : x.toNat % 16 ≠ 7) : isInit d = some false := by
  simp only [isInit, h0, h11, Option.bind_eq_bind, Option.bind_some, Option.pure_def]
  rw [if_pos trivial, if_neg hx, if_neg h5, if_neg h7]

theorem v_dataOffset {d : Bytes} {x : UInt8} (h0 : d[0]? = some 9) (h11 : d[11]? = some x) (hx : ¬ x.toNat ≥ 128) :
    dataOffset d = some (if x.toNat % 16 = 7 then 16 else 12) := by
  simp only [dataOffset, h0, h11, Option.bind_eq_bind, Option.bind_some, Option.pure_def]
  rw [if_neg (fun h => hx h.2), if_neg (by simp), if_neg (by simp)]
  simp only [true_and]
  split <;> rfl

theorem v_offset {d : Bytes} {x : UInt8} (h11 : d[11]? = some x) (hx : ¬ x.toNat ≥ 128) (h7 : x.toNat % 16 ≠ 7) : offset d = some 0 := by
  simp only [offset, h11, Option.bind_eq_bind, Option.bind_some, Option.pure_def]
  rw [if_neg hx, if_pos h7]

theorem v_offset7 {d : Bytes} {x : UInt8} (h11 : d[11]? = some x) (hx : ¬ x.toNat ≥ 128) (h7 : x.toNat % 16 = 7) :
    offset d = signed24 d 13 := by
  simp only [offset, h11, Option.bind_eq_bind, Option.bind_some, Option.pure_def]
  rw [if_neg hx, if_neg (by omega)]

/-- C85 (AVC): frames arrive with time, offset, key flag and data. -/
theorem C85_avc (hsid : sid.length = 3) (ht : time < 2 ^ 32) {ft : Nat} (hft : FrameType ft) {off : Int} (hfit : Fits24 off) {data : Bytes}
    (hne : data ≠ []) :
    receive (tagOf 9 time sid (Spec.avc ft 1 off data)) = some (.frame ⟨1, "H264", time, off, decide (ft = 1), data⟩) := by
  obtain ⟨b1, b2, b3⟩ := v_bits hft (n := 7) (by omega)
  have hf := hft.2
  have hf' := hft.1
  have h0 : (tagOf 9 time sid (Spec.avc ft 1 off data))[0]? = some 9 := rfl
  have h11 := first_byte (time := time) hsid 9 (UInt8.ofNat (ft * 16 + 7)) (UInt8.ofNat 1 :: (si24 off ++ data))
  have h12 := second_byte (time := time) hsid 9 (UInt8.ofNat (ft * 16 + 7)) (UInt8.ofNat 1) (si24 off ++ data)
  have hcod : videoCodec (tagOf 9 time sid (Spec.avc ft 1 off data)) = some "H264" := by
    simp only [videoCodec, Spec.avc, h11, Option.bind_eq_bind, Option.bind_some, Option.pure_def]
    rw [if_neg b1]; simp only [b2]
  have hd := v_dataOffset h0 h11 b1
  rw [if_pos b2] at hd
  refine receive_frame (ni := true) (ii := false) ?_ hne (v_track h0 h11 b1) ((codecOf_video h0).trans hcod) ((v_needs h0 h11 b1).trans (by rw [b2]; rfl))
    ((v_isInit7 h0 h11 h12 b1 (by omega) b2).trans (by rfl)) (by simp) (tag_time _ _ _ _ ht) ?_ ?_
  · exact data_behind hsid 9 (UInt8.ofNat (ft * 16 + 7) :: UInt8.ofNat 1 :: si24 off) data 16 rfl hd
  · refine (v_offset7 h11 b1 b2).trans ?_
    change signed24 (tagOf 9 time sid (Spec.avc ft 1 off data)) 13 = _
    have := signed24_si24 off hfit (head 9 time sid (Spec.avc ft 1 off data).length ++ [UInt8.ofNat (ft * 16 + 7), UInt8.ofNat 1])
      (data ++ be32 ((Spec.avc ft 1 off data).length + 11))
    rw [show (head 9 time sid (Spec.avc ft 1 off data).length ++ [UInt8.ofNat (ft * 16 + 7), UInt8.ofNat 1]).length = 13 by
      simp [head_length hsid]] at this
    rw [← this]
    congr 1
    rw [tagOf_eq]; simp [Spec.avc]
  · refine (v_keyb h0 h11).trans ?_
    rw [b3]
    congr 1
    apply decide_eq_decide.mpr; omega

/-- C85 (AVC): the decoder configuration becomes the init data of the track. -/
theorem C85_avc_init (hsid : sid.length = 3) {ft : Nat} (hft : FrameType ft) {off : Int} {config : Bytes}
    (hne : config ≠ []) : receive (tagOf 9 time sid (Spec.avc ft 0 off config)) = some (.init 1 "H264" config) := by
  obtain ⟨b1, b2, b3⟩ := v_bits hft (n := 7) (by omega)
  have hf := hft.2
  have h0 : (tagOf 9 time sid (Spec.avc ft 0 off config))[0]? = some 9 := rfl
  have h11 := first_byte (time := time) hsid 9 (UInt8.ofNat (ft * 16 + 7)) (UInt8.ofNat 0 :: (si24 off ++ config))
  have h12 := second_byte (time := time) hsid 9 (UInt8.ofNat (ft * 16 + 7)) (UInt8.ofNat 0) (si24 off ++ config)
  have hcod : videoCodec (tagOf 9 time sid (Spec.avc ft 0 off config)) = some "H264" := by
    simp only [videoCodec, Spec.avc, h11, Option.bind_eq_bind, Option.bind_some, Option.pure_def]
    rw [if_neg b1]; simp only [b2]
  have hd := v_dataOffset h0 h11 b1
  rw [if_pos b2] at hd
  refine receive_init ?_ hne (v_track h0 h11 b1) ((codecOf_video h0).trans hcod) ((v_needs h0 h11 b1).trans (by rw [b2]; rfl))
    ((v_isInit7 h0 h11 h12 b1 (by omega) b2).trans (by rfl))
  exact data_behind hsid 9 (UInt8.ofNat (ft * 16 + 7) :: UInt8.ofNat 0 :: si24 off) config 16 rfl hd

/-- C85 (other video codecs): frames arrive with time, key flag and data, without an offset. -/
theorem C85_old_video (hsid : sid.length = 3) (ht : time < 2 ^ 32) {ft : Nat} (hft : FrameType ft) {name : String} {n : Nat}
    (hn : VideoNumber name n) {data : Bytes} (hne : data ≠ []) :
    receive (tagOf 9 time sid (Spec.oldVideo ft n data)) = some (.frame ⟨1, name, time, 0, decide (ft = 1), data⟩) := by
  have hn16 : n < 16 ∧ n ≠ 7 := by cases hn <;> decide
  obtain ⟨b1, b2, b3⟩ := v_bits hft (n := n) hn16.1
  have hf := hft.2
  have hf' := hft.1
  have h0 : (tagOf 9 time sid (Spec.oldVideo ft n data))[0]? = some 9 := rfl
  have h11 := first_byte (time := time) hsid 9 (UInt8.ofNat (ft * 16 + n)) data
  have hcod : videoCodec (tagOf 9 time sid (Spec.oldVideo ft n data)) = some name := by
    simp only [videoCodec, Spec.oldVideo, h11, Option.bind_eq_bind, Option.bind_some, Option.pure_def]
    rw [if_neg b1]; simp only [b2]
    cases hn <;> rfl
  have hd := v_dataOffset h0 h11 b1
  rw [if_neg (by omega)] at hd
  refine receive_frame (ii := false) ?_ hne (v_track h0 h11 b1) ((codecOf_video h0).trans hcod) (v_needs h0 h11 b1)
    (v_isInit h0 h11 b1 (by omega) (by omega)) (by simp) (tag_time _ _ _ _ ht) (v_offset h11 b1 (by omega)) ?_
  · exact data_behind hsid 9 [UInt8.ofNat (ft * 16 + n)] data 12 rfl hd
  · refine (v_keyb h0 h11).trans ?_
    rw [b3]
    congr 1
    apply decide_eq_decide.mpr; omega

/-! ### Audio -/

theorem a_bits {n bits : Nat} (hn : n < 16) (hb : bits < 16) :
    (UInt8.ofNat (n * 16 + bits)).toNat / 16 = n ∧ (UInt8.ofNat (n * 16 + bits)).toNat % 16 = bits := by
  rw [toNat_ofNat]; constructor <;> omega

theorem a_track {d : Bytes} {x : UInt8} (h0 : d[0]? = some 8) (h11 : d[11]? = some x) (hx : x.toNat / 16 ≠ 9) : trackID d = some 2 := by
  simp only [trackID, h0, h11, Option.bind_eq_bind, Option.bind_some, Option.pure_def]
  rw [if_pos trivial, if_neg hx]

/-- Audio has no offset, if the rate, size and channels do not look like packet types. -/
theorem a_offset {d : Bytes} {x : UInt8} (h11 : d[11]? = some x) (h7 : x.toNat % 16 ≠ 7) (h1 : x.toNat ≥ 128 → x.toNat % 16 ≠ 1 ∧ x.toNat % 16 ≠ 6) :
    offset d = some 0 := by
  by_cases hx : x.toNat ≥ 128
  · simp only [offset, h11, skip_plain h11 h7, Option.bind_eq_bind, Option.bind_some, Option.pure_def]
    rw [if_pos hx, if_pos (h1 hx)]
  · exact v_offset h11 hx h7

/-- The rate, sample size and channels are not mistaken for anything else: not 11 to 22 kHz with 16 bits and stereo, and for AAC, µ-law, Speex
and MP3 with 8 kHz neither 11 to 22 kHz with 16 bits and mono nor 5.5 kHz with 8 bits and stereo. -/
def PlainBits (number bits : Nat) : Prop := bits < 16 ∧ bits ≠ 7 ∧ (8 ≤ number → bits ≠ 1 ∧ bits ≠ 6)

/-- C85 (AAC): frames arrive with time and data, without an offset. Missing: rates that are mistaken, see `C85_audio_offset_fails`. -/
theorem C85_aac_partial (hsid : sid.length = 3) (ht : time < 2 ^ 32) {bits : Nat} (hb : PlainBits 10 bits) {data : Bytes}
    (hne : data ≠ []) :
    receive (tagOf 8 time sid (Spec.aac bits 1 data)) = some (.frame ⟨2, "AAC", time, 0, false, data⟩) := by
  obtain ⟨p1, p2, p3⟩ := hb
  obtain ⟨b1, b2⟩ := a_bits (n := 10) (by omega) p1
  have h0 : (tagOf 8 time sid (Spec.aac bits 1 data))[0]? = some 8 := rfl
  have h11 := first_byte (time := time) hsid 8 (UInt8.ofNat (10 * 16 + bits)) (UInt8.ofNat 1 :: data)
  have h12 := second_byte (time := time) hsid 8 (UInt8.ofNat (10 * 16 + bits)) (UInt8.ofNat 1) data
  change (tagOf 8 time sid (Spec.aac bits 1 data))[11]? = _ at h11
  change (tagOf 8 time sid (Spec.aac bits 1 data))[12]? = _ at h12
  have hcod : audioCodec (tagOf 8 time sid (Spec.aac bits 1 data)) = some "AAC" := by
    simp only [audioCodec, h11, Option.bind_eq_bind, Option.bind_some, Option.pure_def, b1]
  have hni : needsInit (tagOf 8 time sid (Spec.aac bits 1 data)) = some true := by
    simp only [needsInit, h0, h11, Option.bind_eq_bind, Option.bind_some, Option.pure_def, b1]; rfl
  have hii : isInit (tagOf 8 time sid (Spec.aac bits 1 data)) = some false := by
    simp only [isInit, h0, h11, h12, Option.bind_eq_bind, Option.bind_some, Option.pure_def, b1]; rfl
  have hd : dataOffset (tagOf 8 time sid (Spec.aac bits 1 data)) = some 13 := by
    simp only [dataOffset, h0, h11, Option.bind_eq_bind, Option.bind_some, Option.pure_def, b1]
    rw [if_neg (by simp), if_pos ⟨trivial, trivial⟩]
  exact receive_frame (ni := true) (ii := false) (data_behind hsid 8 [UInt8.ofNat (10 * 16 + bits), UInt8.ofNat 1] data 13 rfl hd) hne
    (a_track h0 h11 (by omega)) ((codecOf_audio h0).trans hcod) hni hii (by simp) (tag_time _ _ _ _ ht)
    (a_offset h11 (by omega) (fun _ => by rw [b2]; exact p3 (by omega))) (a_key h0)

/-- C85 (AAC): the decoder configuration becomes the init data of the track. -/
theorem C85_aac_init (hsid : sid.length = 3) {bits : Nat} (hb : bits < 16) {config : Bytes} (hne : config ≠ []) :
    receive (tagOf 8 time sid (Spec.aac bits 0 config)) = some (.init 2 "AAC" config) := by
  obtain ⟨b1, b2⟩ := a_bits (n := 10) (by omega) hb
  have h0 : (tagOf 8 time sid (Spec.aac bits 0 config))[0]? = some 8 := rfl
  have h11 := first_byte (time := time) hsid 8 (UInt8.ofNat (10 * 16 + bits)) (UInt8.ofNat 0 :: config)
  have h12 := second_byte (time := time) hsid 8 (UInt8.ofNat (10 * 16 + bits)) (UInt8.ofNat 0) config
  change (tagOf 8 time sid (Spec.aac bits 0 config))[11]? = _ at h11
  change (tagOf 8 time sid (Spec.aac bits 0 config))[12]? = _ at h12
  have hcod : audioCodec (tagOf 8 time sid (Spec.aac bits 0 config)) = some "AAC" := by
    simp only [audioCodec, h11, Option.bind_eq_bind, Option.bind_some, Option.pure_def, b1]
  have hni : needsInit (tagOf 8 time sid (Spec.aac bits 0 config)) = some true := by
    simp only [needsInit, h0, h11, Option.bind_eq_bind, Option.bind_some, Option.pure_def, b1]; rfl
  have hii : isInit (tagOf 8 time sid (Spec.aac bits 0 config)) = some true := by
    simp only [isInit, h0, h11, h12, Option.bind_eq_bind, Option.bind_some, Option.pure_def, b1]; rfl
  have hd : dataOffset (tagOf 8 time sid (Spec.aac bits 0 config)) = some 13 := by
    simp only [dataOffset, h0, h11, Option.bind_eq_bind, Option.bind_some, Option.pure_def, b1]
    rw [if_neg (by simp), if_pos ⟨trivial, trivial⟩]
  exact receive_init (data_behind hsid 8 [UInt8.ofNat (10 * 16 + bits), UInt8.ofNat 0] config 13 rfl hd) hne
    (a_track h0 h11 (by omega)) ((codecOf_audio h0).trans hcod) hni hii

/-- C85 (other audio codecs): frames arrive with time and data, without an offset. Missing: rates that are mistaken, see
`C85_audio_offset_fails`. -/
theorem C85_old_audio_partial (hsid : sid.length = 3) (ht : time < 2 ^ 32) {name : String} {n bits : Nat} (hn : AudioNumber name n)
    (hb : PlainBits n bits) {data : Bytes} (hne : data ≠ []) :
    receive (tagOf 8 time sid (Spec.oldAudio n bits data)) = some (.frame ⟨2, name, time, 0, false, data⟩) := by
  obtain ⟨p1, p2, p3⟩ := hb
  have hn16 : n < 16 ∧ n ≠ 9 ∧ n ≠ 10 := by cases hn <;> decide
  obtain ⟨b1, b2⟩ := a_bits hn16.1 p1
  have h0 : (tagOf 8 time sid (Spec.oldAudio n bits data))[0]? = some 8 := rfl
  have h11 := first_byte (time := time) hsid 8 (UInt8.ofNat (n * 16 + bits)) data
  change (tagOf 8 time sid (Spec.oldAudio n bits data))[11]? = _ at h11
  have hcod : audioCodec (tagOf 8 time sid (Spec.oldAudio n bits data)) = some name := by
    simp only [audioCodec, h11, Option.bind_eq_bind, Option.bind_some, Option.pure_def, b1]
    cases hn <;> rfl
  have hni : needsInit (tagOf 8 time sid (Spec.oldAudio n bits data)) = some false := by
    simp only [needsInit, h0, h11, Option.bind_eq_bind, Option.bind_some, Option.pure_def, b1]
    rw [if_neg (by decide), if_pos trivial, if_neg hn16.2.2, if_neg hn16.2.1]
  have hii : isInit (tagOf 8 time sid (Spec.oldAudio n bits data)) = some false := by
    simp only [isInit, h0, h11, Option.bind_eq_bind, Option.bind_some, Option.pure_def, b1]
    rw [if_neg (by decide), if_pos trivial, if_neg hn16.2.1, if_neg hn16.2.2]
  have hd : dataOffset (tagOf 8 time sid (Spec.oldAudio n bits data)) = some 12 := by
    simp only [dataOffset, h0, h11, Option.bind_eq_bind, Option.bind_some, Option.pure_def, b1]
    rw [if_neg (by simp), if_neg (by simp [hn16.2.2]), if_neg (by simp [hn16.2.1]), if_neg (by simp)]
  exact receive_frame (ni := false) (ii := false) (data_behind hsid 8 [UInt8.ofNat (n * 16 + bits)] data 12 rfl hd) hne
    (a_track h0 h11 (by omega)) ((codecOf_audio h0).trans hcod) hni hii (by simp) (tag_time _ _ _ _ ht)
    (a_offset h11 (by omega) (fun hx => by rw [b2]; exact p3 (by omega))) (a_key h0)

/-- C85 fails: an MP3 frame with 16 kHz and stereo, sent by the server itself, arrives with an offset made of its own data: nothing tests
that the tag is one of video (flv_tag.cpp 436-458). -/
theorem C85_audio_offset_fails : receive (tagOf 8 1000 [0, 0, 0] (sendAudio "MP3" none 16000 16 2 [0xFF, 0xF3, 0x88, 0xC4, 0, 0])) =
    some (.frame ⟨2, "MP3", 1000, -816956, false, [0xFF, 0xF3, 0x88, 0xC4, 0, 0]⟩) := by decide +kernel

/-- C85 fails: an AAC frame with 16 kHz and stereo, sent by the server itself, makes it read behind the message. -/
theorem C85_aac_offset_fails : receive (tagOf 8 1000 [0, 0, 0] (sendAudio "AAC" none 16000 16 2 [0x21, 0x10, 0x07, 0xC4, 0])) = none := by
  decide +kernel

/-! ### The messages of the server -/

theorem frame_key (key disp : Bool) : ∃ ft, FrameType ft ∧ frameBits key disp = ft * 16 ∧ (decide (ft = 1)) = (key && !disp) := by
  cases key <;> cases disp
  · exact ⟨2, ⟨by omega, by omega⟩, rfl, rfl⟩
  · exact ⟨3, ⟨by omega, by omega⟩, rfl, rfl⟩
  · exact ⟨1, ⟨by omega, by omega⟩, rfl, rfl⟩
  · exact ⟨3, ⟨by omega, by omega⟩, rfl, rfl⟩

theorem code_of {codec : String} (h : codec = "H264" ∨ codec = "HEVC" ∨ codec = "AV1" ∨ codec = "VP8" ∨ codec = "VP9") :
    VideoCode codec (videoCC codec) (decide (codec = "H264" ∨ codec = "HEVC")) := by
  rcases h with h | h | h | h | h <;> subst h
  · rw [show videoCC "H264" = "avc1".toUTF8.toList by decide +kernel]; exact .avc
  · rw [show videoCC "HEVC" = "hvc1".toUTF8.toList by decide +kernel]; exact .hevc
  · rw [show videoCC "AV1" = "av01".toUTF8.toList by decide +kernel]; exact .av1
  · rw [show videoCC "VP8" = "vp08".toUTF8.toList by decide +kernel]; exact .vp8
  · rw [show videoCC "VP9" = "vp09".toUTF8.toList by decide +kernel]; exact .vp9

theorem acode_of {codec : String} (h : codec = "opus" ∨ codec = "AC3" ∨ codec = "FLAC" ∨ codec = "AAC") :
    AudioCode codec (audioCC codec) (decide (codec ≠ "AC3")) := by
  rcases h with h | h | h | h <;> subst h
  · rw [show audioCC "opus" = "Opus".toUTF8.toList by decide +kernel]; exact .opus
  · rw [show audioCC "AC3" = "ac-3".toUTF8.toList by decide +kernel]; exact .ac3
  · rw [show audioCC "FLAC" = "fLaC".toUTF8.toList by decide +kernel]; exact .flac
  · rw [show audioCC "AAC" = "mp4a".toUTF8.toList by decide +kernel]; exact .aac

/-- C85: video that the server sends over RTMP and receives again. Missing: key frames marked as disposable, offsets of AV1, VP8 and VP9
(`C85_av1_fails`) and of HEVC without a track number (`C85_offset_fails`). -/
theorem C85_partial (hsid : sid.length = 3) (ht : time < 2 ^ 32) {codec : String} {multi : Option Nat} (hmu : ∀ i, multi = some i → i < 256)
    {off : Int} (hfit : Fits24 off) {key disp : Bool} {data : Bytes} (hne : data ≠ [])
    (hcod : (codec = "H264" ∨ codec = "HEVC" ∨ codec = "AV1" ∨ codec = "VP8" ∨ codec = "VP9") ∨ (codec = "H263" ∧ multi = none ∧ off = 0))
    (hoff : off ≠ 0 → codec = "H264" ∨ (codec = "HEVC" ∧ multi ≠ none)) (hkey : disp = true → key = false) :
    receive (tagOf 9 time sid (sendVideo codec multi off key disp data)) =
      some (.frame ⟨number 400 1 multi, codec, time, off, key, data⟩) := by
  obtain ⟨ft, hft, hb, hk⟩ := frame_key key disp
  have hkk : decide (ft = 1) = key := by rw [hk]; cases key <;> cases disp <;> simp_all
  have hf4 := hft.2
  have hf1 := hft.1
  by_cases h3 : codec = "H263"
  · obtain ⟨-, h2, h0⟩ : codec = "H263" ∧ multi = none ∧ off = 0 := by
      rcases hcod with h | h
      · subst h3; exact absurd h (by decide)
      · exact h
    subst h3 h2 h0
    have e : sendVideo "H263" none 0 key disp data = Spec.oldVideo ft 2 data := by
      simp [sendVideo, Spec.oldVideo, hb, Nat.add_comm]
    rw [e, C85_old_video hsid ht hft .h263 hne, hkk]; rfl
  have hc : codec = "H264" ∨ codec = "HEVC" ∨ codec = "AV1" ∨ codec = "VP8" ∨ codec = "VP9" := by
    rcases hcod with h | h
    · exact h
    · exact absurd h.1 h3
  have hv := code_of hc
  cases multi with
  | some i =>
    by_cases h0 : off = 0
    · have e : sendVideo codec (some i) off key disp data = Spec.video ft [] (some i) (videoCC codec) 3 data := by
        simp only [sendVideo, h0, Spec.video, enhanced, modTail, next, Spec.track, hb, ne_eq, not_true, if_false, if_true, Option.isSome_some,
          List.cons_append, List.nil_append]
        congr 2; omega
      rw [e, C85_video_partial hsid ht hft (by intro m hm; cases hm) hmu hv (Coded.zero data) hne (Or.inl (by simp)), hkk, h0]
    · have h1 : decide (codec = "H264" ∨ codec = "HEVC") = true := by
        rcases hoff h0 with h | ⟨h, -⟩ <;> subst h <;> decide
      have e : sendVideo codec (some i) off key disp data = Spec.video ft [] (some i) (videoCC codec) 1 (si24 off ++ data) := by
        simp only [sendVideo, h0, Spec.video, enhanced, modTail, next, Spec.track, hb, ne_eq, not_false_eq_true, if_true,
          Option.isSome_some, List.cons_append, List.nil_append, off24_si24]
        congr 2; omega
      rw [e, C85_video_partial hsid ht hft (by intro m hm; cases hm) hmu hv (Coded.withOffset h1 off hfit data) hne (Or.inl (by simp)), hkk]
  | none =>
    by_cases h4 : codec = "H264"
    · subst h4
      have e : sendVideo "H264" none off key disp data = Spec.avc ft 1 off data := by
        have : (if off ≠ 0 then off24 off else [0, 0, 0]) = si24 off := by
          split
          · exact off24_si24 off
          · rename_i h; rw [show off = 0 by omega]; decide
        simp only [sendVideo, if_true, this, Spec.avc, hb, Nat.add_comm]
        rfl
      rw [e, C85_avc hsid ht hft hfit hne, hkk]; rfl
    · have h0 : off = 0 := by
        by_cases h0 : off = 0
        · exact h0
        · rcases hoff h0 with h | ⟨-, h⟩
          · exact absurd h h4
          · exact absurd rfl h
      have h5 : codec = "AV1" ∨ codec = "VP8" ∨ codec = "VP9" ∨ codec = "HEVC" := by
        rcases hc with h | h | h | h | h
        · exact absurd h h4
        · exact Or.inr (Or.inr (Or.inr h))
        · exact Or.inl h
        · exact Or.inr (Or.inl h)
        · exact Or.inr (Or.inr (Or.inl h))
      have e : sendVideo codec none off key disp data = Spec.video ft [] none (videoCC codec) 3 data := by
        simp only [sendVideo, if_neg h4, if_pos h5, h0, Spec.video, enhanced, modTail, next, Spec.track, hb, ne_eq, not_true, if_false, if_true,
          Option.isSome_none, List.cons_append, List.nil_append, Bool.false_eq_true]
        congr 2; omega
      rw [e, C85_video_partial hsid ht hft (by intro m hm; cases hm) hmu hv (Coded.zero data) hne (Or.inr (Or.inl rfl)), hkk, h0]

theorem bits_lt (rate size ch : Nat) : audioBits rate size ch < 16 := by
  unfold audioBits; repeat' split
  all_goals omega

theorem swap_swap : ∀ l : Bytes, swap16 (swap16 l) = l
  | [] => rfl
  | [_] => rfl
  | a :: b :: l => by simp [swap16, swap_swap l]

/-- C85: audio that the server sends over RTMP and receives again; 16-bit PCM is swapped by both. Missing: see `C85_audio_offset_fails`. -/
theorem C85_sent_audio_partial (hsid : sid.length = 3) (ht : time < 2 ^ 32) {codec : String} {multi : Option Nat}
    (hmu : ∀ i, multi = some i → i < 256) {rate size ch : Nat} {data : Bytes} (hne : data ≠ [])
    (hcod : codec = "opus" ∨ codec = "AC3" ∨ codec = "FLAC" ∨ codec = "AAC" ∨
      (multi = none ∧ (codec = "MP3" ∨ codec = "ADPCM" ∨ codec = "PCM" ∨ codec = "Nellymoser" ∨ codec = "ALAW" ∨ codec = "ULAW" ∨ codec = "Speex")))
    (hb : audioBits rate size ch ≠ 7 ∧ audioBits rate size ch ≠ 6 ∧ audioBits rate size ch ≠ 1) :
    receive (tagOf 8 time sid (sendAudio codec multi rate size ch data)) =
      some (.frame ⟨number 100 2 multi, codec, time, 0, false, if codec = "PCM" ∧ size = 16 then swap16 data else data⟩) := by
  cases multi with
  | some i =>
    have hc : codec = "opus" ∨ codec = "AC3" ∨ codec = "FLAC" ∨ codec = "AAC" := by
      rcases hcod with h | h | h | h | ⟨h, -⟩
      · exact Or.inl h
      · exact Or.inr (Or.inl h)
      · exact Or.inr (Or.inr (Or.inl h))
      · exact Or.inr (Or.inr (Or.inr h))
      · cases h
    have hv := acode_of hc
    obtain ⟨n1, n2, n3, n4⟩ := audioName_ok hv
    have hp : ¬ (codec = "PCM" ∧ size = 16) := by rintro ⟨h, -⟩; subst h; revert hc; decide
    rw [if_neg hp]
    have hi := hmu i rfl
    obtain ⟨Q, b, c, T, hT, h⟩ := enh hsid 8 time 9 5 (by omega) (by omega) (by omega) [] (by intro m hm; cases hm)
      (5 :: (audioCC codec ++ UInt8.ofNat i :: data))
    have e : sendAudio codec (some i) rate size ch data = enhanced 9 5 [] ++ (5 :: (audioCC codec ++ UInt8.ofNat i :: data)) := rfl
    rw [e]
    rw [show UInt8.ofNat 8 = 8 from rfl] at h
    have htime := tag_time 8 time sid (enhanced 9 5 [] ++ (5 :: (audioCC codec ++ UInt8.ofNat i :: data))) ht
    generalize hd : tagOf 8 time sid (enhanced 9 5 [] ++ (5 :: (audioCC codec ++ UInt8.ofNat i :: data))) = d at *
    rw [List.cons_append, List.append_assoc] at h
    refine receive_frame (ii := false) ?_ hne ?_ ((codecOf_audio h.zero).trans (am_codec hv h (by decide)))
      (am_needs h n2 (by decide)) (am_isInit h) (by simp) htime (offset_other h (by omega) (by omega) (by omega)) (a_key h.zero)
    · refine data_at d (Q ++ b :: 5 :: (audioCC codec ++ [UInt8.ofNat i])) data T (by rw [h.eq]; simp) hT ?_
      rw [am_off h (by decide)]; simp [n2]
    · rw [List.cons_append] at h
      rw [am_track h n2 (by decide), toNat_ofNat, Nat.mod_eq_of_lt hi]; rfl
  | none =>
    by_cases hc : codec = "opus" ∨ codec = "AC3" ∨ codec = "FLAC"
    · have hv := acode_of (codec := codec) (by rcases hc with h | h | h <;> simp [h])
      have hp : ¬ (codec = "PCM" ∧ size = 16) := by rintro ⟨h, -⟩; subst h; revert hc; decide
      have e : sendAudio codec none rate size ch data = Spec.audio [] none (audioCC codec) 1 data := by
        simp only [sendAudio, if_pos hc]; rfl
      rw [e, if_neg hp]
      exact C85_audio hsid ht (by intro m hm; cases hm) hmu hv hne
    · by_cases ha : codec = "AAC"
      · subst ha
        have e : sendAudio "AAC" none rate size ch data = Spec.aac (audioBits rate size ch) 1 data := by
          simp [sendAudio, audioNumber, Spec.aac]
        rw [e, if_neg (by simp)]
        exact C85_aac_partial hsid ht ⟨bits_lt .., hb.1, fun _ => ⟨hb.2.2, hb.2.1⟩⟩ hne
      · have hn : AudioNumber codec (audioNumber codec rate) := by
          rcases hcod with h | h | h | h | ⟨-, h⟩
          · exact absurd (Or.inl h) hc
          · exact absurd (Or.inr (Or.inl h)) hc
          · exact absurd (Or.inr (Or.inr h)) hc
          · exact absurd h ha
          · rcases h with h | h | h | h | h | h | h <;> subst h
            · show AudioNumber "MP3" (if rate = 8000 then 14 else 2)
              split <;> constructor
            · exact .adpcm
            · exact .pcm
            · show AudioNumber "Nellymoser" (if rate = 8000 then 5 else if rate = 16000 then 4 else 6)
              repeat' split
              all_goals constructor
            · exact .alaw
            · exact .ulaw
            · exact .speex
        have e : sendAudio codec none rate size ch data = Spec.oldAudio (audioNumber codec rate) (audioBits rate size ch)
            (if codec = "PCM" ∧ size = 16 then swap16 data else data) := by
          simp only [sendAudio, if_neg hc, if_neg ha, Spec.oldAudio, List.nil_append]
        rw [e]
        refine C85_old_audio_partial hsid ht hn ⟨bits_lt .., hb.1, fun _ => ⟨hb.2.2, hb.2.1⟩⟩ ?_
        split
        · intro h; apply hne; rw [← swap_swap data, h]; rfl
        · exact hne

/-- C85: samples of 16-bit PCM are sent with the low byte first, and what comes with the low byte first is stored with the high byte first. -/
theorem C85_pcm (samples : List (UInt8 × UInt8)) : swap16 (samples.flatMap fun s => [s.1, s.2]) = samples.flatMap fun s => [s.2, s.1] := by
  induction samples with
  | nil => rfl
  | cons s r ih =>
    rw [List.flatMap_cons, List.flatMap_cons, ← ih]; rfl

example : sendAudio "PCM" none 44100 16 2 [0x12, 0x34, 0x56, 0x78] = [0x3F, 0x34, 0x12, 0x78, 0x56] := by decide +kernel

/-- C85 fails: an offset of AV1 arrives as data. -/
theorem C85_av1_fails : receive (tagOf 9 1000 [0, 0, 0] (sendVideo "AV1" none 40 false false [1, 2])) =
    some (.frame ⟨1, "AV1", 1000, 0, false, [0, 0, 40, 1, 2]⟩) := by decide +kernel

/-- C85 fails: a key frame marked as disposable arrives without its key flag. -/
theorem C85_disposable_fails : receive (tagOf 9 1000 [0, 0, 0] (sendVideo "H264" none 0 true true [1, 2])) =
    some (.frame ⟨1, "H264", 1000, 0, false, [1, 2]⟩) := by decide +kernel

/-- C85 fails: several tracks in one message (kind 1 of multitrack messages) arrive as one frame with their lengths in it. -/
theorem C85_many_fails : receive (tagOf 8 1000 [0, 0, 0] ([0x95, 0x11] ++ ccOpus ++ [0, 0, 0, 2, 7, 8] ++ [1, 0, 0, 1, 9])) =
    some (.frame ⟨100, "opus", 1000, 0, false, [0, 0, 2, 7, 8, 1, 0, 0, 1, 9]⟩) := by decide +kernel

/-- C85 fails: the server's own frames of audio with a track number have the packet type of a multitrack message, not of coded frames. -/
theorem C85_sent_multi_fails : sendAudio "opus" (some 1) 48000 16 2 [1] ≠ Spec.audio [] (some 1) ccOpus 1 [1] := by decide +kernel

/-- C85: the init data the server sends becomes the init data of the track. -/
theorem C85_sent_init (hsid : sid.length = 3) {multi : Option Nat} (hmu : ∀ i, multi = some i → i < 256) {init : Bytes} (hne : init ≠ []) :
    (∀ codec b, videoInit codec init multi = some b → receive (tagOf 9 time sid b) = some (.init (number 400 1 multi) codec init)) ∧
    (∀ codec rate size ch b, codec ≠ "AC3" → audioInit codec rate size ch init multi = some b →
      receive (tagOf 8 time sid b) = some (.init (number 100 2 multi) codec init)) := by
  constructor
  · intro codec b hb
    cases multi with
    | some i =>
      by_cases hc : codec = "AV1" ∨ codec = "VP8" ∨ codec = "VP9" ∨ codec = "HEVC" ∨ codec = "H264"
      · simp only [videoInit, if_pos hc, Option.some.injEq] at hb
        subst hb
        exact C85_video_init (ft := 1) (mods := []) hsid ⟨by omega, by omega⟩ (by intro m hm; cases hm) hmu
          (code_of (by rcases hc with h | h | h | h | h <;> simp [h])) hne
      · simp [videoInit, if_neg hc] at hb
    | none =>
      by_cases h4 : codec = "H264"
      · subst h4
        simp only [videoInit, if_true, Option.some.injEq] at hb
        subst hb
        exact C85_avc_init (ft := 1) (off := 0) hsid ⟨by omega, by omega⟩ hne
      · by_cases hc : codec = "AV1" ∨ codec = "VP8" ∨ codec = "VP9" ∨ codec = "HEVC"
        · simp only [videoInit, if_neg h4, if_pos hc, Option.some.injEq] at hb
          subst hb
          exact C85_video_init (ft := 1) (mods := []) hsid ⟨by omega, by omega⟩ (by intro m hm; cases hm) hmu
            (code_of (by rcases hc with h | h | h | h <;> simp [h])) hne
        · simp [videoInit, if_neg h4, if_neg hc] at hb
  · intro codec rate size ch b hac hb
    cases multi with
    | some i =>
      by_cases hc : codec = "opus" ∨ codec = "AC3" ∨ codec = "FLAC" ∨ codec = "AAC"
      · simp only [audioInit, if_pos hc, Option.some.injEq] at hb
        subst hb
        have hv := acode_of hc
        rw [decide_eq_true hac] at hv
        exact C85_audio_init (mods := []) hsid (by intro m hm; cases hm) hmu hv hne
      · simp [audioInit, if_neg hc] at hb
    | none =>
      by_cases h4 : codec = "AAC"
      · subst h4
        simp only [audioInit, if_true, Option.some.injEq] at hb
        subst hb
        exact C85_aac_init hsid (bits_lt rate size ch) hne
      · by_cases hc : codec = "opus" ∨ codec = "AC3" ∨ codec = "FLAC"
        · simp only [audioInit, if_neg h4, if_pos hc, Option.some.injEq] at hb
          subst hb
          have hv := acode_of (codec := codec) (by rcases hc with h | h | h <;> simp [h])
          rw [decide_eq_true hac] at hv
          exact C85_audio_init (mods := []) hsid (by intro m hm; cases hm) hmu hv hne
        · simp [audioInit, if_neg h4, if_neg hc] at hb

end

/-! ## Not empty -/

example : receive (tagOf 9 4000000000 [0, 0, 1] (sendVideo "HEVC" (some 3) (-80) true false [0, 0, 0, 1, 38])) =
    some (.frame ⟨403, "HEVC", 4000000000, -80, true, [0, 0, 0, 1, 38]⟩) :=
  C85_partial rfl (by omega) (fun i h => by cases h; omega) (by constructor <;> decide) (by simp) (by simp) (by simp) (by simp)

example : receive (tagOf 8 23 [0, 0, 0] (sendAudio "AAC" none 48000 16 2 [33, 16, 4])) = some (.frame ⟨2, "AAC", 23, 0, false, [33, 16, 4]⟩) :=
  C85_sent_audio_partial rfl (by omega) (by simp) (by simp) (by simp) (by decide)

example : GoodMods [(0, [1, 2, 3]), (1, [7])] := by
  intro m hm
  simp only [List.mem_cons, List.not_mem_nil, or_false] at hm
  rcases hm with rfl | rfl <;> simp

end Verif.Flv
