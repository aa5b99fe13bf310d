import Verif.Flv.Lemmas

namespace Verif.Flv
open Spec

/-- What matters of a tag with an enhanced header: where the packet type is, and what follows. -/
structure Enh (d : Bytes) (ty : UInt8) (hi top : Nat) (Q : Bytes) (b c : UInt8) (X : Bytes) : Prop where
  zero : d[0]? = some ty
  first : d[11]? = some c
  skip : skipModEx d 11 = some Q.length
  eq : d = Q ++ b :: X
  hi : c.toNat / 16 = hi
  top : b.toNat % 16 = top

theorem enh {sid : Bytes} (hsid : sid.length = 3) (ty time hi top : Nat) (hhi : hi < 16) (ht : top < 16) (ht7 : top ≠ 7)
    (mods : List (Nat × Bytes)) (hm : GoodMods mods) (Z : Bytes) :
    ∃ Q b c T, T.length = 4 ∧ Enh (tagOf ty time sid (enhanced hi top mods ++ Z)) (UInt8.ofNat ty) hi top Q b c (Z ++ T) := by
  obtain ⟨Q, b, e1, e2, e3⟩ := skip_all top ht ht7 mods hi hm (head ty time sid (enhanced hi top mods ++ Z).length)
    (Z ++ be32 ((enhanced hi top mods ++ Z).length + 11))
  have e : tagOf ty time sid (enhanced hi top mods ++ Z) = head ty time sid (enhanced hi top mods ++ Z).length ++ enhanced hi top mods ++
      (Z ++ be32 ((enhanced hi top mods ++ Z).length + 11)) := by rw [tagOf_eq]; simp
  rw [head_length hsid, ← e] at e3
  refine ⟨Q, b, UInt8.ofNat (hi * 16 + next top mods), be32 ((enhanced hi top mods ++ Z).length + 11), rfl, ⟨rfl, ?_, e3, e.trans e1, ?_, e2⟩⟩
  · have := tag_get hsid ty time (enhanced hi top mods ++ Z) 0
    simpa [enhanced] using this
  · rw [toNat_ofNat]; unfold next; split <;> omega

section
variable {d Q X : Bytes} {ty b c : UInt8} {hi top : Nat}

theorem Enh.at (h : Enh d ty hi top Q b c X) : d[Q.length]? = some b := by rw [h.eq]; exact get_app ..
theorem Enh.after (h : Enh d ty hi top Q b c X) (k : Nat) : d[Q.length + (k + 1)]? = X[k]? := by rw [h.eq]; exact get_app' ..
theorem Enh.one (h : Enh d ty hi top Q b c X) : d[Q.length + 1]? = X[0]? := h.after 0
theorem Enh.six (h : Enh d ty hi top Q b c X) : d[Q.length + 6]? = X[5]? := h.after 5
theorem Enh.four (h : Enh d ty hi top Q b c X) (A cc R : Bytes) (hX : X = A ++ (cc ++ R)) (hc : cc.length = 4) (n : Nat) (hn : n = A.length + 1) :
    four d (Q.length + n) = some cc := by
  have := four_app (Q ++ b :: A) cc R hc
  rw [h.eq, hX, hn]
  simpa using this

theorem videoName_ok {name : String} {cc : Bytes} {ho : Bool} (h : VideoCode name cc ho) :
    videoName cc = name ∧ cc.length = 4 ∧ ((cc = ccAVC ∨ cc = ccHEVC) ↔ ho = true) := by
  cases h <;> decide +kernel

theorem audioName_ok {name : String} {cc : Bytes} {ni : Bool} (h : AudioCode name cc ni) :
    audioName cc = name ∧ cc.length = 4 ∧ (decide (cc = ccOpus) || decide (cc = ccFLAC) || decide (cc = ccAAC)) = ni ∧
      ¬ (cc = ccAVC ∨ cc = ccHEVC) := by
  cases h <;> decide +kernel

/-! ### Video, one track -/

theorem v1_codec {name : String} {cc R : Bytes} {ho : Bool} (hv : VideoCode name cc ho) (h : Enh d 9 hi top Q b c (cc ++ R)) (hhi : 8 ≤ hi)
    (h6 : top ≠ 6) (h4 : top ≠ 4) : videoCodec d = some name := by
  obtain ⟨n1, n2, -⟩ := videoName_ok hv
  have hc := h.hi
  have hb := h.top
  simp only [videoCodec, h.first, h.skip, h.at, Option.bind_eq_bind, Option.bind_some, Option.pure_def]
  rw [if_pos (by omega), if_neg (by omega), if_neg (by omega), h.four [] cc R rfl n2 1 rfl]
  simp [n1]

theorem v1_needs (h : Enh d 9 hi top Q b c X) (hhi : 8 ≤ hi) (h6 : top ≠ 6) (h4 : top ≠ 4) : needsInit d = some true := by
  have hc := h.hi
  have hb := h.top
  simp only [needsInit, h.zero, h.first, h.skip, h.at, Option.bind_eq_bind, Option.bind_some, Option.pure_def]
  rw [if_pos trivial, if_pos (by omega), if_neg (by omega), if_neg (by omega)]

theorem v1_isInit (h : Enh d 9 hi top Q b c X) (hhi : 8 ≤ hi) (h6 : top ≠ 6) : isInit d = some (decide (top = 0) || decide (top = 5)) := by
  have hc := h.hi
  have hb := h.top
  simp only [isInit, h.zero, h.first, h.skip, h.at, Option.bind_eq_bind, Option.bind_some, Option.pure_def]
  rw [if_pos trivial, if_pos (by omega), if_neg (by omega)]
  simp [hb]

theorem v1_track (h : Enh d 9 hi top Q b c X) (hhi : 8 ≤ hi) (h6 : top ≠ 6) : trackID d = some 1 := by
  have hc := h.hi
  have hb := h.top
  simp only [trackID, h.zero, h.first, h.skip, h.at, Option.bind_eq_bind, Option.bind_some, Option.pure_def]
  rw [if_neg (by decide), if_pos trivial, if_pos (by omega), if_neg (by omega)]

theorem v_key (h : Enh d 9 hi top Q b c X) : isKeyframe d = some (decide (hi % 8 = 1)) := by
  have hc := h.hi
  simp only [isKeyframe, h.zero, h.first, Option.bind_eq_bind, Option.bind_some, Option.pure_def]
  rw [if_neg (by decide), hc]

theorem v1_off_coded {cc R : Bytes} (h : Enh d 9 hi 1 Q b c (cc ++ R)) (hhi : 8 ≤ hi) (hl : cc.length = 4) :
    dataOffset d = some (Q.length + if cc = ccAVC ∨ cc = ccHEVC then 8 else 5) := by
  have hc := h.hi
  have hb := h.top
  simp only [dataOffset, h.zero, h.first, h.skip, h.at, Option.bind_eq_bind, Option.bind_some, Option.pure_def]
  rw [if_pos ⟨trivial, by omega⟩]
  simp only [hb]
  rw [h.four [] cc R rfl hl 1 rfl]
  simp only [Option.bind_some, or_comm (a := cc = ccAVC)]
  split <;> rfl

theorem v1_off_plain (h : Enh d 9 hi top Q b c X) (hhi : 8 ≤ hi) (ht : top = 0 ∨ top = 2 ∨ top = 3 ∨ top = 4 ∨ top = 5) :
    dataOffset d = some (Q.length + 5) := by
  have hc := h.hi
  have hb := h.top
  simp only [dataOffset, h.zero, h.first, h.skip, h.at, Option.bind_eq_bind, Option.bind_some, Option.pure_def]
  rw [if_pos ⟨trivial, by omega⟩]
  rcases ht with ht | ht | ht | ht | ht <;> subst ht <;> simp only [hb]

theorem offset_other (h : Enh d ty hi top Q b c X) (hhi : 8 ≤ hi) (h1 : top ≠ 1) (h6 : top ≠ 6) : offset d = some 0 := by
  have hc := h.hi
  have hb := h.top
  simp only [offset, h.first, h.skip, h.at, Option.bind_eq_bind, Option.bind_some, Option.pure_def]
  rw [if_pos (by omega), if_pos (by omega)]

theorem offset_none {cc R : Bytes} (h : Enh d ty hi 1 Q b c (cc ++ R)) (hhi : 8 ≤ hi) (hl : cc.length = 4)
    (hcc : ¬ (cc = ccAVC ∨ cc = ccHEVC)) : offset d = some 0 := by
  have hc := h.hi
  have hb := h.top
  simp only [offset, h.first, h.skip, h.at, Option.bind_eq_bind, Option.bind_some, Option.pure_def]
  rw [if_pos (by omega), if_neg (by omega), if_neg (by omega), h.four [] cc R rfl hl 1 rfl]
  simp only [Option.bind_some]
  rw [if_neg hcc]

/-! ### Video, one of several tracks -/

theorem vm_codec {name : String} {cc R : Bytes} {ho : Bool} {q : UInt8} (hv : VideoCode name cc ho)
    (h : Enh d 9 hi 6 Q b c (q :: (cc ++ R))) (hhi : 8 ≤ hi) (hq : q.toNat / 16 = 0) (hq4 : q.toNat % 16 ≠ 4) : videoCodec d = some name := by
  obtain ⟨n1, n2, -⟩ := videoName_ok hv
  have hc := h.hi
  have hb := h.top
  simp only [videoCodec, h.first, h.skip, h.at, h.one, Option.bind_eq_bind, Option.bind_some, Option.pure_def, List.getElem?_cons_zero]
  rw [if_pos (by omega), if_pos hb, if_neg (by omega), if_neg hq4, h.four [q] cc R rfl n2 2 rfl]
  simp [n1]

theorem vm_needs {q : UInt8} (h : Enh d 9 hi 6 Q b c (q :: X)) (hhi : 8 ≤ hi) (hq : q.toNat / 16 = 0) (hq4 : q.toNat % 16 ≠ 4) :
    needsInit d = some true := by
  have hc := h.hi
  have hb := h.top
  simp only [needsInit, h.zero, h.first, h.skip, h.at, h.one, Option.bind_eq_bind, Option.bind_some, Option.pure_def, List.getElem?_cons_zero]
  rw [if_pos trivial, if_pos (by omega), if_pos hb, if_neg (by omega), if_neg hq4]

theorem vm_isInit {q : UInt8} (h : Enh d 9 hi 6 Q b c (q :: X)) (hhi : 8 ≤ hi) :
    isInit d = some (decide (q.toNat % 16 = 0) || decide (q.toNat % 16 = 5)) := by
  have hc := h.hi
  have hb := h.top
  simp only [isInit, h.zero, h.first, h.skip, h.at, h.one, Option.bind_eq_bind, Option.bind_some, Option.pure_def, List.getElem?_cons_zero]
  rw [if_pos trivial, if_pos (by omega), if_pos hb]

theorem vm_track {cc R : Bytes} {q i : UInt8} (h : Enh d 9 hi 6 Q b c (q :: (cc ++ i :: R))) (hl : cc.length = 4) (hhi : 8 ≤ hi)
    (hq : q.toNat / 16 = 0) : trackID d = some (400 + i.toNat) := by
  have hc := h.hi
  have hb := h.top
  have h5 : (q :: (cc ++ i :: R))[5]? = some i := by
    rw [List.getElem?_cons_succ, List.getElem?_append_right (by omega)]; simp [hl]
  simp only [trackID, h.zero, h.first, h.skip, h.at, h.one, h.six, h5, Option.bind_eq_bind, Option.bind_some, Option.pure_def,
    List.getElem?_cons_zero]
  rw [if_neg (by decide), if_pos trivial, if_pos (by omega), if_pos hb, if_neg (by omega)]

theorem vm_off {cc R : Bytes} {q : UInt8} (h : Enh d 9 hi 6 Q b c (q :: (cc ++ R))) (hl : cc.length = 4) (hhi : 8 ≤ hi)
    (hq : q.toNat / 16 = 0) :
    dataOffset d = some (Q.length + if q.toNat % 16 = 1 ∧ (cc = ccAVC ∨ cc = ccHEVC) then 10 else 7) := by
  have hc := h.hi
  have hb := h.top
  simp only [dataOffset, h.zero, h.first, h.skip, h.at, h.one, Option.bind_eq_bind, Option.bind_some, Option.pure_def,
    List.getElem?_cons_zero]
  rw [if_pos ⟨trivial, by omega⟩]
  simp only [hb]
  rw [if_neg (by omega), h.four [q] cc R rfl hl 2 rfl]
  simp only [Option.bind_some, or_comm (a := cc = ccAVC)]
  by_cases h1 : q.toNat % 16 = 1 <;> by_cases h2 : cc = ccHEVC ∨ cc = ccAVC <;> simp [h1, h2]

theorem vm_offset {cc R : Bytes} {q i : UInt8} (h : Enh d 9 hi 6 Q b c (q :: (cc ++ i :: R))) (hl : cc.length = 4) (hhi : 8 ≤ hi)
    (hq1 : q.toNat % 16 = 1) (hcc : cc = ccAVC ∨ cc = ccHEVC) (o : Int) (ho : Fits24 o) (S : Bytes) (hR : R = si24 o ++ S) :
    offset d = some o := by
  have hc := h.hi
  have hb := h.top
  simp only [offset, h.first, h.skip, h.at, h.one, Option.bind_eq_bind, Option.bind_some, Option.pure_def, List.getElem?_cons_zero]
  rw [if_pos (by omega), if_neg (by omega), if_pos hb, if_neg (by omega), h.four [q] cc (i :: R) rfl hl 2 rfl]
  simp only [Option.bind_some]
  rw [if_pos hcc]
  have := signed24_si24 o ho (Q ++ b :: q :: (cc ++ [i])) S
  rw [← hR] at this
  rw [h.eq]
  simpa [hl] using this

theorem vm_offset_none {cc R : Bytes} {q : UInt8} (h : Enh d 9 hi 6 Q b c (q :: (cc ++ R))) (hl : cc.length = 4) (hhi : 8 ≤ hi)
    (hcc : q.toNat % 16 ≠ 1 ∨ ¬ (cc = ccAVC ∨ cc = ccHEVC)) : offset d = some 0 := by
  have hc := h.hi
  have hb := h.top
  simp only [offset, h.first, h.skip, h.at, h.one, Option.bind_eq_bind, Option.bind_some, Option.pure_def, List.getElem?_cons_zero]
  rw [if_pos (by omega), if_neg (by omega), if_pos hb, h.four [q] cc R rfl hl 2 rfl]
  simp only [Option.bind_some]
  by_cases h1 : q.toNat % 16 = 1
  · rw [if_neg (by omega), if_neg (by rcases hcc with h | h; exact absurd h1 h; exact h)]
  · rw [if_pos h1]

/-! ### Audio -/

theorem a1_codec {name : String} {cc R : Bytes} {ni : Bool} (hv : AudioCode name cc ni) (h : Enh d 8 9 top Q b c (cc ++ R)) (h5 : top ≠ 5) :
    audioCodec d = some name := by
  obtain ⟨n1, n2, -⟩ := audioName_ok hv
  have hc := h.hi
  have hb := h.top
  simp only [audioCodec, h.first, h.skip, h.at, Option.bind_eq_bind, Option.bind_some, Option.pure_def, hc]
  rw [if_neg (by omega), h.four [] cc R rfl n2 1 rfl]
  simp [n1]

theorem a1_needs {cc R : Bytes} (h : Enh d 8 9 top Q b c (cc ++ R)) (hl : cc.length = 4) (h5 : top ≠ 5) :
    needsInit d = some (decide (cc = ccOpus) || decide (cc = ccFLAC) || decide (cc = ccAAC)) := by
  have hc := h.hi
  have hb := h.top
  simp only [needsInit, h.zero, h.first, h.skip, h.at, Option.bind_eq_bind, Option.bind_some, Option.pure_def, hc]
  rw [if_neg (by decide), if_pos trivial, if_neg (by decide), if_pos trivial, if_neg (by omega), h.four [] cc R rfl hl 1 rfl]
  rfl

theorem a1_isInit (h : Enh d 8 9 top Q b c X) (h5 : top ≠ 5) : isInit d = some (decide (top = 0)) := by
  have hc := h.hi
  have hb := h.top
  simp only [isInit, h.zero, h.first, h.skip, h.at, Option.bind_eq_bind, Option.bind_some, Option.pure_def, hc]
  rw [if_neg (by decide), if_pos trivial, if_pos trivial, if_neg (by omega)]
  simp [hb]

theorem a1_track (h : Enh d 8 9 top Q b c X) (h5 : top ≠ 5) : trackID d = some 2 := by
  have hc := h.hi
  have hb := h.top
  simp only [trackID, h.zero, h.first, h.skip, h.at, Option.bind_eq_bind, Option.bind_some, Option.pure_def, hc]
  rw [if_pos trivial, if_pos trivial, if_neg (by omega)]

theorem a_key (h : d[0]? = some 8) : isKeyframe d = some false := by
  simp only [isKeyframe, h, Option.bind_eq_bind, Option.bind_some, Option.pure_def]
  rw [if_pos (by decide)]

theorem a1_off (h : Enh d 8 9 top Q b c X) (h5 : top ≠ 5) : dataOffset d = some (Q.length + 5) := by
  have hc := h.hi
  have hb := h.top
  simp only [dataOffset, h.zero, h.first, h.skip, h.at, Option.bind_eq_bind, Option.bind_some, Option.pure_def, hc]
  rw [if_neg (by simp), if_neg (by simp), if_pos ⟨trivial, trivial⟩, if_neg (by omega)]

theorem am_codec {name : String} {cc R : Bytes} {ni : Bool} {q : UInt8} (hv : AudioCode name cc ni)
    (h : Enh d 8 9 5 Q b c (q :: (cc ++ R))) (hq : q.toNat / 16 = 0) : audioCodec d = some name := by
  obtain ⟨n1, n2, -⟩ := audioName_ok hv
  have hc := h.hi
  have hb := h.top
  simp only [audioCodec, h.first, h.skip, h.at, h.one, Option.bind_eq_bind, Option.bind_some, Option.pure_def, hc, List.getElem?_cons_zero]
  rw [if_pos hb, if_neg (by omega), h.four [q] cc R rfl n2 2 rfl]
  simp [n1]

theorem am_needs {cc R : Bytes} {q : UInt8} (h : Enh d 8 9 5 Q b c (q :: (cc ++ R))) (hl : cc.length = 4) (hq : q.toNat / 16 = 0) :
    needsInit d = some (decide (cc = ccOpus) || decide (cc = ccFLAC) || decide (cc = ccAAC)) := by
  have hc := h.hi
  have hb := h.top
  simp only [needsInit, h.zero, h.first, h.skip, h.at, h.one, Option.bind_eq_bind, Option.bind_some, Option.pure_def, hc,
    List.getElem?_cons_zero]
  rw [if_neg (by decide), if_pos trivial, if_neg (by decide), if_pos trivial, if_pos hb, if_neg (by omega), h.four [q] cc R rfl hl 2 rfl]
  rfl

theorem am_isInit {q : UInt8} (h : Enh d 8 9 5 Q b c (q :: X)) : isInit d = some (decide (q.toNat % 16 = 0)) := by
  have hc := h.hi
  have hb := h.top
  simp only [isInit, h.zero, h.first, h.skip, h.at, h.one, Option.bind_eq_bind, Option.bind_some, Option.pure_def, hc,
    List.getElem?_cons_zero]
  rw [if_neg (by decide), if_pos trivial, if_pos trivial, if_pos hb]

theorem am_track {cc R : Bytes} {q i : UInt8} (h : Enh d 8 9 5 Q b c (q :: (cc ++ i :: R))) (hl : cc.length = 4)
    (hq : q.toNat / 16 = 0) : trackID d = some (100 + i.toNat) := by
  have hc := h.hi
  have hb := h.top
  have h5 : (q :: (cc ++ i :: R))[5]? = some i := by
    rw [List.getElem?_cons_succ, List.getElem?_append_right (by omega)]; simp [hl]
  simp only [trackID, h.zero, h.first, h.skip, h.at, h.one, h.six, h5, Option.bind_eq_bind, Option.bind_some, Option.pure_def, hc,
    List.getElem?_cons_zero]
  rw [if_pos trivial, if_pos trivial, if_pos hb, if_neg (by omega)]

theorem am_off {q : UInt8} (h : Enh d 8 9 5 Q b c (q :: X)) (hq : q.toNat / 16 = 0) : dataOffset d = some (Q.length + 7) := by
  have hc := h.hi
  have hb := h.top
  simp only [dataOffset, h.zero, h.first, h.skip, h.at, h.one, Option.bind_eq_bind, Option.bind_some, Option.pure_def, hc,
    List.getElem?_cons_zero]
  rw [if_neg (by simp), if_neg (by simp), if_pos ⟨trivial, trivial⟩, if_pos hb, if_neg (by omega)]

end

/-! ### Everything together -/

theorem receive_frame {d data : Bytes} {track time : Nat} {codec : String} {off : Int} {key ni ii : Bool} (hd : mediaData d = some data)
    (hne : data ≠ []) (ht : trackID d = some track) (hc : codecOf d = some codec) (hn : needsInit d = some ni) (hi : isInit d = some ii)
    (hf : ¬ (ni ∧ ii)) (htm : tagTime d = some time) (ho : offset d = some off) (hk : isKeyframe d = some key) :
    receive d = some (.frame ⟨track, codec, time, off, key, data⟩) := by
  simp only [receive, hd, ht, hc, hn, hi, htm, ho, hk, Option.bind_eq_bind, Option.bind_some, Option.pure_def]
  rw [if_neg hne, if_neg hf]

theorem receive_init {d data : Bytes} {track : Nat} {codec : String} (hd : mediaData d = some data)
    (hne : data ≠ []) (ht : trackID d = some track) (hc : codecOf d = some codec) (hn : needsInit d = some true) (hi : isInit d = some true) :
    receive d = some (.init track codec data) := by
  simp only [receive, hd, ht, hc, hn, hi, Option.bind_eq_bind, Option.bind_some, Option.pure_def]
  rw [if_neg hne]
  simp

theorem codecOf_video {d : Bytes} (h : d[0]? = some 9) : codecOf d = videoCodec d := by
  simp only [codecOf, h, Option.bind_eq_bind, Option.bind_some]; rfl
theorem codecOf_audio {d : Bytes} (h : d[0]? = some 8) : codecOf d = audioCodec d := by
  simp only [codecOf, h, Option.bind_eq_bind, Option.bind_some]; rfl

end Verif.Flv
