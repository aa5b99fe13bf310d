import Verif.Rtp.Header

/-!
# C27: fragmentation of frames over RTP packets (sending side)
-/
namespace Verif.Rtp
open Spec

theorem beEnc_mod (n v : Nat) : beEnc n (v % 256 ^ n) = beEnc n v := by
  have h := beEnc_beVal (beEnc n v)
  rwa [beEnc_length, beVal_beEnc] at h

/-- The header of a packet without contributing sources, extension and padding. -/
def hdr (m : Bool) (pt seq ts ssrc : Nat) : Bytes :=
  ({ marker := m, payloadType := pt, sequence := seq, timestamp := ts, ssrc := ssrc, payload := [] } : Pkt).header

theorem hdr_eq (m : Bool) (pt seq ts ssrc : Nat) : hdr m pt seq ts ssrc =
    0x80 :: UInt8.ofNat ((if m then 128 else 0) + pt) :: (beEnc 2 seq ++ (beEnc 4 ts ++ beEnc 4 ssrc)) := by
  simp [hdr, Pkt.header, extBytes]

theorem hdr_length (m : Bool) (pt seq ts ssrc : Nat) : (hdr m pt seq ts ssrc).length = 12 := by
  simp [hdr_eq]

theorem encode_hdr (m : Bool) (pt seq ts ssrc : Nat) (pl : Bytes) :
    Pkt.encode { marker := m, payloadType := pt, sequence := seq, timestamp := ts, ssrc := ssrc, payload := pl } =
      hdr m pt seq ts ssrc ++ pl := by
  simp [Pkt.encode, Pkt.header, hdr, padBytes]

theorem setMarker_hdr (m m' : Bool) (pt seq ts ssrc : Nat) (hpt : pt < 128) :
    setMarker (hdr m pt seq ts ssrc) m' = hdr m' pt seq ts ssrc := by
  have : ∀ (m m' : Bool) (n : Fin 128),
      (if m' then UInt8.ofNat ((if m then 128 else 0) + n.val) ||| 0x80
        else UInt8.ofNat ((if m then 128 else 0) + n.val) &&& 0x7F) =
      UInt8.ofNat ((if m' then 128 else 0) + n.val) := by decide +kernel
  have := this m m' ⟨pt, hpt⟩
  rw [setMarker, hdr_eq, hdr_eq]
  simp only [List.modify_succ_cons, List.modify_zero_cons]
  rw [this]

theorem increaseSequence_hdr (m : Bool) (pt seq ts ssrc : Nat) :
    increaseSequence (hdr m pt seq ts ssrc) = hdr m pt ((seq % 65536 + 1) % 65536) ts ssrc := by
  have hd : (hdr m pt seq ts ssrc).drop 2 = beEnc 2 seq ++ (beEnc 4 ts ++ beEnc 4 ssrc) := by
    rw [hdr_eq]; rfl
  have hs : getSequence (hdr m pt seq ts ssrc) = some (seq % 65536) := by
    rw [getSequence, hd]
    exact Ebml.btoh_be .s rfl seq _
  rw [increaseSequence, hs]
  simp only [setSequence]
  rw [Ebml.htob_be .s rfl, show Bit.Codec.s.width = 2 from rfl]
  rw [hdr_eq, hdr_eq]
  have : beEnc 2 (seq % 65536 + 1) = beEnc 2 ((seq % 65536 + 1) % 65536) := by
    exact (beEnc_mod 2 (seq % 65536 + 1)).symm
  rw [this]
  simp [beEnc]

/-- A new packet's header: the sequence number is one before the one given. -/
theorem newHeader_eq (pt seq ts ssrc : Nat) :
    newHeader pt seq ts ssrc = hdr false (pt % 128) ((seq + 65535) % 65536) (ts % 2 ^ 32) (ssrc % 2 ^ 32) := by
  have h1 : ∀ c : UInt8, c &&& 0x7F = UInt8.ofNat (c.toNat % 128) := by decide +kernel
  rw [newHeader, hdr_eq, Ebml.htob_be .s rfl, Ebml.htob_be .l rfl, Ebml.htob_be .l rfl]
  rw [h1, u8n, Nat.mod_mod_of_dvd _ (by decide : 128 ∣ 256)]
  rw [show (seq + 65535) % 65536 = (seq + 65535) % 256 ^ 2 from rfl, beEnc_mod,
    show ts % 2 ^ 32 = ts % 256 ^ 4 from rfl, beEnc_mod, show ssrc % 2 ^ 32 = ssrc % 256 ^ 4 from rfl, beEnc_mod]
  simp [Bit.Codec.width]

/-! ## The packets of a frame -/

theorem framePackets_nil (mark : Bool) (pt seq ts ssrc : Nat) : framePackets mark pt seq ts ssrc [] = [] := rfl

theorem framePackets_cons (mark : Bool) (pt seq ts ssrc : Nat) (p : Bytes) (ps : List Bytes) :
    framePackets mark pt seq ts ssrc (p :: ps) =
      (hdr (mark && ps.isEmpty) pt (seq % 65536) ts ssrc ++ p) :: framePackets mark pt (seq + 1) ts ssrc ps := by
  unfold framePackets
  rw [List.mapIdx_cons]
  congr 1
  · rw [encode_hdr]
    cases ps <;> simp
  · apply List.ext_getElem
    · simp
    · intro i h1 h2
      simp only [List.getElem_mapIdx, List.length_cons]
      have e1 : (i + 1 + 1 == ps.length + 1) = (i + 1 == ps.length) := by
        rw [Bool.eq_iff_iff]; simp
      rw [e1, show seq + (i + 1) = seq + 1 + i by omega]

theorem framePackets_mod (mark : Bool) (pt seq ts ssrc : Nat) (ps : List Bytes) :
    framePackets mark pt (seq % 65536) ts ssrc ps = framePackets mark pt seq ts ssrc ps := by
  unfold framePackets
  apply List.ext_getElem
  · simp
  · intro i h1 h2
    simp only [List.getElem_mapIdx]
    rw [show (seq % 65536 + i) % 65536 = (seq + i) % 65536 by omega]

/-- Pieces, each behind a prefix that depends on being first and last. -/
def withDesc (D : Bool → Bool → Bytes) (start : Bool) (pieces : List Bytes) : List Bytes :=
  pieces.mapIdx fun i p => D (start && i == 0) (i + 1 == pieces.length) ++ p

theorem withDesc_cons (D : Bool → Bool → Bytes) (start : Bool) (p : Bytes) (ps : List Bytes) :
    withDesc D start (p :: ps) = (D start ps.isEmpty ++ p) :: withDesc D false ps := by
  unfold withDesc
  rw [List.mapIdx_cons]
  congr 1
  · cases ps <;> simp
  · apply List.ext_getElem
    · simp
    · intro i h1 h2
      simp only [List.getElem_mapIdx, List.length_cons]
      have e1 : (i + 1 + 1 == ps.length + 1) = (i + 1 == ps.length) := by
        rw [Bool.eq_iff_iff]; simp
      rw [e1]
      simp

theorem withDesc_isEmpty (D : Bool → Bool → Bytes) (start : Bool) (ps : List Bytes) :
    (withDesc D start ps).isEmpty = ps.isEmpty := by
  cases ps with
  | nil => rfl
  | cons p ps => rw [withDesc_cons]; rfl

theorem vp8Loop_eq (key start : Bool) (pt ts ssrc : Nat) (hpt : pt < 128) (pl : Bytes) (m : Bool) (seq : Nat) :
    ∃ pieces m' seq', pieces.flatten = pl ∧ (∀ p ∈ pieces, p ≠ [] ∧ p.length ≤ 1200) ∧
      (pl.length % 1200 ≠ 1 → ∀ p ∈ pieces, 2 ≤ p.length) ∧
      vp8Loop key start (hdr m pt (seq % 65536) ts ssrc) pl =
        (framePackets true pt seq ts ssrc (withDesc (fun s _ => [vp8Desc key s]) start pieces), hdr m' pt seq' ts ssrc) ∧
      seq' = (seq + pieces.length) % 65536 ∧ pieces.length = (pl.length + 1199) / 1200 := by
  induction hn : pl.length using Nat.strongRecOn generalizing pl m seq start with
  | ind n ih =>
    rw [vp8Loop]
    by_cases hp : pl = []
    · refine ⟨[], m, seq % 65536, ?_, ?_, ?_, ?_, ?_⟩
      · rw [hp]; rfl
      · intro p h; cases h
      · intro _ p h; cases h
      · rw [dif_pos hp]; rfl
      · refine ⟨by simp, ?_⟩
        rw [← hn, hp]; rfl
    · have hpos : 0 < pl.length := List.length_pos_iff.mpr hp
      rw [dif_neg hp]
      simp only [setMarker_hdr _ _ _ _ _ _ hpt, increaseSequence_hdr, Nat.mod_mod]
      rw [show (seq % 65536 + 1) % 65536 = (seq + 1) % 65536 by omega]
      obtain ⟨ps, m', seq', h1, h2, h2', h3, h4, h5⟩ := ih (pl.drop (min 1200 pl.length)).length
        (by rw [List.length_drop]; omega) false (pl.drop (min 1200 pl.length))
        (decide (pl.length - min 1200 pl.length = 0)) (seq + 1) rfl
      rw [h3]
      have hemp : decide (pl.length - min 1200 pl.length = 0) = ps.isEmpty := by
        have hl : (pl.drop (min 1200 pl.length)).length = pl.length - min 1200 pl.length := List.length_drop
        rw [← h1] at hl
        cases ps with
        | nil =>
          have : pl.length - min 1200 pl.length = 0 := by rw [← hl]; rfl
          simp [this]
        | cons q qs =>
          have hq := (h2 q (List.mem_cons_self ..)).1
          have : 0 < q.length := List.length_pos_iff.mpr hq
          simp only [List.flatten_cons, List.length_append] at hl
          have : ¬ (pl.length - min 1200 pl.length = 0) := by omega
          simp [this]
      refine ⟨pl.take (min 1200 pl.length) :: ps, m', seq', ?_, ?_, ?_, ?_, ?_⟩
      · rw [List.flatten_cons, h1, List.take_append_drop]
      · intro p h
        rcases List.mem_cons.mp h with rfl | h
        · constructor
          · intro h0
            have := congrArg List.length h0
            rw [List.length_take, List.length_nil] at this
            omega
          · rw [List.length_take]; omega
        · exact h2 p h
      · intro hne p h
        rcases List.mem_cons.mp h with rfl | h
        · rw [List.length_take]; omega
        · exact h2' (by rw [List.length_drop]; omega) p h
      · rw [withDesc_cons, framePackets_cons, hemp, withDesc_isEmpty]
        simp
      · rw [h4, List.length_cons, h5, List.length_drop]
        constructor
        · congr 1; omega
        · omega

theorem vp9Loop_eq (key start : Bool) (pt ts ssrc : Nat) (hpt : pt < 128) (pl : Bytes) (m : Bool) (seq : Nat) :
    ∃ pieces m' seq', pieces.flatten = pl ∧ (∀ p ∈ pieces, p ≠ [] ∧ p.length ≤ 1200) ∧
      vp9Loop key start (hdr m pt (seq % 65536) ts ssrc) pl =
        (framePackets true pt seq ts ssrc (withDesc (fun s l => [vp9Desc key s l]) start pieces), hdr m' pt seq' ts ssrc) ∧
      seq' = (seq + pieces.length) % 65536 ∧ pieces.length = (pl.length + 1199) / 1200 := by
  induction hn : pl.length using Nat.strongRecOn generalizing pl m seq start with
  | ind n ih =>
    rw [vp9Loop]
    by_cases hp : pl = []
    · refine ⟨[], m, seq % 65536, ?_, ?_, ?_, ?_⟩
      · rw [hp]; rfl
      · intro p h; cases h
      · rw [dif_pos hp]; rfl
      · refine ⟨by simp, ?_⟩
        rw [← hn, hp]; rfl
    · have hpos : 0 < pl.length := List.length_pos_iff.mpr hp
      rw [dif_neg hp]
      simp only [setMarker_hdr _ _ _ _ _ _ hpt, increaseSequence_hdr, Nat.mod_mod]
      rw [show (seq % 65536 + 1) % 65536 = (seq + 1) % 65536 by omega]
      obtain ⟨ps, m', seq', h1, h2, h3, h4, h5⟩ := ih (pl.drop (min 1200 pl.length)).length
        (by rw [List.length_drop]; omega) false (pl.drop (min 1200 pl.length))
        (decide (pl.length - min 1200 pl.length = 0)) (seq + 1) rfl
      rw [h3]
      have hemp : decide (pl.length - min 1200 pl.length = 0) = ps.isEmpty := by
        have hl : (pl.drop (min 1200 pl.length)).length = pl.length - min 1200 pl.length := List.length_drop
        rw [← h1] at hl
        cases ps with
        | nil =>
          have : pl.length - min 1200 pl.length = 0 := by rw [← hl]; rfl
          simp [this]
        | cons q qs =>
          have hq := (h2 q (List.mem_cons_self ..)).1
          have : 0 < q.length := List.length_pos_iff.mpr hq
          simp only [List.flatten_cons, List.length_append] at hl
          have : ¬ (pl.length - min 1200 pl.length = 0) := by omega
          simp [this]
      refine ⟨pl.take (min 1200 pl.length) :: ps, m', seq', ?_, ?_, ?_, ?_⟩
      · rw [List.flatten_cons, h1, List.take_append_drop]
      · intro p h
        rcases List.mem_cons.mp h with rfl | h
        · constructor
          · intro h0
            have := congrArg List.length h0
            rw [List.length_take, List.length_nil] at this
            omega
          · rw [List.length_take]; omega
        · exact h2 p h
      · rw [withDesc_cons, framePackets_cons, hemp, withDesc_isEmpty]
        simp
      · rw [h4, List.length_cons, h5, List.length_drop]
        constructor
        · congr 1; omega
        · omega

/-- The flag byte of a fragment. -/
def fuFlag (ser : UInt8) (first last : Bool) : UInt8 :=
  (if first then ser ||| 0x80 else ser &&& 0x7F) ||| (if last then 0x40 else 0)

theorem fuLoop_eq (mem pre : Bytes) (ser : UInt8) (skip total sending : Nat) (mark : Bool)
    (pt ts ssrc : Nat) (hpt : pt < 128) (hs : 0 < sending) (hmem : skip + total ≤ mem.length)
    (sent : Nat) (hle : sent ≤ total) (seq : Nat) :
    ∃ pieces m' seq', pieces.flatten = (mem.drop (skip + sent)).take (total - sent) ∧
      (∀ p ∈ pieces, p ≠ [] ∧ p.length ≤ sending) ∧
      fuLoop mem pre ser skip total sending mark (hdr false pt (seq % 65536) ts ssrc) sent =
        some (framePackets mark pt seq ts ssrc
          (withDesc (fun f l => pre ++ [fuFlag ser f l]) (sent == 0) pieces), hdr m' pt seq' ts ssrc) ∧
      seq' = (seq + pieces.length) % 65536 ∧
      pieces.length = (total - sent + sending - 1) / sending := by
  induction hn : total - sent using Nat.strongRecOn generalizing sent seq with
  | ind n ih =>
    rw [fuLoop]
    by_cases hp : sent < total
    · rw [dif_pos ⟨hp, hs⟩]
      by_cases hl : sent + sending ≥ total
      · simp only [hl, decide_true, if_true, Bool.true_and]
        have hr : readMem mem (skip + sent) (total - sent) = some ((mem.drop (skip + sent)).take (total - sent)) := by
          rw [readMem, if_pos (by omega)]
        rw [hr]
        have hend : ∀ h, fuLoop mem pre ser skip total sending mark h (sent + (total - sent)) = some ([], h) := by
          intro h
          rw [fuLoop, dif_neg (by omega), if_neg (by omega)]
        simp only [Option.bind_eq_bind, Option.bind_some, hend]
        refine ⟨[(mem.drop (skip + sent)).take (total - sent)], if mark then true else false, (seq + 1) % 65536, ?_, ?_, ?_, rfl, ?_⟩
        · rw [hn]; simp
        · intro p hpm
          rw [List.mem_singleton] at hpm
          subst hpm
          constructor
          · intro h0
            have := congrArg List.length h0
            rw [List.length_take, List.length_drop, List.length_nil] at this
            omega
          · rw [List.length_take]; omega
        · rw [withDesc_cons, framePackets_cons]
          have hz : (if mark = true then setMarker (hdr false pt (seq % 65536) ts ssrc) true else hdr false pt (seq % 65536) ts ssrc)
              = hdr mark pt (seq % 65536) ts ssrc := by
            cases mark
            · rfl
            · exact setMarker_hdr _ _ _ _ _ _ hpt
          rw [hz, increaseSequence_hdr, Nat.mod_mod, show (seq % 65536 + 1) % 65536 = (seq + 1) % 65536 by omega]
          by_cases h0 : sent = 0 <;> cases mark <;>
            simp [h0, fuFlag, withDesc, framePackets, List.append_assoc]
        · rw [List.length_singleton]
          refine (Nat.div_eq_of_lt_le (by omega) (by omega)).symm
      · simp only [hl, decide_false, Bool.false_and, Bool.false_eq_true, if_false]
        have hr : readMem mem (skip + sent) sending = some ((mem.drop (skip + sent)).take sending) := by
          rw [readMem, if_pos (by omega)]
        rw [hr, increaseSequence_hdr, Nat.mod_mod, show (seq % 65536 + 1) % 65536 = (seq + 1) % 65536 by omega]
        obtain ⟨ps, m', seq', h1, h2, h3, h4, h5⟩ := ih (total - (sent + sending)) (by omega) (sent + sending) (by omega) (seq + 1) rfl
        simp only [Option.bind_eq_bind, Option.bind_some]
        rw [h3]
        have hne : ps ≠ [] := by
          intro h0
          have := congrArg List.length h1
          rw [h0, List.length_take, List.length_drop] at this
          simp only [List.flatten_nil, List.length_nil] at this
          omega
        refine ⟨(mem.drop (skip + sent)).take sending :: ps, m', seq', ?_, ?_, ?_, ?_⟩
        · rw [List.flatten_cons, h1]
          rw [show mem.drop (skip + (sent + sending)) = (mem.drop (skip + sent)).drop sending by
            rw [List.drop_drop]; congr 1; omega]
          rw [← hn, show total - sent = sending + (total - (sent + sending)) by omega, List.take_add]
        · intro p h
          rcases List.mem_cons.mp h with rfl | h
          · constructor
            · intro h0
              have := congrArg List.length h0
              rw [List.length_take, List.length_drop, List.length_nil] at this
              omega
            · rw [List.length_take]; omega
          · exact h2 p h
        · rw [withDesc_cons, framePackets_cons, withDesc_isEmpty]
          have he : ps.isEmpty = false := by cases ps with
            | nil => exact absurd rfl hne
            | cons _ _ => rfl
          have hz : (sent + sending == 0) = false := by
            rw [beq_eq_false_iff_ne]; omega
          rw [he, hz]
          by_cases h0 : sent = 0 <;> simp [h0, fuFlag, List.append_assoc]
        · rw [h4, List.length_cons, h5]
          constructor
          · congr 1; omega
          · rw [show n + sending - 1 = total - (sent + sending) + sending - 1 + sending by omega,
              Nat.add_div_right _ hs]
    · rw [dif_neg (by omega), if_neg hp]
      refine ⟨[], false, seq % 65536, ?_, ?_, rfl, by simp, ?_⟩
      · rw [← hn, show total - sent = 0 by omega]; simp
      · intro p h; cases h
      · rw [← hn, show total - sent = 0 by omega, List.length_nil]
        exact (Nat.div_eq_of_lt (by omega)).symm

/-- Reading past the memory that is there. -/
theorem fuLoop_oob (mem pre : Bytes) (ser : UInt8) (skip total sending : Nat) (mark : Bool)
    (hmem : mem.length < skip + total) (sent : Nat) (hlt : sent < total) (h : Bytes) :
    fuLoop mem pre ser skip total sending mark h sent = none := by
  induction hn : total - sent using Nat.strongRecOn generalizing sent h with
  | ind n ih =>
    rw [fuLoop]
    by_cases hs : 0 < sending
    · rw [dif_pos ⟨hlt, hs⟩]
      by_cases hl : sent + sending ≥ total
      · simp only [hl, decide_true, if_true]
        rw [show readMem mem (skip + sent) (total - sent) = none by rw [readMem, if_neg (by omega)]]
        rfl
      · simp only [hl, decide_false, Bool.false_eq_true, if_false]
        cases readMem mem (skip + sent) sending with
        | none => rfl
        | some piece =>
          simp only [Option.bind_eq_bind, Option.bind_some]
          rw [ih (total - (sent + sending)) (by omega) (sent + sending) (by omega) _ rfl]
          rfl
    · rw [dif_neg (by omega), if_pos hlt]

end Verif.Rtp
