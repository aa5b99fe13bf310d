import Verif.Rtp.Model
import Verif.Rtp.Spec
import Verif.Ebml.Lemmas
import Verif.Bit.Props

/-!
# C28: the receiver finds the header length and the payload
-/
namespace Verif.Rtp
open Spec

theorem b0_facts (cc : Fin 16) (pad ext : Bool) :
    let b := UInt8.ofNat (2 * 64 + (if pad then 0 else 32) + (if ext then 16 else 0) + cc.val)
    contribCount b = cc.val - cc.val % 2 ∧ hasPadding b = !pad ∧ hasExtension b = ext := by
  revert cc pad ext; decide +kernel

theorem flatMap_be_length (l : List Nat) : (l.flatMap (beEnc 4)).length = 4 * l.length := by
  induction l with
  | nil => rfl
  | cons a l ih => simp only [List.flatMap_cons, List.length_append, beEnc_length, ih, List.length_cons]; omega

theorem extBytes_length (e : Option (Nat × List Nat)) :
    (extBytes e).length = match e with | none => 0 | some (_, words) => 4 + 4 * words.length := by
  cases e with
  | none => rfl
  | some e =>
    obtain ⟨p, w⟩ := e
    simp only [extBytes, List.length_append, beEnc_length, flatMap_be_length]

theorem header_length (p : Pkt) : p.header.length = p.headerLen := by
  simp only [Pkt.header, Pkt.headerLen, List.length_append, beEnc_length, flatMap_be_length,
    extBytes_length, List.length_cons, List.length_nil]
  cases p.ext <;> simp

theorem padBytes_length (n : Nat) : (padBytes n).length = n := by
  unfold padBytes
  split
  · simp only [List.length_nil]; omega
  · simp only [List.length_append, List.length_replicate, List.length_cons, List.length_nil]; omega

theorem encode_head (p : Pkt) : p.encode[0]? = some (UInt8.ofNat (2 * 64 + (if p.pad = 0 then 0 else 32) +
    (if p.ext.isSome then 16 else 0) + p.csrc.length)) := by
  simp [Pkt.encode, Pkt.header]

theorem head_facts (p : Pkt) (hv : p.Valid) :
    let b := UInt8.ofNat (2 * 64 + (if p.pad = 0 then 0 else 32) +
      (if p.ext.isSome then 16 else 0) + p.csrc.length)
    contribCount b = p.csrc.length - p.csrc.length % 2 ∧ hasPadding b = !(decide (p.pad = 0)) ∧
      hasExtension b = p.ext.isSome := by
  have h := b0_facts ⟨p.csrc.length, by have := hv.csrc; omega⟩ (decide (p.pad = 0)) p.ext.isSome
  simpa only [decide_eq_true_eq] using h

/-- The padding length is found. -/
theorem padding_found (p : Pkt) (hv : p.Valid) : paddingLen p.encode = some p.pad := by
  obtain ⟨-, h2, -⟩ := head_facts p hv
  unfold paddingLen
  rw [encode_head]
  simp only [Option.bind_eq_bind, Option.bind_some]
  rw [h2]
  by_cases h0 : p.pad = 0
  · simp [h0]
  · simp only [h0, decide_false, Bool.not_false, if_true]
    have : p.encode = (p.header ++ p.payload ++ List.replicate (p.pad - 1) 0) ++ [UInt8.ofNat p.pad] := by
      simp only [Pkt.encode, padBytes, h0, if_false, List.append_assoc]
    rw [this, List.length_append, List.length_singleton, Nat.add_sub_cancel, List.getElem?_append_right (Nat.le_refl _)]
    simp [Nat.mod_eq_of_lt hv.pad]

/-- The payload found with a header length of `h`. -/
theorem payload_found (p : Pkt) (hv : p.Valid) (h : Nat) (hh : getHsize p.encode = some h)
    (hle : h ≤ p.headerLen) :
    getPayload p.encode = some (p.header.drop h ++ p.payload) := by
  have hlen : p.encode.length = p.headerLen + p.payload.length + p.pad := by
    simp only [Pkt.encode, List.length_append, padBytes_length, header_length]
  unfold getPayload getPayloadSize
  rw [hh, padding_found p hv]
  simp only [Option.bind_eq_bind, Option.bind_some]
  have e1 : p.encode.drop h = (p.header.drop h ++ p.payload) ++ padBytes p.pad := by
    simp only [Pkt.encode, List.append_assoc]
    rw [List.drop_append_of_le_length (by rw [header_length]; exact hle)]
  have l1 : (p.header.drop h ++ p.payload).length = p.headerLen - h + p.payload.length := by
    simp only [List.length_append, List.length_drop, header_length]
  by_cases hc : h + p.pad ≥ p.encode.length
  · rw [if_pos hc]
    simp only [Option.bind_some, List.take_zero]
    have : (p.header.drop h ++ p.payload).length = 0 := by omega
    rw [List.length_eq_zero_iff.mp this]
  · rw [if_neg hc]
    simp only [Option.bind_some]
    rw [e1, List.take_append_of_le_length (by omega), List.take_of_length_le (by omega)]

/-- **C28 (partial).** For every RTP packet with an even number of contributing sources (in
particular none), any extension and any padding, the receiver computes exactly the header length of
the packet and finds exactly the payload that was put in. Missing: odd numbers of contributing
sources, for which it is false (`C28_fails`). -/
theorem C28_header_partial (p : Pkt) (hv : p.Valid) (heven : p.csrc.length % 2 = 0) :
    getHsize p.encode = some p.headerLen ∧ getPayload p.encode = some p.payload := by
  have hs : getHsize p.encode = some p.headerLen := by
    obtain ⟨h1, -, h3⟩ := head_facts p hv
    unfold getHsize
    rw [encode_head]
    simp only [Option.bind_eq_bind, Option.bind_some]
    rw [h1, h3, heven, Nat.sub_zero]
    cases he : p.ext with
    | none => simp only [Option.isSome_none, Bool.false_eq_true, if_false, Pkt.headerLen, he, Nat.add_zero]
    | some e =>
      obtain ⟨prof, words⟩ := e
      simp only [Option.isSome_some, if_true, Pkt.headerLen, he]
      have e2 : p.encode.drop (12 + 4 * p.csrc.length + 2) = beEnc 2 words.length ++
          (words.flatMap (beEnc 4) ++ p.payload ++ padBytes p.pad) := by
        have : p.encode = ([UInt8.ofNat (2 * 64 + (if p.pad = 0 then 0 else 32) + (if p.ext.isSome then 16 else 0) + p.csrc.length),
            UInt8.ofNat ((if p.marker then 128 else 0) + p.payloadType)] ++
            beEnc 2 p.sequence ++ beEnc 4 p.timestamp ++ beEnc 4 p.ssrc ++ p.csrc.flatMap (beEnc 4) ++
            beEnc 2 prof) ++ (beEnc 2 words.length ++
          (words.flatMap (beEnc 4) ++ p.payload ++ padBytes p.pad)) := by
          simp only [Pkt.encode, Pkt.header, he, extBytes, List.append_assoc]
        rw [this]
        exact List.drop_left' (by
          simp only [List.length_append, beEnc_length, flatMap_be_length, List.length_cons, List.length_nil])
      have hw : words.length < 256 ^ 2 := hv.ext (prof, words) he
      rw [e2]
      have h16 := Ebml.btoh_be .s rfl words.length (words.flatMap (beEnc 4) ++ p.payload ++ padBytes p.pad)
      rw [show Bit.Codec.s.width = 2 from rfl, Nat.mod_eq_of_lt hw] at h16
      rw [h16]
      exact congrArg some (by omega)
  refine ⟨hs, ?_⟩
  rw [payload_found p hv _ hs (Nat.le_refl _)]
  rw [List.drop_of_length_le (l := p.header) (by rw [header_length]; exact Nat.le_refl _)]
  rfl

/-- Non-vacuity: a packet with two contributing sources, an extension and padding. -/
example : ∃ p : Pkt, p.Valid ∧ p.csrc.length = 2 ∧ p.ext.isSome ∧ p.pad = 3 ∧
    getHsize p.encode = some 28 ∧ getPayload p.encode = some [1, 2, 3] :=
  let p : Pkt := ⟨true, 96, 65535, 5, 6, [7, 8], some (0xBEDE, [9]), [1, 2, 3], 3⟩
  have hv : p.Valid := ⟨by decide, by decide, by decide, by decide, by decide,
    (fun e he => by cases he; decide), by decide⟩
  ⟨p, hv, rfl, rfl, rfl, (C28_header_partial p hv (by decide)).1, (C28_header_partial p hv (by decide)).2⟩

/-- The other header fields are read back as they were put in. -/
theorem C28_fields (p : Pkt) (hv : p.Valid) :
    getMarker p.encode = some p.marker ∧ getPayloadType p.encode = some p.payloadType ∧
    getSequence p.encode = some p.sequence ∧ getTimeStamp p.encode = some p.timestamp ∧
    getSSRC p.encode = some p.ssrc := by
  have hb : ∀ (m : Bool) (n : Fin 128),
      decide ((UInt8.ofNat ((if m then 128 else 0) + n.val) >>> 7) &&& 1 = 1) = m ∧
      (UInt8.ofNat ((if m then 128 else 0) + n.val) &&& 0x7F).toNat = n.val := by decide +kernel
  have hb := hb p.marker ⟨p.payloadType, hv.payloadType⟩
  have e1 : p.encode[1]? = some (UInt8.ofNat ((if p.marker then 128 else 0) + p.payloadType)) := by
    simp [Pkt.encode, Pkt.header]
  have e2 : ∃ r, p.encode.drop 2 = beEnc 2 p.sequence ++ r := by
    exact ⟨_, by simp only [Pkt.encode, Pkt.header, List.cons_append, List.nil_append,
      List.append_assoc, List.drop_succ_cons, List.drop_zero]; rfl⟩
  have e4 : ∃ r, p.encode.drop 4 = beEnc 4 p.timestamp ++ r := by
    refine ⟨beEnc 4 p.ssrc ++ (p.csrc.flatMap (beEnc 4) ++ (extBytes p.ext ++ (p.payload ++ padBytes p.pad))), ?_⟩
    rw [show p.encode = ([UInt8.ofNat (2 * 64 + (if p.pad = 0 then 0 else 32) + (if p.ext.isSome then 16 else 0) + p.csrc.length),
      UInt8.ofNat ((if p.marker then 128 else 0) + p.payloadType)] ++ beEnc 2 p.sequence) ++
      (beEnc 4 p.timestamp ++ (beEnc 4 p.ssrc ++ (p.csrc.flatMap (beEnc 4) ++ (extBytes p.ext ++ (p.payload ++ padBytes p.pad))))) by
        simp only [Pkt.encode, Pkt.header, List.append_assoc]]
    exact List.drop_left' (by simp only [List.length_append, beEnc_length, List.length_cons, List.length_nil])
  have e8 : ∃ r, p.encode.drop 8 = beEnc 4 p.ssrc ++ r := by
    refine ⟨(p.csrc.flatMap (beEnc 4) ++ (extBytes p.ext ++ (p.payload ++ padBytes p.pad))), ?_⟩
    rw [show p.encode = ([UInt8.ofNat (2 * 64 + (if p.pad = 0 then 0 else 32) + (if p.ext.isSome then 16 else 0) + p.csrc.length),
      UInt8.ofNat ((if p.marker then 128 else 0) + p.payloadType)] ++ beEnc 2 p.sequence ++ beEnc 4 p.timestamp) ++
      ((beEnc 4 p.ssrc ++ (p.csrc.flatMap (beEnc 4) ++ (extBytes p.ext ++ (p.payload ++ padBytes p.pad))))) by
        simp only [Pkt.encode, Pkt.header, List.append_assoc]]
    exact List.drop_left' (by simp only [List.length_append, beEnc_length, List.length_cons, List.length_nil])
  obtain ⟨r2, e2⟩ := e2
  obtain ⟨r4, e4⟩ := e4
  obtain ⟨r8, e8⟩ := e8
  refine ⟨?_, ?_, ?_, ?_, ?_⟩
  · rw [getMarker, e1]; exact congrArg some hb.1
  · rw [getPayloadType, e1]; exact congrArg some hb.2
  · rw [getSequence, e2]
    exact (Ebml.btoh_be .s rfl p.sequence r2).trans (congrArg some (Nat.mod_eq_of_lt hv.sequence))
  · rw [getTimeStamp, e4]
    exact (Ebml.btoh_be .l rfl p.timestamp r4).trans (congrArg some (Nat.mod_eq_of_lt hv.timestamp))
  · rw [getSSRC, e8]
    exact (Ebml.btoh_be .l rfl p.ssrc r8).trans (congrArg some (Nat.mod_eq_of_lt hv.ssrc))

/-- **C28 fails** for every packet with an odd number of contributing sources (and no extension):
the header length computed is four bytes short, and the last contributing source is taken for the
beginning of the payload. (`getContribCount`, rtp.cpp 43, masks with `0xE` instead of `0xF`.) -/
theorem C28_fails (p : Pkt) (hv : p.Valid) (csrc : List Nat) (last : Nat)
    (hc : p.csrc = csrc ++ [last]) (hodd : p.csrc.length % 2 = 1) (hext : p.ext = none) :
    getHsize p.encode = some (p.headerLen - 4) ∧
    getPayload p.encode = some (beEnc 4 last ++ p.payload) := by
  have hs : getHsize p.encode = some (p.headerLen - 4) := by
    obtain ⟨h1, -, h3⟩ := head_facts p hv
    unfold getHsize
    rw [encode_head]
    simp only [Option.bind_eq_bind, Option.bind_some]
    rw [h1, h3, hodd, hext]
    simp only [Option.isSome_none, Bool.false_eq_true, if_false, Pkt.headerLen, hext]
    exact congrArg some (by omega)
  refine ⟨hs, ?_⟩
  rw [payload_found p hv _ hs (Nat.sub_le _ _)]
  have : p.header = ([UInt8.ofNat (2 * 64 + (if p.pad = 0 then 0 else 32) + (if p.ext.isSome then 16 else 0) + p.csrc.length),
      UInt8.ofNat ((if p.marker then 128 else 0) + p.payloadType)] ++ beEnc 2 p.sequence ++ beEnc 4 p.timestamp ++
      beEnc 4 p.ssrc ++ csrc.flatMap (beEnc 4)) ++ beEnc 4 last := by
    simp only [Pkt.header, hext, extBytes, hc, List.flatMap_append, List.flatMap_cons, List.flatMap_nil, List.append_nil,
      List.append_assoc]
  rw [this]
  rw [List.drop_left' (by
    simp only [List.length_append, beEnc_length, List.length_cons, List.length_nil, flatMap_be_length,
      Pkt.headerLen, hext, hc]; omega)]

example : ∃ p : Pkt, p.Valid ∧ getHsize p.encode = some 12 ∧ p.headerLen = 16 :=
  let p : Pkt := { marker := true, payloadType := 96, sequence := 1, timestamp := 2, ssrc := 3, csrc := [4], payload := [5] }
  have hv : p.Valid := ⟨by decide, by decide, by decide, by decide, by decide,
    (fun e he => by cases he), by decide⟩
  ⟨p, hv, (C28_fails p hv [] 4 rfl (by decide) rfl).1, rfl⟩

end Verif.Rtp
