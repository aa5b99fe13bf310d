import Verif.Rtp.Send

/-!
# C27: RTP fragmentation can be reassembled exactly (theorems)

The packets a sender hands to its callback are compared with `Spec.framePackets`: RFC 3550 packets
with the given pieces, consecutive sequence numbers, one timestamp, and the marker on the last one.
`hdr m pt seq ts ssrc` is the header of such a packet (version 2, no contributing sources); a newly
made sender has such a header (`C27_new_sender`), and every send leaves one behind, so the theorems
apply to every frame of a session.
-/
namespace Verif.Rtp
open Spec

theorem packet_size (D : Bool → Bool → Bytes) (k n : Nat) (hD : ∀ f l, (D f l).length = k) (mark : Bool)
    (pt seq ts ssrc : Nat) (ps : List Bytes) (hps : ∀ p ∈ ps, p.length ≤ n) :
    ∀ pkt ∈ framePackets mark pt seq ts ssrc (withDesc D true ps), pkt.length ≤ 12 + k + n := by
  intro pkt hp
  simp only [framePackets, withDesc, List.mem_mapIdx, List.getElem_mapIdx, List.length_mapIdx] at hp
  obtain ⟨i, hi, rfl⟩ := hp
  rw [encode_hdr, List.length_append, List.length_append, hdr_length, hD]
  have := hps ps[i] (List.getElem_mem _)
  omega

theorem withDesc_true (D : Bool → Bool → Bytes) (ps : List Bytes) :
    withDesc D true ps = ps.mapIdx fun i p => D (i == 0) (i + 1 == ps.length) ++ p := by
  simp [withDesc]

/-- A newly made sender: no marker, the sequence number before the one asked for. -/
theorem C27_new_sender (pt seq ts ssrc : Nat) (hpt : pt < 128) (hts : ts < 2 ^ 32) (hss : ssrc < 2 ^ 32) :
    newHeader pt seq ts ssrc = hdr false pt ((seq + 65535) % 65536) ts ssrc := by
  rw [newHeader_eq, Nat.mod_eq_of_lt hpt, Nat.mod_eq_of_lt hts, Nat.mod_eq_of_lt hss]

/-- The VP8 payload descriptor (RFC 7741, 4.2): S (0x10) on the first packet of a frame, N (0x20) on
frames that are not key frames. -/
def vp8Descriptor (key first : Bool) : Bytes := [(if first then 16 else 0) + (if key then 0 else 32)]

/-- The VP9 payload descriptor (RFC 9628, 4.2): B (0x08) on the first, E (0x04) on the last packet of
a frame, P (0x40) on frames that are not key frames. -/
def vp9Descriptor (key first last : Bool) : Bytes :=
  [(if first then 8 else 0) + (if last then 4 else 0) + (if key then 0 else 64)]

/-- **C27 for VP8.** Every frame is sent as packets of at most 12 + 1 + 1200 bytes whose payloads,
without the descriptor, concatenate to the frame; sequence numbers are consecutive, the marker is on
the last packet only. -/
theorem C27_vp8 (m : Bool) (pt seq ts ssrc : Nat) (hpt : pt < 128) (hseq : seq < 65536)
    (frame : Bytes) (b : UInt8) (hb : frame.head? = some b) :
    ∃ (pieces : List Bytes) (pkts : List Bytes) (m' : Bool),
      sendVP8 (hdr m pt seq ts ssrc) frame =
        some (pkts, hdr m' pt ((seq + pieces.length) % 65536) ts ssrc) ∧
      pieces.length = (frame.length + 1199) / 1200 ∧ pieces.flatten = frame ∧ (∀ p ∈ pieces, p ≠ []) ∧
      (frame.length % 1200 ≠ 1 → ∀ p ∈ pieces, 2 ≤ p.length) ∧
      pkts = framePackets true pt seq ts ssrc
        (pieces.mapIdx fun i p => vp8Descriptor (b.toNat % 2 == 0) (i == 0) ++ p) ∧
      ∀ pkt ∈ pkts, pkt.length ≤ 12 + 1 + 1200 := by
  obtain ⟨r, rfl⟩ : ∃ r, frame = b :: r := by
    cases frame with
    | nil => cases hb
    | cons x r => simp only [List.head?_cons, Option.some.injEq] at hb; exact ⟨r, by rw [hb]⟩
  have hkey : ∀ b : UInt8, decide (b &&& 1 = 0) = (b.toNat % 2 == 0) := by decide +kernel
  have hkey := hkey b
  obtain ⟨ps, m', seq', h1, h2, h2', h3, h4, h5⟩ := vp8Loop_eq (b &&& 1 = 0) true pt ts ssrc hpt (b :: r) m seq
  rw [Nat.mod_eq_of_lt hseq] at h3
  have hd : (fun (s : Bool) (_ : Bool) => [vp8Desc (b &&& 1 = 0) s]) = fun s _ => vp8Descriptor (b.toNat % 2 == 0) s := by
    funext s _
    rw [hkey]
    cases (b.toNat % 2 == 0) <;> cases s <;> rfl
  rw [hd] at h3
  refine ⟨ps, _, m', ?_, h5, h1, fun p hp => (h2 p hp).1, h2', rfl, ?_⟩
  · unfold sendVP8
    simp only [List.getElem?_cons_zero, Option.bind_eq_bind, Option.bind_some]
    rw [h3, h4]
    simp [withDesc]
  · intro pkt hp
    rw [← withDesc_true (fun s _ => vp8Descriptor (b.toNat % 2 == 0) s)] at hp
    have := packet_size (fun s _ => vp8Descriptor (b.toNat % 2 == 0) s) 1 1200 (fun _ _ => rfl) _ pt seq ts ssrc ps (fun p hp => (h2 p hp).2) pkt hp
    omega

/-- **C27 for VP9.** -/
theorem C27_vp9 (m : Bool) (pt seq ts ssrc : Nat) (hpt : pt < 128) (hseq : seq < 65536)
    (frame : Bytes) (b : UInt8) (hb : frame.head? = some b) :
    ∃ (pieces : List Bytes) (pkts : List Bytes) (m' : Bool),
      sendVP9 (hdr m pt seq ts ssrc) frame =
        some (pkts, hdr m' pt ((seq + pieces.length) % 65536) ts ssrc) ∧
      pieces.length = (frame.length + 1199) / 1200 ∧ pieces.flatten = frame ∧ (∀ p ∈ pieces, p ≠ []) ∧
      pkts = framePackets true pt seq ts ssrc
        (pieces.mapIdx fun i p => vp9Descriptor (vp9Key b) (i == 0) (i + 1 == pieces.length) ++ p) ∧
      ∀ pkt ∈ pkts, pkt.length ≤ 12 + 1 + 1200 := by
  obtain ⟨r, rfl⟩ : ∃ r, frame = b :: r := by
    cases frame with
    | nil => cases hb
    | cons x r => simp only [List.head?_cons, Option.some.injEq] at hb; exact ⟨r, by rw [hb]⟩
  obtain ⟨ps, m', seq', h1, h2, h3, h4, h5⟩ := vp9Loop_eq (vp9Key b) true pt ts ssrc hpt (b :: r) m seq
  rw [Nat.mod_eq_of_lt hseq] at h3
  have hd : (fun (s l : Bool) => [vp9Desc (vp9Key b) s l]) = fun s l => vp9Descriptor (vp9Key b) s l := by
    funext s l
    cases vp9Key b <;> cases s <;> cases l <;> rfl
  rw [hd] at h3
  refine ⟨ps, _, m', ?_, h5, h1, fun p hp => (h2 p hp).1, rfl, ?_⟩
  · unfold sendVP9
    simp only [List.getElem?_cons_zero, Option.bind_eq_bind, Option.bind_some]
    rw [h3, h4]
    simp [withDesc]
  · intro pkt hp
    rw [← withDesc_true (fun s l => vp9Descriptor (vp9Key b) s l)] at hp
    have := packet_size (fun s l => vp9Descriptor (vp9Key b) s l) 1 1200 (fun _ _ => rfl) _ pt seq ts ssrc ps (fun p hp => (h2 p hp).2) pkt hp
    omega

/-- The VP9 key frame test: a shown frame (`show_existing_frame = 0`) of type zero, with the bits one
position lower for profile 3 (VP9 bitstream specification, 6.2: two marker bits, two profile bits,
a reserved bit for profile 3, `show_existing_frame`, `frame_type`). -/
theorem C27_vp9_key (b : UInt8) :
    vp9Key b = if b.toNat / 16 % 4 = 3 then b.toNat / 4 % 2 == 0 && b.toNat / 2 % 2 == 0
      else b.toNat / 8 % 2 == 0 && b.toNat / 4 % 2 == 0 := by
  revert b; decide +kernel

/-- Non-vacuity: a 2500 byte frame is sent, in at least three packets. -/
example : ∃ pkts h, sendVP8 (hdr false 96 65535 7 8) (List.replicate 2500 5) = some (pkts, h) ∧ 3 ≤ pkts.length := by
  obtain ⟨ps, pkts, m', h1, -, h2, h3, -, h4, h5⟩ := C27_vp8 false 96 65535 7 8 (by decide) (by decide)
    (List.replicate 2500 5) 5 (by rw [List.replicate_succ]; rfl)
  refine ⟨pkts, _, h1, ?_⟩
  have hs : ∀ l : List Bytes, (∀ p ∈ l, p.length ≤ 1200) → l.flatten.length ≤ 1200 * l.length := by
    intro l
    induction l with
    | nil => intro _; simp
    | cons a l ih =>
      intro h
      have := h a (List.mem_cons_self ..)
      have := ih fun p hp => h p (List.mem_cons_of_mem _ hp)
      simp only [List.flatten_cons, List.length_append, List.length_cons]
      omega
  have hl : pkts.length = ps.length := by rw [h4]; simp [framePackets]
  have hp : ∀ p ∈ ps, p.length ≤ 1200 := by
    intro p hp
    obtain ⟨i, hi, rfl⟩ := List.getElem_of_mem hp
    have := h5 (pkts[i]'(by omega)) (List.getElem_mem _)
    simp only [h4, framePackets, List.getElem_mapIdx, encode_hdr, List.length_append, hdr_length] at this
    have : (vp8Descriptor ((5 : UInt8).toNat % 2 == 0) (i == 0)).length = 1 := rfl
    omega
  have := hs ps hp
  rw [h2, List.length_replicate] at this
  omega

/-! ## H264 and H265 -/

/-- An H264 FU-A fragment (RFC 6184, 5.8): the indicator has type 28 and the unit's upper three bits,
the header has the start bit, the end bit and the unit's type. -/
def fuA (b : UInt8) (first last : Bool) : Bytes :=
  [UInt8.ofNat (b.toNat / 32 * 32 + 28),
    UInt8.ofNat ((if first then 128 else 0) + (if last then 64 else 0) + b.toNat % 32)]

/-- **C27 for H264, units that fit in one packet**: sent as they are, marker only on the last picture
slice of a frame. -/
theorem C27_h264_single (max : Nat) (m : Bool) (pt seq ts ssrc : Nat) (hpt : pt < 128) (hseq : seq < 65536)
    (unit after : Bytes) (b : UInt8) (hb : unit.head? = some b) (last : Bool)
    (hfit : unit.length + 12 + 2 ≤ max) :
    ∃ m', sendH264 max (hdr m pt seq ts ssrc) unit after last =
      some (framePackets (last && (1 ≤ b.toNat % 32 && b.toNat % 32 ≤ 5)) pt seq ts ssrc [unit],
        hdr m' pt ((seq + 1) % 65536) ts ssrc) := by
  obtain ⟨r, rfl⟩ : ∃ r, unit = b :: r := by
    cases unit with
    | nil => cases hb
    | cons x r => simp only [List.head?_cons, Option.some.injEq] at hb; exact ⟨r, by rw [hb]⟩
  refine ⟨last && (1 ≤ b.toNat % 32 && b.toNat % 32 ≤ 5), ?_⟩
  have hm : ∀ b : UInt8, (!(decide ((b &&& 0x1F).toNat < 1 ∨ (b &&& 0x1F).toNat > 5))) = (decide (1 ≤ b.toNat % 32) && decide (b.toNat % 32 ≤ 5)) := by
    decide +kernel
  have hm := hm b
  unfold sendH264
  simp only [List.cons_append, List.getElem?_cons_zero, Option.bind_eq_bind, Option.bind_some]
  rw [if_pos (by rw [hdr_length]; exact hfit), hm, setMarker_hdr _ _ _ _ _ _ hpt, increaseSequence_hdr,
    framePackets_cons, framePackets_nil]
  simp [Nat.mod_eq_of_lt hseq]

/-- **C27 (partial) for larger H264 units.** With the byte `x` in memory behind the unit: packets of at
most `max` bytes, consecutive sequence numbers, marker on the last one of the frame only, each with the
right FU-A bytes in front; the pieces concatenate to the unit without its first byte (which the
fragment headers carry) *and the byte `x`*. Missing: that they concatenate to the unit and nothing
more, which is false (`C27_h264_fails`). -/
theorem C27_h264_partial (max : Nat) (m : Bool) (pt seq ts ssrc : Nat) (hpt : pt < 128) (hseq : seq < 65536)
    (b : UInt8) (rest : Bytes) (x : UInt8) (after : Bytes) (last : Bool)
    (hmax : 14 < max) (hbig : max < (b :: rest).length + 12 + 2) :
    ∃ (pieces : List Bytes) (pkts : List Bytes) (m' : Bool),
      sendH264 max (hdr m pt seq ts ssrc) (b :: rest) (x :: after) last =
        some (pkts, hdr m' pt ((seq + pieces.length) % 65536) ts ssrc) ∧
      pieces.length = ((b :: rest).length + (max - 14) - 1) / (max - 14) ∧
      pieces.flatten = rest ++ [x] ∧ (∀ p ∈ pieces, p ≠ []) ∧
      pkts = framePackets last pt seq ts ssrc
        (pieces.mapIdx fun i p => fuA b (i == 0) (i + 1 == pieces.length) ++ p) ∧
      ∀ pkt ∈ pkts, pkt.length ≤ max := by
  obtain ⟨ps, m', seq', h1, h2, h3, h4, h5⟩ := fuLoop_eq ((b :: rest) ++ (x :: after)) [(b &&& 0xE0) ||| 0x1C] (b &&& 0x1F)
    1 (b :: rest).length (max - 12 - 2) last pt ts ssrc hpt (by omega)
    (by simp only [List.length_append, List.length_cons]; omega) 0 (Nat.zero_le _) seq
  rw [Nat.mod_eq_of_lt hseq] at h3
  have hd : (fun (f l : Bool) => [(b &&& 0xE0) ||| 0x1C] ++ [fuFlag (b &&& 0x1F) f l]) = fun f l => fuA b f l := by
    funext f l
    have : ∀ (b : UInt8) (f l : Bool), [(b &&& 0xE0) ||| 0x1C] ++ [fuFlag (b &&& 0x1F) f l] = fuA b f l := by
      decide +kernel
    exact this b f l
  rw [hd] at h3
  refine ⟨ps, _, m', ?_, h5, ?_, fun p hp => (h2 p hp).1, rfl, ?_⟩
  · unfold sendH264
    simp only [List.cons_append, List.getElem?_cons_zero, Option.bind_eq_bind, Option.bind_some]
    rw [if_neg (by rw [hdr_length]; omega), setMarker_hdr _ _ _ _ _ _ hpt, hdr_length]
    rw [List.cons_append] at h3
    rw [h3, h4]
    simp [withDesc]
  · rw [h1]
    simp only [List.cons_append, Nat.add_zero, Nat.sub_zero, List.drop_succ_cons, List.drop_zero, List.length_cons]
    rw [show rest ++ x :: after = (rest ++ [x]) ++ after by simp]
    exact List.take_left' (by simp)
  · intro pkt hp
    rw [← withDesc_true (fun f l => fuA b f l)] at hp
    have := packet_size (fun f l => fuA b f l) 2 (max - 12 - 2) (fun _ _ => rfl) _ pt seq ts ssrc ps (fun p hp => (h2 p hp).2) pkt hp
    omega

/-- **C27 fails for H264.** Every unit that does not fit in one packet is sent with one byte too many:
the byte behind it in memory. If nothing is behind it, the sender reads outside the frame. (The loop
in rtp.cpp 305-327 counts `payloadlen` bytes but starts copying at `payload + 1`.) -/
theorem C27_h264_fails (max : Nat) (m : Bool) (pt seq ts ssrc : Nat)
    (b : UInt8) (rest : Bytes) (last : Bool)
    (hbig : max < (b :: rest).length + 12 + 2) :
    sendH264 max (hdr m pt seq ts ssrc) (b :: rest) [] last = none := by
  unfold sendH264
  simp only [List.append_nil, List.getElem?_cons_zero, Option.bind_eq_bind, Option.bind_some]
  rw [if_neg (by rw [hdr_length]; omega)]
  exact fuLoop_oob _ _ _ _ _ _ _ (by simp only [List.length_cons]; omega) 0 (by simp) _

/-- An HEVC fragmentation unit header (RFC 7798, 4.4.3): the unit's two header bytes with type 49, then
start bit, end bit and type. -/
def fuHevc (b0 b1 : UInt8) (first last : Bool) : Bytes :=
  [UInt8.ofNat (b0.toNat / 128 * 128 + 49 * 2 + b0.toNat % 2), b1,
    UInt8.ofNat ((if first then 128 else 0) + (if last then 64 else 0) + b0.toNat / 2 % 64)]

/-- **C27 for H265, units that fit in one packet.** The marker is set on every one of them. -/
theorem C27_h265_single (max : Nat) (m : Bool) (pt seq ts ssrc : Nat) (hpt : pt < 128) (hseq : seq < 65536)
    (unit after : Bytes) (hfit : unit.length + 12 + 3 ≤ max) :
    ∃ m', sendH265 max (hdr m pt seq ts ssrc) unit after =
      some (framePackets true pt seq ts ssrc [unit], hdr m' pt ((seq + 1) % 65536) ts ssrc) := by
  refine ⟨true, ?_⟩
  unfold sendH265
  rw [if_pos (by rw [hdr_length]; exact hfit), setMarker_hdr _ _ _ _ _ _ hpt]
  simp only []
  rw [increaseSequence_hdr, framePackets_cons, framePackets_nil]
  simp [Nat.mod_eq_of_lt hseq]

/-- **C27 (partial) for larger H265 units**: as for H264, but two bytes too many. -/
theorem C27_h265_partial (max : Nat) (m : Bool) (pt seq ts ssrc : Nat) (hpt : pt < 128) (hseq : seq < 65536)
    (b0 b1 : UInt8) (rest : Bytes) (x y : UInt8) (after : Bytes)
    (hmax : 15 < max) (hbig : max < (b0 :: b1 :: rest).length + 12 + 3) :
    ∃ (pieces : List Bytes) (pkts : List Bytes) (m' : Bool),
      sendH265 max (hdr m pt seq ts ssrc) (b0 :: b1 :: rest) (x :: y :: after) =
        some (pkts, hdr m' pt ((seq + pieces.length) % 65536) ts ssrc) ∧
      pieces.length = ((b0 :: b1 :: rest).length + (max - 15) - 1) / (max - 15) ∧
      pieces.flatten = rest ++ [x, y] ∧ (∀ p ∈ pieces, p ≠ []) ∧
      pkts = framePackets true pt seq ts ssrc
        (pieces.mapIdx fun i p => fuHevc b0 b1 (i == 0) (i + 1 == pieces.length) ++ p) ∧
      ∀ pkt ∈ pkts, pkt.length ≤ max := by
  obtain ⟨ps, m', seq', h1, h2, h3, h4, h5⟩ := fuLoop_eq ((b0 :: b1 :: rest) ++ (x :: y :: after))
    [(b0 &&& 0x81) ||| 0x62, b1] ((b0 &&& 0x7E) >>> 1)
    2 (b0 :: b1 :: rest).length (max - 12 - 3) true pt ts ssrc hpt (by omega)
    (by simp only [List.length_append, List.length_cons]; omega) 0 (Nat.zero_le _) seq
  rw [Nat.mod_eq_of_lt hseq] at h3
  have hd : (fun (f l : Bool) => [(b0 &&& 0x81) ||| 0x62, b1] ++ [fuFlag ((b0 &&& 0x7E) >>> 1) f l]) =
      fun f l => fuHevc b0 b1 f l := by
    funext f l
    have e1 : ∀ b0 : UInt8, (b0 &&& 0x81) ||| 0x62 = UInt8.ofNat (b0.toNat / 128 * 128 + 49 * 2 + b0.toNat % 2) := by
      decide +kernel
    have e2 : ∀ (b0 : UInt8) (f l : Bool), fuFlag ((b0 &&& 0x7E) >>> 1) f l =
        UInt8.ofNat ((if f then 128 else 0) + (if l then 64 else 0) + b0.toNat / 2 % 64) := by
      decide +kernel
    rw [e1, e2]
    rfl
  rw [hd] at h3
  refine ⟨ps, _, m', ?_, h5, ?_, fun p hp => (h2 p hp).1, rfl, ?_⟩
  · unfold sendH265
    simp only [List.cons_append, List.getElem?_cons_zero, List.getElem?_cons_succ, Option.bind_eq_bind, Option.bind_some]
    rw [if_neg (by rw [hdr_length]; omega), setMarker_hdr _ _ _ _ _ _ hpt, hdr_length]
    rw [List.cons_append, List.cons_append] at h3
    rw [h3, h4]
    simp [withDesc]
  · rw [h1]
    simp only [List.cons_append, Nat.add_zero, Nat.sub_zero, List.drop_succ_cons, List.drop_zero, List.length_cons]
    rw [show rest ++ x :: y :: after = (rest ++ [x, y]) ++ after by simp]
    exact List.take_left' (by simp)
  · intro pkt hp
    rw [← withDesc_true (fun f l => fuHevc b0 b1 f l)] at hp
    have := packet_size (fun f l => fuHevc b0 b1 f l) 3 (max - 12 - 3) (fun _ _ => rfl) _ pt seq ts ssrc ps (fun p hp => (h2 p hp).2) pkt hp
    omega

/-- **C27 fails for H265** in the same way: fewer than two bytes behind the unit, and the sender reads
outside the frame. -/
theorem C27_h265_fails (max : Nat) (m : Bool) (pt seq ts ssrc : Nat)
    (b0 b1 : UInt8) (rest after : Bytes) (hafter : after.length < 2)
    (hbig : max < (b0 :: b1 :: rest).length + 12 + 3) :
    sendH265 max (hdr m pt seq ts ssrc) (b0 :: b1 :: rest) after = none := by
  unfold sendH265
  simp only [List.cons_append, List.getElem?_cons_zero, List.getElem?_cons_succ, Option.bind_eq_bind, Option.bind_some]
  rw [if_neg (by rw [hdr_length]; omega)]
  exact fuLoop_oob _ _ _ _ _ _ _ (by simp only [List.length_cons, List.length_append]; omega) 0 (by simp) _

/-- Non-vacuity: with the real capacity, a unit of 2000 bytes does not fit in one packet. -/
example : 14 < maxDataLen ∧ maxDataLen < ((0x65 : UInt8) :: List.replicate 1999 0).length + 12 + 2 := by
  rw [List.length_cons, List.length_replicate]; decide

/-- The capacity is 12 + 2 + (1500 - 28): a full fragment is 1486 bytes, which with 28 bytes of IP and
UDP headers is 14 bytes more than the 1500 byte packet the constant 28 was subtracted from. Every H264
unit of 1473 bytes or more leads to such a packet. -/
theorem C27_mtu_fails (m : Bool) (pt seq ts ssrc : Nat) (hpt : pt < 128) (hseq : seq < 65536)
    (b : UInt8) (rest : Bytes) (hlen : 1472 ≤ rest.length) (x : UInt8) (after : Bytes) (last : Bool) :
    ∃ pkts h, sendH264 maxDataLen (hdr m pt seq ts ssrc) (b :: rest) (x :: after) last = some (pkts, h) ∧
      ∃ p ∈ pkts, p.length + 28 > 1500 := by
  unfold sendH264
  simp only [List.cons_append, List.getElem?_cons_zero, Option.bind_eq_bind, Option.bind_some]
  rw [if_neg (by rw [hdr_length, List.length_cons]; unfold maxDataLen; omega), setMarker_hdr _ _ _ _ _ _ hpt, hdr_length]
  rw [fuLoop, dif_pos ⟨by simp, by decide⟩]
  have hl : ¬ (0 + (maxDataLen - 12 - 2) ≥ (b :: rest).length) := by
    rw [List.length_cons]; unfold maxDataLen; omega
  simp only [hl, decide_false, Bool.false_and, Bool.false_eq_true, if_false]
  rw [show readMem (b :: (rest ++ x :: after)) (1 + 0) (maxDataLen - 12 - 2) =
    some (((b :: (rest ++ x :: after)).drop (1 + 0)).take (maxDataLen - 12 - 2)) by
      rw [readMem, if_pos (by simp only [List.length_cons, List.length_append]; unfold maxDataLen; omega)]]
  simp only [Option.bind_eq_bind, Option.bind_some]
  rw [increaseSequence_hdr, Nat.mod_eq_of_lt hseq]
  obtain ⟨ps, m', seq', h1, h2, h3, h4, h5⟩ := fuLoop_eq (b :: (rest ++ (x :: after))) [(b &&& 0xE0) ||| 0x1C] (b &&& 0x1F)
    1 (b :: rest).length (maxDataLen - 12 - 2) last pt ts ssrc hpt (by decide)
    (by simp only [List.length_append, List.length_cons]; omega) (0 + (maxDataLen - 12 - 2)) (by omega) (seq + 1)
  rw [h3]
  refine ⟨_, _, rfl, _, List.mem_cons_self .., ?_⟩
  simp only [List.length_append, hdr_length, List.length_cons, List.length_nil, List.length_take, List.length_drop]
  unfold maxDataLen
  omega

end Verif.Rtp
