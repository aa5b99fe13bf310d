import Verif.Websocket.Model
import Verif.Websocket.Spec
import Verif.SockBuf.Props
import Verif.Ebml.Lemmas

/-!
# C14, C15: WebSocket frames and messages
-/
namespace Verif.Websocket
open Verif.Bit Spec

/-! ## The receive buffer -/

/-- `avail` is what `Socket::Buffer::available` answers. -/
theorem avail_buffer (b : SockBuf.Buf) (n : Nat) (hc : b.contents.length < 2 ^ 32) :
    (b.available n).1 = avail b.contents n := by
  have := SockBuf.available_eq b (n % 2 ^ 32) (Nat.mod_lt _ (by decide)) hc
  simpa [SockBuf.Buf.available, avail] using this

/-- `rem` is what `Socket::Buffer::remove` does. -/
theorem rem_buffer (b : SockBuf.Buf) (n : Nat) (hc : b.contents.length < 2 ^ 32) :
    (b.remove n).1 = (rem b.contents n).1 ∧ (b.remove n).2.contents = (rem b.contents n).2 := by
  have hp := SockBuf.popEmpty_contents b
  have ha := avail_buffer b.popEmpty n (by rw [hp]; exact hc)
  rw [hp] at ha
  obtain ⟨h1, h2⟩ := SockBuf.removeLoop_eq n b.popEmpty.blocks 0 (Nat.zero_le _)
  have hpb : b.popEmpty.blocks.flatten = b.contents := hp
  rw [hpb, Nat.sub_zero] at h1 h2
  unfold SockBuf.Buf.remove rem
  rw [ha]
  by_cases h : avail b.contents n = true
  · rw [if_pos h, if_pos h]; exact ⟨h1, h2⟩
  · rw [if_neg h, if_neg h]; exact ⟨rfl, hp⟩

theorem rem_ok {q : Bytes} {n : Nat} (hn : n < 2 ^ 32) (h : n ≤ q.length) : rem q n = (q.take n, q.drop n) := by
  unfold rem avail
  rw [Nat.mod_eq_of_lt hn]
  cases q with
  | nil => simp
  | cons x t => simp only [List.isEmpty_cons, Bool.not_false, Bool.and_true, decide_eq_true h, if_true]

theorem avail_true {q : Bytes} {n : Nat} (hn : n < 2 ^ 32) (h : n ≤ q.length) (h0 : 0 < n) : avail q n = true := by
  unfold avail
  rw [Nat.mod_eq_of_lt hn]
  cases q with
  | nil => simp at h; omega
  | cons x t => simp; simpa using h

theorem avail_false {q : Bytes} {n : Nat} (hn : n < 2 ^ 32) (h : q.length < n) : avail q n = false := by
  unfold avail
  rw [Nat.mod_eq_of_lt hn, decide_eq_false (by omega)]; rfl

/-! ## Masking -/

theorem xorLoop_eq (k p : Bytes) (i : Nat) : xorLoop k i p = p.mapIdx fun j b => b ^^^ k.getD ((i + j) % 4) 0 := by
  induction p generalizing i with
  | nil => rfl
  | cons b r ih =>
    simp only [xorLoop, List.mapIdx_cons, Nat.add_zero, ih]
    congr 2
    funext j c
    rw [show i + 1 + j = i + (j + 1) by omega]

theorem xorLoop_applyKey (k p : Bytes) : xorLoop k 0 (applyKey k p) = p := by
  rw [xorLoop_eq, applyKey]
  apply List.ext_getElem
  · simp
  · intro i h1 h2
    simp [UInt8.xor_assoc]

theorem applyKey_length (k p : Bytes) : (applyKey k p).length = p.length := by simp [applyKey]

theorem applyKey_zero (p : Bytes) : applyKey [0, 0, 0, 0] p = p := by
  apply List.ext_getElem
  · simp [applyKey]
  · intro i h1 h2
    have : ∀ j, j < 4 → ([0, 0, 0, 0] : Bytes).getD j 0 = 0 := by decide
    simp only [applyKey, List.getElem_mapIdx]
    rw [this _ (Nat.mod_lt _ (by decide))]
    simp

/-! ## Header fields -/

def Frame.ext (f : Frame) : Bytes :=
  if f.payload.length < 126 then [] else if f.payload.length < 65536 then beEnc 2 f.payload.length
  else beEnc 8 f.payload.length

def Frame.b1 (f : Frame) : UInt8 :=
  UInt8.ofNat ((if f.key.isSome then 128 else 0) +
    if f.payload.length < 126 then f.payload.length else if f.payload.length < 65536 then 126 else 127)

def Frame.b0 (f : Frame) : UInt8 := UInt8.ofNat ((if f.fin then 128 else 0) + 16 * f.rsv + f.opcode)

def Frame.keyBytes (f : Frame) : Bytes := f.key.getD []

def Frame.body (f : Frame) : Bytes :=
  match f.key with
  | none => f.payload
  | some k => applyKey k f.payload

theorem encode_eq (f : Frame) : f.encode = Frame.b0 f :: Frame.b1 f :: (Frame.ext f ++ (Frame.keyBytes f ++ Frame.body f)) := by
  unfold Frame.encode Frame.lengthField Frame.b0 Frame.b1 Frame.ext Frame.keyBytes Frame.body
  by_cases ha : f.payload.length < 126
  · cases f.key <;> simp [ha]
  · by_cases hb : f.payload.length < 65536
    · cases f.key <;> simp [ha, hb]
    · cases f.key <;> simp [ha, hb]

theorem body_length (f : Frame) : (Frame.body f).length = f.payload.length := by
  unfold Frame.body; split
  · rfl
  · exact applyKey_length _ _

theorem b1_facts (f : Frame) : (Frame.b1 f &&& 0x80 ≠ 0 ↔ f.key.isSome = true) ∧
    (Frame.b1 f &&& 0x7F).toNat =
      (if f.payload.length < 126 then f.payload.length else if f.payload.length < 65536 then 126 else 127) := by
  have key : ∀ l : Fin 128, ((UInt8.ofNat (128 + l.val)) &&& 0x80 ≠ 0) ∧ ((UInt8.ofNat (128 + l.val)) &&& 0x7F).toNat = l.val ∧
      ¬ ((UInt8.ofNat (0 + l.val)) &&& 0x80 ≠ 0) ∧ ((UInt8.ofNat (0 + l.val)) &&& 0x7F).toNat = l.val := by decide +kernel
  unfold Frame.b1
  generalize hl : (if f.payload.length < 126 then f.payload.length else if f.payload.length < 65536 then 126 else 127) = l
  have hl2 : l < 128 := by
    rw [← hl]; split
    · omega
    · split <;> omega
  have := key ⟨l, hl2⟩
  cases f.key.isSome with
  | true => simp only [if_true]; exact ⟨by simp only [iff_true]; exact this.1, this.2.1⟩
  | false => simp only [Bool.false_eq_true, if_false]; exact ⟨by simp only [iff_false]; exact this.2.2.1, this.2.2.2⟩

theorem key_length {f : Frame} (hv : f.valid) : (Frame.keyBytes f).length = if f.key.isSome then 4 else 0 := by
  unfold Frame.keyBytes
  cases h : f.key with
  | none => rfl
  | some k => simp [hv.key_len k h]

theorem headSize_eq {f : Frame} (hv : f.valid) :
    headSize (Frame.b1 f) = 2 + (Frame.ext f).length + (Frame.keyBytes f).length := by
  obtain ⟨h1, h2⟩ := b1_facts f
  unfold headSize
  rw [h2, key_length hv]
  have e1 : (if Frame.b1 f &&& 128 ≠ 0 then 4 else 0) = if f.key.isSome = true then 4 else 0 := by
    by_cases h : f.key.isSome = true
    · rw [if_pos h, if_pos (h1.mpr h)]
    · rw [if_neg h, if_neg (fun hh => h (h1.mp hh))]
  rw [e1]
  unfold Frame.ext
  by_cases ha : f.payload.length < 126
  · have h126 : f.payload.length ≠ 126 := by omega
    have h127 : f.payload.length ≠ 127 := by omega
    simp [ha, h126, h127]
  · rw [if_neg ha, if_neg ha]
    by_cases hb : f.payload.length < 65536
    · rw [if_pos hb, if_pos hb]; simp; omega
    · rw [if_neg hb, if_neg hb]; simp; omega

theorem payloadLen_eq {f : Frame} (hv : f.valid) (r : Bytes) :
    payloadLen (Frame.b1 f) (Frame.ext f ++ r) = some f.payload.length := by
  obtain ⟨h1, h2⟩ := b1_facts f
  have hl := hv.len_lt
  unfold payloadLen
  rw [h2]
  unfold Frame.ext
  by_cases ha : f.payload.length < 126
  · rw [if_pos ha, if_neg (by omega), if_neg (by omega)]
  · rw [if_neg ha, if_neg ha]
    by_cases hb : f.payload.length < 65536
    · rw [if_pos hb, if_pos hb, if_pos rfl]
      have := Verif.Ebml.btoh_be .s rfl f.payload.length r
      rw [show (Codec.s).width = 2 from rfl] at this
      rw [this]
      exact congrArg some (by omega)
    · rw [if_neg hb, if_neg hb, if_neg (by decide), if_pos rfl]
      have := Verif.Ebml.btoh_be .ll rfl f.payload.length r
      rw [show (Codec.ll).width = 8 from rfl] at this
      rw [this]
      exact congrArg some (Nat.mod_eq_of_lt (by omega))

/-- The length of a frame on the wire. -/
theorem encode_length (f : Frame) :
    f.encode.length = 2 + (Frame.ext f).length + (Frame.keyBytes f).length + f.payload.length := by
  rw [encode_eq]; simp [body_length]; omega

theorem takeFrame_ok (head body r : Bytes) (b0 : UInt8) (masked : Bool) (hh : 0 < head.length) (ht : head.length + body.length < 2 ^ 32) :
    takeFrame (head ++ (body ++ r)) b0 masked head.length body.length =
      .frame b0 (if masked then xorLoop (head.drop (head.length - 4)) 0 body else body) r := by
  unfold takeFrame
  rw [avail_true ht (by simp) (by omega)]
  simp only [Bool.not_true, Bool.false_eq_true, if_false, List.drop_left, List.take_left]
  rw [rem_ok (by omega) (by simp)]
  simp only [List.drop_left, List.take_left]
  cases masked <;> simp

theorem front_encode {f : Frame} (hv : f.valid) (hs : f.encode.length < 2 ^ 32) (r : Bytes) :
    front (f.encode ++ r) = .frame (Frame.b0 f) f.payload r := by
  have hl := encode_length f
  have hhs := headSize_eq hv
  obtain ⟨hm, -⟩ := b1_facts f
  rw [encode_eq]
  simp only [List.cons_append, List.append_assoc]
  simp only [front]
  rw [payloadLen_eq hv]
  have hge : headSize (Frame.b1 f) ≤ (Frame.b0 f :: Frame.b1 f :: (Frame.ext f ++ (Frame.keyBytes f ++ (Frame.body f ++ r)))).length := by
    rw [hhs]; simp; omega
  rw [avail_true (by omega) hge (by omega)]
  simp only [Bool.not_true, Bool.and_false, Bool.false_eq_true, if_false]
  have e := takeFrame_ok (Frame.b0 f :: Frame.b1 f :: (Frame.ext f ++ Frame.keyBytes f)) (Frame.body f) r (Frame.b0 f)
    (decide (Frame.b1 f &&& 128 ≠ 0)) (by simp) (by rw [body_length]; simp; omega)
  rw [body_length] at e
  have el : (Frame.b0 f :: Frame.b1 f :: (Frame.ext f ++ Frame.keyBytes f)).length = headSize (Frame.b1 f) := by
    rw [hhs]; simp; omega
  rw [el] at e
  simp only [List.cons_append, List.append_assoc] at e
  rw [e]
  refine congrArg (fun p => Front.frame (Frame.b0 f) p r) ?_
  unfold Frame.body
  cases hk : f.key with
  | none =>
    rw [if_neg]
    simp only [decide_eq_true_eq]
    rw [hm, hk]; simp
  | some k =>
    rw [if_pos (by simp only [decide_eq_true_eq]; rw [hm, hk]; rfl)]
    have hk4 := hv.key_len k hk
    have : (Frame.b0 f :: Frame.b1 f :: (Frame.ext f ++ Frame.keyBytes f)).drop (headSize (Frame.b1 f) - 4) = k := by
      rw [hhs]
      have : Frame.keyBytes f = k := by simp [Frame.keyBytes, hk]
      rw [this, hk4]
      rw [show 2 + (Frame.ext f).length + 4 - 4 = (Frame.b0 f :: Frame.b1 f :: Frame.ext f).length by simp; omega]
      exact List.drop_left (l₁ := Frame.b0 f :: Frame.b1 f :: Frame.ext f)
    rw [this]
    exact xorLoop_applyKey k f.payload

theorem front_prefix {f : Frame} (hv : f.valid) (hs : f.encode.length < 2 ^ 32) (q : Bytes) (hp : q <+: f.encode)
    (hne : q ≠ f.encode) : front q = .incomplete := by
  have hlt : q.length < f.encode.length := by
    have := hp.length_le
    have h2 : q.length ≠ f.encode.length := fun h => hne (hp.eq_of_length h)
    omega
  have hl := encode_length f
  have hhs := headSize_eq hv
  obtain ⟨t, ht⟩ := hp
  match q, ht, hlt with
  | [], _, _ => rfl
  | [_], _, _ => rfl
  | c0 :: c1 :: q', ht, hlt =>
    rw [encode_eq] at ht
    simp only [List.cons_append, List.cons.injEq] at ht
    obtain ⟨rfl, rfl, ht⟩ := ht
    simp only [front]
    by_cases hc : headSize (Frame.b1 f) ≤ (Frame.b0 f :: Frame.b1 f :: q').length
    · rw [avail_true (by omega) hc (by omega)]
      simp only [Bool.not_true, Bool.and_false, Bool.false_eq_true, if_false]
      have hq : Frame.ext f <+: q' := by
        have : Frame.ext f <+: q' ++ t := ⟨_, ht.symm⟩
        exact List.prefix_of_prefix_length_le this (List.prefix_append _ _) (by simp at hc; omega)
      obtain ⟨u, hu⟩ := hq
      rw [← hu, payloadLen_eq hv]
      simp only
      unfold takeFrame
      rw [avail_false (by omega) (by rw [hu]; omega)]
      simp
    · by_cases hz : headSize (Frame.b1 f) > 2
      · rw [avail_false (by omega) (by omega)]
        simp [hz]
      · simp at hc; omega

/-! ## C14 -/

/-- C14. A frame of fewer than 2^32 bytes, with any final flag, reserved bits, opcode, masking key and
payload, is decoded to its first header byte (final flag, reserved bits, opcode) and its unmasked
payload, whatever follows it, and exactly the frame is consumed. -/
theorem C14_decode_partial (f : Frame) (hv : f.valid) (hs : f.encode.length < 2 ^ 32) (rest : Bytes) :
    front (f.encode ++ rest) = .frame (UInt8.ofNat ((if f.fin then 128 else 0) + 16 * f.rsv + f.opcode)) f.payload rest :=
  front_encode hv hs rest

/-- C14. While a frame is incomplete, a call reports that nothing is available and neither the
receive buffer nor the message under assembly changes. -/
theorem C14_prefix_partial (f : Frame) (hv : f.valid) (hs : f.encode.length < 2 ^ 32) (q : Bytes) (hp : q <+: f.encode)
    (hne : q ≠ f.encode) (maskOut : Bool) (st : Ws) : readFrame maskOut st q = .wait st q := by
  have := front_prefix hv hs q hp hne
  rw [readFrame.eq_def]
  split
  · rfl
  next h => rw [this] at h; cases h
  next h => rw [this] at h; cases h

/-- C14. What the sender writes is the standard's frame: final, unmasked for a server, masked (with
key zero) for a client. -/
theorem C14_send (maskOut : Bool) (data : Bytes) (op : Nat) (hl : data.length < 2 ^ 32) :
    sendFrame maskOut data op = Frame.encode ⟨true, 0, op, if maskOut then some [0, 0, 0, 0] else none, data⟩ := by
  have hm : ∀ l : Fin 128, UInt8.ofNat l.val ||| 128 = UInt8.ofNat (128 + l.val) ∧ UInt8.ofNat l.val ||| 0 = UInt8.ofNat (0 + l.val) := by
    decide +kernel
  rw [encode_eq]
  unfold sendFrame frameHead Frame.b0 Frame.b1 Frame.ext Frame.keyBytes Frame.body
  have es : htob .s data.length = beEnc 2 data.length := Verif.Ebml.htob_be .s rfl _
  have ell : htob .ll data.length = beEnc 8 data.length := Verif.Ebml.htob_be .ll rfl _
  by_cases ha : data.length < 126
  · have := hm ⟨data.length, by omega⟩
    cases maskOut
    · simp only [Bool.false_eq_true, if_false, if_pos ha, this.2]; simp
    · simp only [if_true, if_pos ha, this.1, applyKey_zero]; simp
  · by_cases hb : data.length < 65536
    · have hb' : data.length ≤ 65535 := by omega
      cases maskOut
      · simp only [Bool.false_eq_true, if_false, if_neg ha, if_pos hb, if_pos hb', es]; simp
      · simp only [if_true, if_neg ha, if_pos hb, if_pos hb', es, applyKey_zero]; simp; decide
    · have hb' : ¬ data.length ≤ 65535 := by omega
      cases maskOut
      · simp only [Bool.false_eq_true, if_false, if_neg ha, if_neg hb, if_neg hb', ell]; simp
      · simp only [if_true, if_neg ha, if_neg hb, if_neg hb', ell, applyKey_zero]; simp; decide

/-- C14. Sent by one side, received by the other. -/
theorem C14_roundtrip_partial (maskOut : Bool) (data : Bytes) (op : Nat) (hop : op < 16) (hl : data.length + 14 < 2 ^ 32)
    (rest : Bytes) : front (sendFrame maskOut data op ++ rest) = .frame (UInt8.ofNat (128 + op)) data rest := by
  rw [C14_send maskOut data op (by omega)]
  have hv : (⟨true, 0, op, if maskOut then some [0, 0, 0, 0] else none, data⟩ : Frame).valid :=
    ⟨by simp, hop, by intro k hk; cases maskOut <;> simp at hk; rw [← hk]; rfl, by simp; omega⟩
  refine C14_decode_partial _ hv ?_ rest
  have h1 : ∀ f : Frame, (Frame.ext f).length ≤ 8 := by
    intro f; unfold Frame.ext; split
    · simp
    · split <;> simp
  have h2 := h1 ⟨true, 0, op, if maskOut then some [0, 0, 0, 0] else none, data⟩
  have h3 : ∀ b : Bool, (if b then 4 else 0) ≤ 4 := by decide
  have h4 := h3 (⟨true, 0, op, if maskOut then some [0, 0, 0, 0] else none, data⟩ : Frame).key.isSome
  rw [← key_length hv] at h4
  rw [encode_length]
  have h5 : (⟨true, 0, op, if maskOut then some [0, 0, 0, 0] else none, data⟩ : Frame).payload.length = data.length := rfl
  omega

/-- C14 fails for announced lengths of 2^32 and above: the byte count is truncated to 32 bits, so the
bare header of an unmasked frame of 2^32 bytes is consumed as a complete empty frame... -/
theorem C14_huge_fails : front [0x82, 127, 0, 0, 0, 1, 0, 0, 0, 0] = .frame 0x82 [] [] := by decide +kernel

/-- ...and a masked one makes the unmasking loop write outside the received data. -/
theorem C14_huge_masked_fails : front [0x82, 255, 0, 0, 0, 1, 0, 0, 0, 0, 1, 2, 3, 4] = .oob := by decide +kernel

/-! ## C15 -/

/-- The frames of one message: the first carries the opcode, the others are continuations, the last
is final; each piece has its own masking key. -/
def contFrames : List (Option Bytes × Bytes) → List Frame
  | [] => []
  | [(k, p)] => [⟨true, 0, 0, k, p⟩]
  | (k, p) :: l => ⟨false, 0, 0, k, p⟩ :: contFrames l

def messageFrames (op : Nat) : List (Option Bytes × Bytes) → List Frame
  | [] => []
  | (k, p) :: l => ⟨l.isEmpty, 0, op, k, p⟩ :: contFrames l

def wire (fs : List Frame) : Bytes := (fs.map Frame.encode).flatten

/-- Frames that are well formed and shorter than 2^32 bytes. -/
def ok (fs : List Frame) : Prop := ∀ f ∈ fs, f.valid ∧ f.encode.length < 2 ^ 32

theorem b0_facts : ∀ (fin : Bool) (op : Fin 16), (UInt8.ofNat ((if fin then 128 else 0) + 16 * 0 + op.val) &&& 0x80 ≠ 0 ↔ fin = true) ∧
    UInt8.ofNat ((if fin then 128 else 0) + 16 * 0 + op.val) &&& 0x0F = UInt8.ofNat op.val := by decide +kernel

theorem readFrame_step (maskOut : Bool) (st : Ws) (f : Frame) (hv : f.valid) (hs : f.encode.length < 2 ^ 32) (h0 : f.rsv = 0) (r : Bytes) :
    readFrame maskOut st (f.encode ++ r) =
      let st' : Ws := if f.opcode ≠ 0 then ⟨f.payload, UInt8.ofNat f.opcode⟩ else { st with data := st.data ++ f.payload }
      if f.fin then .done (st'.finish maskOut) st' r else readFrame maskOut st' r := by
  have hf := front_encode hv hs r
  have hb := b0_facts f.fin ⟨f.opcode, hv.opcode_lt⟩
  have hb0 : Frame.b0 f = UInt8.ofNat ((if f.fin then 128 else 0) + 16 * 0 + f.opcode) := by unfold Frame.b0; rw [h0]
  have hz : (UInt8.ofNat f.opcode ≠ 0) ↔ f.opcode ≠ 0 := by
    have := hv.opcode_lt
    constructor
    · intro h hh; apply h; rw [hh]; rfl
    · intro h hh
      apply h
      have := congrArg UInt8.toNat hh
      rw [u8n] at this
      simp at this; omega
  have hab : st.absorb (Frame.b0 f) f.payload =
      if f.opcode ≠ 0 then ⟨f.payload, UInt8.ofNat f.opcode⟩ else { st with data := st.data ++ f.payload } := by
    unfold Ws.absorb
    rw [hb0, hb.2]
    by_cases h : f.opcode ≠ 0
    · rw [if_pos h, if_pos (hz.mpr h)]
    · rw [if_neg h, if_neg (fun hh => h (hz.mp hh))]
  rw [readFrame.eq_def]
  split
  next h => rw [hf] at h; cases h
  next h => rw [hf] at h; cases h
  next b0 p r' h =>
    rw [hf] at h
    simp only [Front.frame.injEq] at h
    obtain ⟨rfl, rfl, rfl⟩ := h
    rw [hab]
    simp only
    by_cases hfin : f.fin = true
    · rw [if_pos hfin, if_pos (by rw [hb0]; exact hb.1.mpr hfin)]
    · rw [if_neg hfin, if_neg (by rw [hb0]; exact fun hh => hfin (hb.1.mp hh))]

theorem readFrame_cont (maskOut : Bool) (l : List (Option Bytes × Bytes)) (hne : l ≠ []) (hok : ok (contFrames l)) (st : Ws) (r : Bytes) :
    readFrame maskOut st (wire (contFrames l) ++ r) =
      .done (Ws.finish maskOut ⟨st.data ++ (l.map (·.2)).flatten, st.frameType⟩) ⟨st.data ++ (l.map (·.2)).flatten, st.frameType⟩ r := by
  induction l generalizing st with
  | nil => exact absurd rfl hne
  | cons x t ih =>
    obtain ⟨k, p⟩ := x
    cases t with
    | nil =>
      have := hok ⟨true, 0, 0, k, p⟩ (by simp [contFrames])
      simp only [contFrames, wire, List.map_cons, List.map_nil, List.flatten_cons, List.flatten_nil, List.append_nil]
      rw [readFrame_step maskOut st _ this.1 this.2 rfl]
      simp
    | cons y t =>
      have := hok ⟨false, 0, 0, k, p⟩ (by simp [contFrames])
      simp only [contFrames, wire, List.map_cons, List.flatten_cons, List.append_assoc]
      rw [readFrame_step maskOut st _ this.1 this.2 rfl]
      simp only [ne_eq, not_true_eq_false, if_false, Bool.false_eq_true]
      have ih' := ih (by simp) (fun f hf => hok f (by simp [contFrames]; exact .inr hf)) ⟨st.data ++ p, st.frameType⟩
      simp only [wire, List.map_cons, List.flatten_cons, List.append_assoc] at ih'
      rw [ih']

/-- C15 (first part). A message cut into any number of fragments, each masked in any way, is delivered
by one call as the concatenation of the fragments with the opcode of the first one, whatever came
before and whatever follows. Missing: control frames between the fragments (`C15_fails`). -/
theorem C15_message_partial (maskOut : Bool) (op : Nat) (pieces : List (Option Bytes × Bytes)) (hne : pieces ≠ [])
    (hop : op ≠ 0 ∧ op ≠ 8 ∧ op ≠ 9 ∧ op ≠ 0xA) (hok : ok (messageFrames op pieces)) (st : Ws) (rest : Bytes) :
    readFrame maskOut st (wire (messageFrames op pieces) ++ rest) =
      .done .message ⟨(pieces.map (·.2)).flatten, UInt8.ofNat op⟩ rest := by
  cases pieces with
  | nil => exact absurd rfl hne
  | cons x t =>
    obtain ⟨k, p⟩ := x
    have h0 := hok ⟨t.isEmpty, 0, op, k, p⟩ (by simp [messageFrames])
    have hfin : ∀ d : Bytes, Ws.finish maskOut ⟨d, UInt8.ofNat op⟩ = .message := by
      intro d
      have hlt : op < 16 := h0.1.opcode_lt
      have : ∀ o : Fin 16, o.val ≠ 0 → o.val ≠ 8 → o.val ≠ 9 → o.val ≠ 0xA →
          UInt8.ofNat o.val ≠ 0 ∧ UInt8.ofNat o.val ≠ 8 ∧ UInt8.ofNat o.val ≠ 9 ∧ UInt8.ofNat o.val ≠ 0xA := by decide +kernel
      obtain ⟨a, b, c, d⟩ := this ⟨op, hlt⟩ hop.1 hop.2.1 hop.2.2.1 hop.2.2.2
      unfold Ws.finish
      simp only [if_neg a, if_neg b, if_neg c, if_neg d]
    simp only [messageFrames, wire, List.map_cons, List.flatten_cons, List.append_assoc]
    rw [readFrame_step maskOut st _ h0.1 h0.2 rfl]
    simp only [ne_eq, hop.1, not_false_eq_true, if_true]
    cases t with
    | nil => simp [contFrames, hfin]
    | cons y t =>
      simp only [List.isEmpty_cons, Bool.false_eq_true, if_false]
      have := readFrame_cont maskOut (y :: t) (by simp) (fun f hf => hok f (by simp [messageFrames]; exact .inr hf)) ⟨p, UInt8.ofNat op⟩ rest
      unfold wire at this
      rw [this, hfin]

theorem readAll_wait {maskOut : Bool} {st st' : Ws} {q q' : Bytes} (h : readFrame maskOut st q = .wait st' q') :
    readAll maskOut st q = some [] := by
  rw [readAll.eq_def]
  split
  · rfl
  next h' => rw [h] at h'; cases h'
  next h' => rw [h] at h'; cases h'

theorem readAll_done {maskOut : Bool} {st st' : Ws} {q q' : Bytes} {e : Event} (h : readFrame maskOut st q = .done e st' q')
    (he : e ≠ .closed) (hl : q'.length < q.length) : readAll maskOut st q = (readAll maskOut st' q').map ((e, st') :: ·) := by
  rw [readAll.eq_def]
  split
  next h' => rw [h] at h'; cases h'
  next h' => rw [h] at h'; cases h'
  next h' =>
    rw [h] at h'
    simp only [Res.done.injEq] at h'
    obtain ⟨rfl, rfl, rfl⟩ := h'
    rw [dif_pos hl, if_neg he]

theorem readFrame_nil (maskOut : Bool) (st : Ws) : readFrame maskOut st [] = .wait st [] := by
  rw [readFrame.eq_def]
  split
  · rfl
  next h => simp [front] at h
  next h => simp [front] at h

/-- A ping or pong, or a whole message. -/
inductive Item where
  | control (op : Nat) (key : Option Bytes) (payload : Bytes)
  | message (op : Nat) (pieces : List (Option Bytes × Bytes))

def Item.frames : Item → List Frame
  | .control op k p => [⟨true, 0, op, k, p⟩]
  | .message op l => messageFrames op l

def Item.valid : Item → Prop
  | .control op k p => (op = 9 ∨ op = 0xA) ∧ ok [⟨true, 0, op, k, p⟩]
  | .message op l => l ≠ [] ∧ (op ≠ 0 ∧ op ≠ 8 ∧ op ≠ 9 ∧ op ≠ 0xA) ∧ ok (messageFrames op l)

/-- What the application should see of an item: the answer to a ping carries the ping's payload. -/
def Item.expected (maskOut : Bool) : Item → Event × Ws
  | .control op _ p => (if op = 9 then .pinged (Frame.encode ⟨true, 0, 0xA, if maskOut then some [0, 0, 0, 0] else none, p⟩) else .ponged, ⟨p, UInt8.ofNat op⟩)
  | .message op l => (.message, ⟨(l.map (·.2)).flatten, UInt8.ofNat op⟩)

theorem item_read (maskOut : Bool) (i : Item) (hi : i.valid) (st : Ws) (rest : Bytes) :
    readFrame maskOut st (wire i.frames ++ rest) = .done (i.expected maskOut).1 (i.expected maskOut).2 rest ∧
      (i.expected maskOut).1 ≠ .closed ∧ rest.length < (wire i.frames ++ rest).length := by
  have hlen : ∀ f : Frame, 2 ≤ f.encode.length := fun f => by rw [encode_length]; omega
  cases i with
  | control op k p =>
    obtain ⟨hop, hok⟩ := hi
    have h0 := hok _ (List.mem_singleton.mpr rfl)
    have hl := hlen ⟨true, 0, op, k, p⟩
    have hp : p.length < 2 ^ 32 := by have := encode_length ⟨true, 0, op, k, p⟩; have := h0.2; simp only at *; omega
    refine ⟨?_, ?_, ?_⟩
    · simp only [Item.frames, wire, List.map_cons, List.map_nil, List.flatten_cons, List.flatten_nil, List.append_nil]
      rw [readFrame_step maskOut st _ h0.1 h0.2 rfl]
      rcases hop with rfl | rfl
      · simp only [Item.expected, ne_eq, Nat.reduceEqDiff, not_false_eq_true, if_true]
        rw [← C14_send maskOut p 0xA hp]
        rfl
      · rfl
    · simp only [Item.expected]; split <;> simp
    · simp [Item.frames, wire]; omega
  | message op l =>
    obtain ⟨hne, hop, hok⟩ := hi
    refine ⟨C15_message_partial maskOut op l hne hop hok st rest, by simp [Item.expected], ?_⟩
    cases l with
    | nil => exact absurd rfl hne
    | cons x t =>
      have := hlen ⟨t.isEmpty, 0, op, x.1, x.2⟩
      simp [Item.frames, messageFrames, wire]; omega

/-- C15 (second part). Any sequence of messages, each fragmented and masked in any way, with pings and
pongs between messages: every message arrives whole and in order and every ping is answered with
its own payload. Missing: control frames between the fragments of one message. -/
theorem C15_sequence_partial (maskOut : Bool) (items : List Item) (hv : ∀ i ∈ items, i.valid) (st : Ws) :
    readAll maskOut st (wire (items.flatMap Item.frames)) = some (items.map (Item.expected maskOut)) := by
  induction items generalizing st with
  | nil =>
    exact readAll_wait (readFrame_nil maskOut st)
  | cons i t ih =>
    obtain ⟨h1, h2, h3⟩ := item_read maskOut i (hv i (by simp)) st (wire (t.flatMap Item.frames))
    have e : wire ((i :: t).flatMap Item.frames) = wire i.frames ++ wire (t.flatMap Item.frames) := by
      simp [wire]
    rw [e, readAll_done h1 h2 h3, ih (fun j hj => hv j (by simp [hj]))]
    rfl

/-- C14/C15. It does not matter when the bytes arrive: if a call finds only a part of the frames in the
buffer and receives the rest during the call, the outcome is that of a call that finds all bytes
at once, as long as the split falls inside the first frame. -/
theorem C14_late_bytes_partial (maskOut : Bool) (st : Ws) (f : Frame) (hv : f.valid) (hs : f.encode.length < 2 ^ 32) (q more rest : Bytes)
    (hq : q ++ more = f.encode ++ rest) (hshort : q.length < f.encode.length) :
    readFrameSpool maskOut st q more = readFrame maskOut st (f.encode ++ rest) := by
  have hp : q <+: f.encode := List.prefix_of_prefix_length_le ⟨more, hq⟩ (List.prefix_append _ _) (by omega)
  unfold readFrameSpool
  rw [C14_prefix_partial f hv hs q hp (by intro h; rw [h] at hshort; omega) maskOut st]
  rw [← hq]

theorem front_lit (q : Bytes) (maskOut : Bool) (st : Ws) (b0 : UInt8) (p r : Bytes) (h : front q = .frame b0 p r) :
    readFrame maskOut st q = if b0 &&& 0x80 ≠ 0 then .done ((st.absorb b0 p).finish maskOut) (st.absorb b0 p) r
      else readFrame maskOut (st.absorb b0 p) r := by
  rw [readFrame.eq_def]
  split
  next h' => rw [h] at h'; cases h'
  next h' => rw [h] at h'; cases h'
  next h' => rw [h] at h'; simp only [Front.frame.injEq] at h'; obtain ⟨rfl, rfl, rfl⟩ := h'; rfl

/-- C15 fails: the text message "AB" in two fragments with a ping "p" in between is never delivered.
The ping overwrites the first fragment, and the second one is taken for the rest of the ping. -/
theorem C15_fails :
    readAll false Ws.init (wire [⟨false, 0, 1, none, [65]⟩, ⟨true, 0, 9, none, [112]⟩, ⟨true, 0, 0, none, [66]⟩]) =
      some [(.pinged [0x8A, 1, 112], ⟨[112], 9⟩), (.pinged [0x8A, 2, 112, 66], ⟨[112, 66], 9⟩)] := by
  have e : wire [⟨false, 0, 1, none, [65]⟩, ⟨true, 0, 9, none, [112]⟩, ⟨true, 0, 0, none, [66]⟩] = [1, 1, 65, 0x89, 1, 112, 0x80, 1, 66] := by
    decide +kernel
  have h1 : readFrame false Ws.init [1, 1, 65, 0x89, 1, 112, 0x80, 1, 66] = .done (.pinged [0x8A, 1, 112]) ⟨[112], 9⟩ [0x80, 1, 66] := by
    rw [front_lit _ _ _ 1 [65] [0x89, 1, 112, 0x80, 1, 66] (by decide +kernel)]
    rw [if_neg (by decide)]
    rw [front_lit _ _ _ 0x89 [112] [0x80, 1, 66] (by decide +kernel)]
    decide +kernel
  have h2 : readFrame false ⟨[112], 9⟩ [0x80, 1, 66] = .done (.pinged [0x8A, 2, 112, 66]) ⟨[112, 66], 9⟩ [] := by
    rw [front_lit _ _ _ 0x80 [66] [] (by decide +kernel)]
    decide +kernel
  rw [e, readAll_done h1 (by decide) (by decide), readAll_done h2 (by decide) (by decide), readAll_wait (readFrame_nil _ _)]
  rfl

/-! ## Non-vacuity -/

example : (⟨false, 5, 2, some [1, 2, 3, 4], List.replicate 300 7⟩ : Frame).valid :=
  ⟨by decide, by decide, by intro k hk; simp at hk; rw [← hk]; rfl, by rw [List.length_replicate]; decide⟩
example : front ((⟨false, 5, 2, some [1, 2, 3, 4], [9, 8, 7, 6, 5]⟩ : Frame).encode ++ [1, 1]) = .frame 0x52 [9, 8, 7, 6, 5] [1, 1] := by
  decide +kernel
example : (Item.message 1 [(none, [65]), (some [1, 2, 3, 4], [66, 67])]).valid := by
  refine ⟨by simp, by decide, ?_⟩
  intro f hf
  simp [messageFrames, contFrames] at hf
  rcases hf with rfl | rfl
  · exact ⟨⟨by decide, by decide, by simp, by simp⟩, by decide⟩
  · exact ⟨⟨by decide, by decide, by intro k hk; simp at hk; rw [← hk]; rfl, by simp⟩, by decide⟩

end Verif.Websocket
