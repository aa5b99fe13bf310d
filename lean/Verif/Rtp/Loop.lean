import Verif.Rtp.Frames

/-!
# C51: what is sent over RTP is received again
-/
namespace Verif.Rtp
open Spec

theorem setTimestamp_hdr (m : Bool) (pt seq ts ssrc t : Nat) :
    setTimestamp (hdr m pt seq ts ssrc) t = hdr m pt seq t ssrc := by
  rw [setTimestamp, Ebml.htob_be .l rfl, show Bit.Codec.l.width = 4 from rfl, hdr_eq, hdr_eq]
  simp [beEnc]

/-- Reading a packet with a plain header. -/
theorem addRTP_hdr {σ α : Type} (handle : σ → Nat → Bytes → Bool → Option (σ × List α)) (clk : Nat → Nat)
    (st : Nat × σ) (m : Bool) (pt seq ts ssrc : Nat) (pl : Bytes) (hpt : pt < 128) (hrtcp : ¬ (72 ≤ pt ∧ pt ≤ 76))
    (hseq : seq < 65536) (hts : ts < 2 ^ 32) (hss : ssrc < 2 ^ 32) :
    addRTP handle clk st (hdr m pt seq ts ssrc ++ pl) =
      (handle st.2 (clk ts) pl (missed st.1 seq)).map fun r => ((seq, r.1), r.2) := by
  let p : Pkt := { marker := m, payloadType := pt, sequence := seq, timestamp := ts, ssrc := ssrc, payload := pl }
  have hv : p.Valid := ⟨hpt, hseq, hts, hss, Nat.zero_le _, (fun e he => by cases he), Nat.zero_lt_succ _⟩
  have h1 := C28_fields p hv
  have h2 := (C28_header_partial p hv rfl).2
  have he : p.encode = hdr m pt seq ts ssrc ++ pl := encode_hdr m pt seq ts ssrc pl
  rw [he] at h1 h2
  obtain ⟨-, h3, h4, h5, -⟩ := h1
  unfold addRTP
  rw [h2, h3, h4, h5]
  simp only [Option.bind_eq_bind, Option.bind_some]
  rw [if_neg hrtcp]
  cases handle st.2 (clk p.timestamp) p.payload (missed st.1 p.sequence) <;> rfl

theorem recv_append {σ α : Type} (handle : σ → Nat → Bytes → Bool → Option (σ × List α)) (clk : Nat → Nat)
    (a b : List Bytes) : ∀ (st : Nat × σ) (st1 st2 : Nat × σ) (o1 o2 : List α),
    recv handle clk st a = some (st1, o1) → recv handle clk st1 b = some (st2, o2) →
    recv handle clk st (a ++ b) = some (st2, o1 ++ o2) := by
  induction a with
  | nil =>
    intro st st1 st2 o1 o2 h1 h2
    simp only [recv, Option.some.injEq, Prod.mk.injEq] at h1
    obtain ⟨rfl, rfl⟩ := h1
    exact h2
  | cons d a ih =>
    intro st st1 st2 o1 o2 h1 h2
    simp only [recv, List.cons_append, Option.bind_eq_bind] at h1 ⊢
    cases hx : addRTP handle clk st d with
    | none => rw [hx] at h1; cases h1
    | some x =>
      rw [hx] at h1
      simp only [Option.bind_some] at h1 ⊢
      cases hy : recv handle clk x.1 a with
      | none => rw [hy] at h1; cases h1
      | some y =>
        rw [hy] at h1
        simp only [Option.bind_some, Option.some.injEq, Prod.mk.injEq] at h1
        obtain ⟨rfl, rfl⟩ := h1
        rw [ih x.1 y.1 st2 y.2 o2 (by rw [hy]) h2]
        simp [List.append_assoc]

theorem missed_next (seq : Nat) (h : seq < 65536) (h0 : 0 < seq) : missed (seq - 1) seq = false := by
  unfold missed
  simp only [Nat.reducePow, ne_eq, decide_not, Bool.not_eq_false', decide_eq_true_eq]
  omega

/-! ## VP8 -/

theorem desc_facts (key first : Bool) : ∀ d, vp8Descriptor key first = [d] →
    d &&& 0x80 = 0 ∧ (((d &&& 0x10) >>> 4 = 1 ∧ d &&& 0x07 = 0) ↔ first = true) := by
  intro d hd
  cases key <;> cases first <;> (cases hd; decide)

/-- The first packet of a frame. -/
theorem vp8_start (s : Vp8) (t : Nat) (key : Bool) (x y : UInt8) (r : Bytes) (ms : Bool)
    (hk : s.buf = [] → s.key = false) (hm : s.buf = [] ∨ ms = false) :
    handleVP8 s t (vp8Descriptor key true ++ x :: y :: r) ms =
      some (⟨x :: y :: r, x.toNat % 2 == 0⟩, if s.buf = [] then [] else [⟨t, s.buf, s.key⟩]) := by
  obtain ⟨d, hd⟩ : ∃ d, vp8Descriptor key true = [d] := ⟨_, rfl⟩
  obtain ⟨h1, h2⟩ := desc_facts key true d hd
  have h2 := h2.mpr rfl
  have hkey : ∀ x : UInt8, decide (x &&& 0x01 = 0) = (x.toNat % 2 == 0) := by decide +kernel
  rw [hd]
  simp only [List.cons_append, List.nil_append, handleVP8]
  have hz : ¬ ((0 : UInt8) >>> 7 = 1) := by decide
  simp only [vp8HeaderSize, h1, hz, if_false, List.length_cons, h2, and_self, decide_true]
  rw [if_neg (by omega)]
  by_cases hb : s.buf = []
  · simp [hb, hk hb, ← hkey]
  · have hms : ms = false := hm.resolve_left hb
    simp [hb, hms, ← hkey]

/-- The other packets of a frame. -/
theorem vp8_cont (s : Vp8) (t : Nat) (key : Bool) (x y : UInt8) (r : Bytes) (hb : s.buf ≠ []) :
    handleVP8 s t (vp8Descriptor key false ++ x :: y :: r) false =
      some (⟨s.buf ++ x :: y :: r, s.key⟩, []) := by
  obtain ⟨d, hd⟩ : ∃ d, vp8Descriptor key false = [d] := ⟨_, rfl⟩
  obtain ⟨h1, h2⟩ := desc_facts key false d hd
  have h2 : ¬ ((d &&& 0x10) >>> 4 = 1 ∧ d &&& 0x07 = 0) := fun h => by cases h2.mp h
  rw [hd]
  simp only [List.cons_append, List.nil_append, handleVP8]
  have hz : ¬ ((0 : UInt8) >>> 7 = 1) := by decide
  simp only [vp8HeaderSize, h1, hz, if_false, List.length_cons, h2, decide_false]
  rw [if_neg (by omega)]
  simp [hb]

theorem two_le {p : Bytes} (h : 2 ≤ p.length) : ∃ x y r, p = x :: y :: r := by
  match p, h with
  | x :: y :: r, _ => exact ⟨x, y, r, rfl⟩

/-- The packets of a frame after the first one. -/
theorem vp8_rest (clk : Nat → Nat) (key : Bool) (pt ts ssrc : Nat) (hpt : pt < 128) (hrtcp : ¬ (72 ≤ pt ∧ pt ≤ 76))
    (hts : ts < 2 ^ 32) (hss : ssrc < 2 ^ 32) (ps : List Bytes) : ∀ (seq : Nat) (buf : Bytes) (k : Bool),
    buf ≠ [] → 0 < seq → seq + ps.length ≤ 65536 → (∀ p ∈ ps, 2 ≤ p.length) →
    recv handleVP8 clk (seq - 1, ⟨buf, k⟩)
      (framePackets true pt seq ts ssrc (withDesc (fun s _ => vp8Descriptor key s) false ps)) =
      some ((seq + ps.length - 1, ⟨buf ++ ps.flatten, k⟩), []) := by
  induction ps with
  | nil => intro seq buf k hb h0 hl hp; simp [withDesc, framePackets, recv]
  | cons p ps ih =>
    intro seq buf k hb h0 hl hp
    obtain ⟨x, y, r, rfl⟩ := two_le (hp p (List.mem_cons_self ..))
    rw [List.length_cons] at hl
    rw [withDesc_cons, framePackets_cons, Nat.mod_eq_of_lt (show seq < 65536 by omega)]
    simp only [recv]
    rw [addRTP_hdr _ _ _ _ _ _ _ _ _ hpt hrtcp (by omega) hts hss]
    simp only
    rw [missed_next seq (by omega) h0, vp8_cont _ _ _ _ _ _ hb]
    simp only [Option.map_some, Option.bind_eq_bind, Option.bind_some]
    have := ih (seq + 1) (buf ++ x :: y :: r) k (by simp) (by omega) (by omega)
      (fun p h => hp p (List.mem_cons_of_mem _ h))
    rw [show seq + 1 - 1 = seq by omega] at this
    rw [this]
    simp only [Option.bind_some, List.flatten_cons, List.append_assoc, List.length_cons, List.nil_append]
    rw [show seq + 1 + ps.length - 1 = seq + (ps.length + 1) - 1 by omega]

/-- All packets of one frame: the frame before it comes out, this one is collected. -/
theorem vp8_frame (clk : Nat → Nat) (m : Bool) (pt seq ts ssrc ls : Nat) (hpt : pt < 128)
    (hrtcp : ¬ (72 ≤ pt ∧ pt ≤ 76)) (hts : ts < 2 ^ 32) (hss : ssrc < 2 ^ 32) (s : Vp8)
    (hk : s.buf = [] → s.key = false) (hm : s.buf = [] ∨ (0 < seq ∧ ls = seq - 1))
    (b : UInt8) (rest : Bytes) (hlen : (b :: rest).length % 1200 ≠ 1)
    (hseq : seq + ((b :: rest).length + 1199) / 1200 ≤ 65536) :
    ∃ pkts m', sendVP8 (hdr m pt seq ts ssrc) (b :: rest) =
        some (pkts, hdr m' pt ((seq + ((b :: rest).length + 1199) / 1200) % 65536) ts ssrc) ∧
      recv handleVP8 clk (ls, s) pkts =
        some ((seq + ((b :: rest).length + 1199) / 1200 - 1, ⟨b :: rest, b.toNat % 2 == 0⟩),
          if s.buf = [] then [] else [⟨clk ts, s.buf, s.key⟩]) := by
  have hpos : 0 < ((b :: rest).length + 1199) / 1200 := by rw [List.length_cons]; omega
  obtain ⟨ps, pkts, m', h1, h2, h3, h4, h5, h6, -⟩ := C27_vp8 m pt seq ts ssrc hpt (by omega) (b :: rest) b rfl
  refine ⟨pkts, m', by rw [h1, h2], ?_⟩
  replace h5 := h5 hlen
  rw [h6, ← withDesc_true (fun s _ => vp8Descriptor (b.toNat % 2 == 0) s)]
  cases ps with
  | nil => rw [List.length_nil] at h2; omega
  | cons p ps =>
    obtain ⟨x, y, r, rfl⟩ := two_le (h5 p (List.mem_cons_self ..))
    have hx : x = b := by
      rw [List.flatten_cons] at h3
      injection h3
    subst hx
    rw [← h2, List.length_cons] at hseq ⊢
    rw [withDesc_cons, framePackets_cons, Nat.mod_eq_of_lt (show seq < 65536 by omega)]
    simp only [recv]
    rw [addRTP_hdr _ _ _ _ _ _ _ _ _ hpt hrtcp (by omega) hts hss]
    simp only
    rw [vp8_start s _ _ _ _ _ _ hk (hm.imp id fun h => by rw [h.2]; exact missed_next seq (by omega) h.1)]
    simp only [Option.map_some, Option.bind_eq_bind, Option.bind_some]
    have := vp8_rest clk (x.toNat % 2 == 0) pt ts ssrc hpt hrtcp hts hss ps (seq + 1) (x :: y :: r) (x.toNat % 2 == 0)
      (by simp) (by omega) (by omega) (fun p h => h5 p (List.mem_cons_of_mem _ h))
    rw [show seq + 1 - 1 = seq by omega] at this
    rw [this]
    simp only [Option.bind_some, List.append_nil]
    rw [← List.flatten_cons, h3, show seq + 1 + ps.length - 1 = seq + (ps.length + 1) - 1 by omega]

/-- The number of packets a list of frames takes. -/
def vp8Count (frames : List (Nat × Bytes)) : Nat := (frames.map fun f => (f.2.length + 1199) / 1200).sum

/-- What the receiver should have given out: every frame but the last (which it cannot know to be
complete), each with the time of the frame after it. -/
def vp8Expected (clk : Nat → Nat) : List (Nat × Bytes) → List Frame
  | (_, f) :: (t, g) :: r => ⟨clk t, f, (f.headD 0).toNat % 2 == 0⟩ :: vp8Expected clk ((t, g) :: r)
  | _ => []

/-- The receiver's state with frame `prev` collected. -/
def vp8State : Option Bytes → Vp8
  | none => ⟨[], false⟩
  | some g => ⟨g, (g.headD 0).toNat % 2 == 0⟩

theorem vp8Expected_time (clk : Nat → Nat) (a b : Nat) (f : Bytes) (r : List (Nat × Bytes)) :
    vp8Expected clk ((a, f) :: r) = vp8Expected clk ((b, f) :: r) := by
  cases r with
  | nil => rfl
  | cons g r => rfl

theorem vp8_session (clk : Nat → Nat) (pt ssrc : Nat) (hpt : pt < 128) (hrtcp : ¬ (72 ≤ pt ∧ pt ≤ 76))
    (hss : ssrc < 2 ^ 32) (frames : List (Nat × Bytes)) : ∀ (m : Bool) (seq ts ls : Nat) (prev : Option Bytes),
    (∀ f ∈ frames, f.1 < 2 ^ 32 ∧ f.2 ≠ [] ∧ f.2.length % 1200 ≠ 1) → seq + vp8Count frames ≤ 65536 →
    (∀ g, prev = some g → g ≠ [] ∧ 0 < seq ∧ ls = seq - 1) →
    ∃ pkts h' s', sendFramesVP8 (hdr m pt (seq % 65536) ts ssrc) frames = some (pkts, h') ∧
      recv handleVP8 clk (ls, vp8State prev) pkts =
        some (s', vp8Expected clk ((prev.map fun g => (0, g)).toList ++ frames)) := by
  induction frames with
  | nil =>
    intro m seq ts ls prev _ _ _
    refine ⟨[], _, (ls, vp8State prev), rfl, ?_⟩
    cases prev <;> rfl
  | cons f frames ih =>
    intro m seq ts ls prev hf hcount hprev
    obtain ⟨t, f⟩ := f
    obtain ⟨f1, f2, f3⟩ := hf (t, f) (List.mem_cons_self ..)
    simp only at f1 f2 f3
    obtain ⟨b, rest, rfl⟩ : ∃ b rest, f = b :: rest := by
      cases f with
      | nil => exact absurd rfl f2
      | cons b r => exact ⟨b, r, rfl⟩
    have hc : vp8Count ((t, b :: rest) :: frames) = ((b :: rest).length + 1199) / 1200 + vp8Count frames := by
      simp [vp8Count]
    rw [hc] at hcount
    have hpos : 0 < ((b :: rest).length + 1199) / 1200 := by rw [List.length_cons]; omega
    have hlt : seq < 65536 := by omega
    rw [Nat.mod_eq_of_lt hlt]
    obtain ⟨pk1, m1, hs1, hr1⟩ := vp8_frame clk m pt seq t ssrc ls hpt hrtcp f1 hss
      (vp8State prev)
      (by
        cases prev with
        | none => intro _; rfl
        | some g => intro hg; exact absurd hg (hprev g rfl).1)
      (by
        cases prev with
        | none => exact Or.inl rfl
        | some g => exact Or.inr (hprev g rfl).2)
      b rest f3 (by omega)
    generalize hk : ((b :: rest).length + 1199) / 1200 = k at *
    obtain ⟨pk2, h2, s2, hs2, hr2⟩ := ih m1 (seq + k) t (seq + k - 1) (some (b :: rest))
      (fun f h => hf f (List.mem_cons_of_mem _ h)) (by omega)
      (fun g hg => by cases hg; exact ⟨by simp, by omega, rfl⟩)
    refine ⟨pk1 ++ pk2, h2, s2, ?_, ?_⟩
    · simp only [sendFramesVP8, setTimestamp_hdr]
      rw [hs1]
      simp only [Option.bind_eq_bind, Option.bind_some]
      rw [hs2]
      rfl
    · rw [recv_append _ _ _ _ _ _ _ _ _ hr1 hr2]
      cases prev with
      | none =>
        simp only [vp8State, if_true, List.nil_append, Option.map_none, Option.map_some, Option.toList_none,
          Option.toList_some, List.cons_append]
        rw [vp8Expected_time clk 0 t]
      | some g =>
        have := (hprev g rfl).1
        simp only [vp8State, this, if_false, Option.map_some, Option.toList_some, List.cons_append, List.nil_append,
          vp8Expected]
        rw [vp8Expected_time clk 0 t]

/-- **C51 for VP8 (partial).** Frames sent by the sender and received by the receiver, without loss:
every frame but the last (which the receiver cannot know to be complete) comes out exactly once, in
order, with its content and its key frame flag. Assumed: no sequence number wrap around, and no frame
length of the form `1200 k + 1` (both needed: `C51_wrap_fails`, `C51_vp8_short_fails`). Missing as
well: the time of each frame is that of the *next* frame (`C51_vp8_time_fails`). -/
theorem C51_vp8_partial (clk : Nat → Nat) (m : Bool) (pt seq ts ssrc ls : Nat) (hpt : pt < 128)
    (hrtcp : ¬ (72 ≤ pt ∧ pt ≤ 76)) (hss : ssrc < 2 ^ 32) (frames : List (Nat × Bytes))
    (hf : ∀ f ∈ frames, f.1 < 2 ^ 32 ∧ f.2 ≠ [] ∧ f.2.length % 1200 ≠ 1)
    (hseq : seq < 65536) (hcount : seq + (frames.map fun f => (f.2.length + 1199) / 1200).sum ≤ 65536) :
    ∃ pkts h' st' out,
      sendFramesVP8 (hdr m pt seq ts ssrc) frames = some (pkts, h') ∧
      recv handleVP8 clk (ls, ⟨[], false⟩) pkts = some (st', out) ∧
      out.map Frame.data = (frames.map Prod.snd).dropLast ∧
      out.map Frame.key = (frames.map fun f => (f.2.headD 0).toNat % 2 == 0).dropLast ∧
      out.map Frame.time = (frames.map fun f => clk f.1).tail := by
  obtain ⟨pkts, h', s', h1, h2⟩ := vp8_session clk pt ssrc hpt hrtcp hss frames m seq ts ls none hf hcount
    (fun g hg => by cases hg)
  rw [Nat.mod_eq_of_lt hseq] at h1
  simp only [Option.map_none, Option.toList_none, List.nil_append] at h2
  refine ⟨pkts, h', s', _, h1, h2, ?_, ?_, ?_⟩
  all_goals
    clear h1 h2 hf hcount
    induction frames with
    | nil => rfl
    | cons f r ih =>
      cases r with
      | nil => rfl
      | cons g r => simp_all [vp8Expected]

/-- Non-vacuity: three frames, one of them in two packets. -/
example : ∃ pkts h' st' out,
    sendFramesVP8 (hdr false 96 7 0 1) [(10, [0, 1, 2]), (20, 1 :: List.replicate 1300 9), (30, [2, 3])] = some (pkts, h') ∧
    recv handleVP8 id (0, ⟨[], false⟩) pkts = some (st', out) ∧
    out.map Frame.data = [[0, 1, 2], 1 :: List.replicate 1300 9] := by
  obtain ⟨pkts, h', st', out, h1, h2, h3, -⟩ := C51_vp8_partial id false 96 7 0 1 0 (by decide) (by decide) (by decide)
    [(10, [0, 1, 2]), (20, 1 :: List.replicate 1300 9), (30, [2, 3])]
    (by
      intro f hf
      simp only [List.mem_cons, List.not_mem_nil, or_false] at hf
      rcases hf with rfl | rfl | rfl
      · decide
      · refine ⟨by decide, List.cons_ne_nil _ _, ?_⟩
        rw [List.length_cons, List.length_replicate]; decide
      · decide)
    (by decide) (by simp only [List.map_cons, List.length_cons, List.length_replicate]; decide)
  exact ⟨pkts, h', st', out, h1, h2, h3⟩

/-- **C51 fails: times.** A frame comes out with the time of the frame after it (rtp.cpp 1593-1600:
the frame is completed by the first packet of the next one, and given that packet's time). -/
theorem C51_vp8_time_fails :
    ∃ frames pkts h' st' out, frames = [(1000, [0, 1, 2]), (5000, [1, 2, 3])] ∧
      sendFramesVP8 (hdr false 96 7 0 1) frames = some (pkts, h') ∧
      recv handleVP8 id (0, ⟨[], false⟩) pkts = some (st', out) ∧
      out = [⟨5000, [0, 1, 2], true⟩] := by
  obtain ⟨pkts, h', s', h1, h2⟩ := vp8_session id 96 1 (by decide) (by decide) (by decide)
    [(1000, [0, 1, 2]), (5000, [1, 2, 3])] false 7 0 0 none (by decide) (by decide) (fun g hg => by cases hg)
  exact ⟨_, pkts, h', s', _, rfl, h1, h2, rfl⟩

/-- **C51 fails: short packets.** A packet with a single byte of frame data behind a one byte
descriptor is thrown away (rtp.cpp 1525-1528), in whatever state the receiver is. -/
theorem C51_vp8_short_fails (s : Vp8) (t : Nat) (desc x : UInt8) (ms : Bool) :
    handleVP8 s t [desc, x] ms = some (s, []) := rfl

/-- ... so a frame of 1201 bytes comes out without its last byte. -/
theorem C51_vp8_cut_fails (a : Bytes) (b x : UInt8) (ha : a.length = 1199) (g : UInt8) (g' : UInt8) :
    ∃ pkts h' st', sendFramesVP8 (hdr false 96 7 0 1) [(10, b :: a ++ [x]), (20, [g, g'])] = some (pkts, h') ∧
      recv handleVP8 id (0, ⟨[], false⟩) pkts = some (st', [⟨20, b :: a, b.toNat % 2 == 0⟩]) := by
  obtain ⟨y, r, rfl⟩ : ∃ y r, a = y :: r := by
    cases a with
    | nil => cases ha
    | cons y r => exact ⟨y, r, rfl⟩
  have ht : (b :: (y :: r) ++ [x]).take 1200 = b :: y :: r := by
    rw [List.cons_append, List.take_succ_cons, List.take_left' ha]
  have hd : (b :: (y :: r) ++ [x]).drop 1200 = [x] := by
    rw [List.cons_append, List.drop_succ_cons, List.drop_left' ha]
  have hl : (b :: (y :: r) ++ [x]).length = 1201 := by
    simp only [List.length_append, List.length_cons, List.length_nil] at ha ⊢; omega
  have hkey : ∀ b : UInt8, decide (b &&& 1 = 0) = (b.toNat % 2 == 0) := by decide +kernel
  -- what is sent for the first frame
  have hsend : sendVP8 (hdr false 96 7 10 1) (b :: (y :: r) ++ [x]) = some
      ([hdr false 96 7 10 1 ++ (vp8Descriptor (b.toNat % 2 == 0) true ++ b :: y :: r),
        hdr true 96 8 10 1 ++ (vp8Descriptor (b.toNat % 2 == 0) false ++ [x])], hdr true 96 9 10 1) := by
    unfold sendVP8
    rw [show (b :: (y :: r) ++ [x])[0]? = some b from rfl]
    simp only [Option.bind_eq_bind, Option.bind_some]
    rw [vp8Loop, dif_neg (by simp), hl]
    simp only [show min 1200 1201 = 1200 by decide, ht, hd]
    rw [setMarker_hdr _ _ _ _ _ _ (by decide), increaseSequence_hdr]
    rw [vp8Loop, dif_neg (by simp)]
    simp only [List.length_cons, List.length_nil, show min 1200 (0 + 1) = 1 by decide, List.take_succ_cons, List.take_zero,
      List.drop_succ_cons, List.drop_zero]
    rw [setMarker_hdr _ _ _ _ _ _ (by decide), increaseSequence_hdr, vp8Loop, dif_pos rfl, hkey]
    cases (b.toNat % 2 == 0) <;> rfl
  obtain ⟨pk2, m2, hs2, hr2⟩ := vp8_frame id true 96 9 20 1 8 (by decide) (by decide) (by decide) (by decide)
    ⟨b :: y :: r, b.toNat % 2 == 0⟩ (fun h => by cases h) (Or.inr (by decide)) g [g']
    (show 2 % 1200 ≠ 1 by decide) (show 9 + (2 + 1199) / 1200 ≤ 65536 by decide)
  have e2 : ([g, g'].length + 1199) / 1200 = 1 := by simp
  simp only [e2] at hs2 hr2
  generalize hpk : [hdr false 96 7 10 1 ++ (vp8Descriptor (b.toNat % 2 == 0) true ++ b :: y :: r),
    hdr true 96 8 10 1 ++ (vp8Descriptor (b.toNat % 2 == 0) false ++ [x])] = pk1 at hsend
  refine ⟨pk1 ++ (pk2 ++ []), hdr m2 96 10 20 1, (9, ⟨[g, g'], g.toNat % 2 == 0⟩), ?_, ?_⟩
  · simp only [sendFramesVP8, setTimestamp_hdr, Option.bind_eq_bind]
    rw [hsend]
    simp only [Option.bind_some, setTimestamp_hdr]
    rw [hs2]
    rfl
  · rw [List.append_nil]
    refine recv_append _ _ _ _ _ (8, ⟨b :: y :: r, b.toNat % 2 == 0⟩) _ [] _ ?_ hr2
    rw [← hpk]
    simp only [recv]
    rw [addRTP_hdr _ _ _ _ _ _ _ _ _ (by decide) (by decide) (by decide) (by decide) (by decide)]
    rw [vp8_start _ _ _ _ _ _ _ (fun _ => rfl) (Or.inl rfl)]
    simp only [Option.map_some, Option.bind_eq_bind, Option.bind_some]
    rw [addRTP_hdr _ _ _ _ _ _ _ _ _ (by decide) (by decide) (by decide) (by decide) (by decide)]
    simp only [vp8Descriptor, List.cons_append, List.nil_append]
    rw [C51_vp8_short_fails]
    rfl

/-- **C51 fails: sequence number wrap.** The packet with sequence number zero always counts as having
missed one (rtp.cpp 1045: `getSequence() - 1` is -1, not 65535). -/
theorem C51_wrap_fails : missed 65535 0 = true := by decide

/-- ... so a frame whose packets go past 65535 is lost although all of them arrive: here a VP8 frame of
1300 bytes followed by another frame. -/
theorem C51_vp8_wrap_fails (a : Bytes) (b : UInt8) (ha : a.length = 1299) (g g' : UInt8) :
    ∃ pkts h' st', sendFramesVP8 (hdr false 96 65535 0 1) [(10, b :: a), (20, [g, g'])] = some (pkts, h') ∧
      recv handleVP8 id (0, ⟨[], false⟩) pkts = some (st', []) := by
  obtain ⟨ps, pk1, m', h1, h2, h3, h4, h5, h6, -⟩ := C27_vp8 false 96 65535 10 1 (by decide) (by decide) (b :: a) b rfl
  rw [List.length_cons, ha] at h2 h5
  replace h5 := h5 (by decide)
  obtain ⟨p, q, rfl⟩ : ∃ p q, ps = [p, q] := by
    match ps, h2 with
    | [p, q], _ => exact ⟨p, q, rfl⟩
  obtain ⟨x, y, r, rfl⟩ := two_le (h5 p (by simp))
  obtain ⟨x2, y2, r2, rfl⟩ := two_le (h5 q (by simp))
  obtain ⟨pk2, m2, hs2, hr2⟩ := vp8_frame id m' 96 1 20 1 0 (by decide) (by decide) (by decide) (by decide)
    ⟨[], false⟩ (fun _ => rfl) (Or.inl rfl) g [g']
    (show 2 % 1200 ≠ 1 by decide) (show 1 + (2 + 1199) / 1200 ≤ 65536 by decide)
  have e2 : ([g, g'].length + 1199) / 1200 = 1 := by simp
  simp only [e2] at hs2 hr2
  have e3 : (65535 + [x :: y :: r, x2 :: y2 :: r2].length) % 65536 = 1 := by simp
  rw [← withDesc_true (fun s _ => vp8Descriptor (b.toNat % 2 == 0) s), withDesc_cons, withDesc_cons, framePackets_cons,
    framePackets_cons] at h6
  refine ⟨pk1 ++ (pk2 ++ []), hdr m2 96 2 20 1, (1, ⟨[g, g'], g.toNat % 2 == 0⟩), ?_, ?_⟩
  · simp only [sendFramesVP8, setTimestamp_hdr, Option.bind_eq_bind]
    rw [h1]
    simp only [Option.bind_some, setTimestamp_hdr]
    rw [e3, hs2]
    rfl
  · rw [List.append_nil]
    refine recv_append _ _ _ _ _ (0, ⟨[], false⟩) _ [] _ ?_ hr2
    rw [h6]
    simp only [recv]
    rw [addRTP_hdr _ _ _ _ _ _ _ _ _ (by decide) (by decide) (by decide) (by decide) (by decide)]
    rw [vp8_start _ _ _ _ _ _ _ (fun _ => rfl) (Or.inl rfl)]
    simp only [Option.map_some, Option.bind_eq_bind, Option.bind_some]
    rw [addRTP_hdr _ _ _ _ _ _ _ _ _ (by decide) (by decide) (by decide) (by decide) (by decide)]
    obtain ⟨d, hd⟩ : ∃ d, vp8Descriptor (b.toNat % 2 == 0) false = [d] := ⟨_, rfl⟩
    obtain ⟨d1, d2⟩ := desc_facts _ false d hd
    have d2 : ¬ ((d &&& 0x10) >>> 4 = 1 ∧ d &&& 0x07 = 0) := fun h => by cases d2.mp h
    have hz : ¬ ((0 : UInt8) >>> 7 = 1) := by decide
    have hmiss : missed 65535 0 = true := by decide
    rw [hd]
    simp only [List.cons_append, List.nil_append, handleVP8, vp8HeaderSize, d1, hz, if_false, List.length_cons, d2,
      decide_false, Nat.reduceMod, hmiss, show (65535 + 1) % 65536 = 0 from rfl]
    rw [if_neg (by omega)]
    simp
    rfl

/-! ## VP9 -/

/-- **C51 fails for VP9.** No frame sent as VP9 is ever received: the receiver reads the VP9
descriptor as a VP8 one (rtp.cpp 1059-1060), in which no packet starts a frame. -/
theorem C51_vp9_fails (clk : Nat → Nat) (m : Bool) (pt seq ts ssrc ls : Nat) (hpt : pt < 128)
    (hrtcp : ¬ (72 ≤ pt ∧ pt ≤ 76)) (hts : ts < 2 ^ 32) (hss : ssrc < 2 ^ 32) (hseq : seq < 65536)
    (b : UInt8) (rest : Bytes) :
    ∃ pkts h' ls', sendVP9 (hdr m pt seq ts ssrc) (b :: rest) = some (pkts, h') ∧
      recv handleVP8 clk (ls, ⟨[], false⟩) pkts = some ((ls', ⟨[], false⟩), []) := by
  obtain ⟨ps, pkts, m', h1, h2, h3, h4, h5, -⟩ := C27_vp9 m pt seq ts ssrc hpt hseq (b :: rest) b rfl
  rw [← withDesc_true (fun s l => vp9Descriptor (vp9Key b) s l)] at h5
  have gen : ∀ (ps : List Bytes) (start : Bool) (seq ls : Nat),
      ∃ ls', recv handleVP8 clk (ls, ⟨[], false⟩)
        (framePackets true pt seq ts ssrc (withDesc (fun s l => vp9Descriptor (vp9Key b) s l) start ps)) =
        some ((ls', ⟨[], false⟩), []) := by
    intro ps
    induction ps with
    | nil => intro start seq ls; exact ⟨ls, rfl⟩
    | cons p ps ih =>
      intro start seq ls
      rw [withDesc_cons, framePackets_cons]
      simp only [recv]
      rw [addRTP_hdr _ _ _ _ _ _ _ _ _ hpt hrtcp (Nat.mod_lt _ (by decide)) hts hss]
      have hh : ∀ ms, handleVP8 ⟨[], false⟩ (clk ts) (vp9Descriptor (vp9Key b) start ps.isEmpty ++ p) ms =
          some (⟨[], false⟩, []) := by
        intro ms
        obtain ⟨d, hd⟩ : ∃ d, vp9Descriptor (vp9Key b) start ps.isEmpty = [d] := ⟨_, rfl⟩
        have hd1 : d &&& 0x80 = 0 ∧ ¬ ((d &&& 0x10) >>> 4 = 1 ∧ d &&& 0x07 = 0) := by
          generalize vp9Key b = k at hd
          generalize ps.isEmpty = e at hd
          cases k <;> cases start <;> cases e <;> (cases hd; decide)
        rw [hd]
        match p with
        | [] => rfl
        | [x] => rfl
        | x :: y :: r =>
          simp only [List.cons_append, List.nil_append, handleVP8]
          have hz : ¬ ((0 : UInt8) >>> 7 = 1) := by decide
          simp only [vp8HeaderSize, hd1, hz, if_false, List.length_cons]
          rw [if_neg (by omega)]
          simp
      obtain ⟨ls', h⟩ := ih false (seq + 1) (seq % 65536)
      refine ⟨ls', ?_⟩
      rw [hh]
      simp only [Option.map_some, Option.bind_eq_bind, Option.bind_some]
      rw [h]
      rfl
  obtain ⟨ls', h⟩ := gen ps true seq ls
  exact ⟨pkts, _, ls', h1, by rw [h5]; exact h⟩

/-! ## H264 and H265 -/

/-- `handleH264` as a handler for `addRTP` (the time is passed through to the units, not modelled). -/
def h264Handler (s : Bytes) (_ : Nat) (pl : Bytes) (ms : Bool) : Option (Bytes × List Bytes) := handleH264 s pl ms

/-- `handleHEVC` as a handler for `addRTP`. -/
def hevcHandler (s : Bytes) (_ : Nat) (pl : Bytes) (ms : Bool) : Option (Bytes × List Bytes) := handleHEVC s pl ms

/-- **C51 for H264 units that fit in one packet**: received as they were sent. -/
theorem C51_h264_single (clk : Nat → Nat) (max : Nat) (m : Bool) (pt seq ts ssrc ls : Nat) (hpt : pt < 128)
    (hrtcp : ¬ (72 ≤ pt ∧ pt ≤ 76)) (hseq : seq < 65536) (hts : ts < 2 ^ 32) (hss : ssrc < 2 ^ 32)
    (b : UInt8) (rest after : Bytes) (last : Bool) (hfit : (b :: rest).length + 12 + 2 ≤ max)
    (hty : 1 ≤ b.toNat % 32 ∧ b.toNat % 32 ≤ 23) :
    ∃ pkts h', sendH264 max (hdr m pt seq ts ssrc) (b :: rest) after last = some (pkts, h') ∧
      recv h264Handler clk (ls, []) pkts = some ((seq, []), [b :: rest]) := by
  obtain ⟨m', h1⟩ := C27_h264_single max m pt seq ts ssrc hpt hseq (b :: rest) after b rfl last hfit
  refine ⟨_, _, h1, ?_⟩
  rw [framePackets_cons, framePackets_nil, Nat.mod_eq_of_lt hseq]
  simp only [recv]
  rw [addRTP_hdr _ _ _ _ _ _ _ _ _ hpt hrtcp hseq hts hss]
  have hb : ∀ b : UInt8, 1 ≤ b.toNat % 32 ∧ b.toNat % 32 ≤ 23 → ¬ (b &&& 0x1F = 0) ∧ b &&& 0x1F < 24 := by decide +kernel
  obtain ⟨h2, h3⟩ := hb b hty
  simp [h264Handler, handleH264, h2, h3]

theorem fuA_first (b : UInt8) (last : Bool) : ∃ i f, fuA b true last = [i, f] ∧ i &&& 0x1F = 28 ∧ f &&& 0x80 ≠ 0 ∧
    (f &&& 0x40 ≠ 0 ↔ last = true) ∧ (f &&& 0x1F) ||| (i &&& 0xE0) = b := by
  have : ∀ (b : UInt8) (last : Bool),
      let i := UInt8.ofNat (b.toNat / 32 * 32 + 28)
      let f := UInt8.ofNat ((if true then 128 else 0) + (if last then 64 else 0) + b.toNat % 32)
      i &&& 0x1F = 28 ∧ f &&& 0x80 ≠ 0 ∧ (f &&& 0x40 ≠ 0 ↔ last = true) ∧ (f &&& 0x1F) ||| (i &&& 0xE0) = b := by
    decide +kernel
  exact ⟨_, _, rfl, this b last⟩

theorem fuA_next (b : UInt8) (last : Bool) : ∃ i f, fuA b false last = [i, f] ∧ i &&& 0x1F = 28 ∧ f &&& 0x80 = 0 ∧
    (f &&& 0x40 ≠ 0 ↔ last = true) := by
  have : ∀ (b : UInt8) (last : Bool),
      let i := UInt8.ofNat (b.toNat / 32 * 32 + 28)
      let f := UInt8.ofNat ((if false then 128 else 0) + (if last then 64 else 0) + b.toNat % 32)
      i &&& 0x1F = 28 ∧ f &&& 0x80 = 0 ∧ (f &&& 0x40 ≠ 0 ↔ last = true) := by
    decide +kernel
  exact ⟨_, _, rfl, this b last⟩

theorem h264_first (b : UInt8) (last ms : Bool) (p : Bytes) :
    handleH264 [] (fuA b true last ++ p) ms = some (if last then ([], [b :: p]) else (b :: p, [])) := by
  obtain ⟨i, f, he, h1, h2, h3, h4⟩ := fuA_first b last
  rw [he]
  simp only [List.cons_append, List.nil_append, handleH264, h1]
  rw [if_neg (by decide), if_neg (by decide), if_neg (by decide), if_pos trivial, if_neg (by simp [h2]), if_neg (by simp)]
  simp only [if_true, h4]
  cases last
  · rw [if_neg (by rw [h3]; simp)]; rfl
  · rw [if_pos (h3.mpr rfl)]; rfl

theorem h264_next (b : UInt8) (last : Bool) (p buf : Bytes) (hb : buf ≠ []) :
    handleH264 buf (fuA b false last ++ p) false = some (if last then ([], [buf ++ p]) else (buf ++ p, [])) := by
  obtain ⟨i, f, he, h1, h2, h3⟩ := fuA_next b last
  rw [he]
  simp only [List.cons_append, List.nil_append, handleH264, h1]
  rw [if_neg (by decide), if_neg (by decide), if_neg (by decide), if_pos trivial, if_neg (by simp [hb]), if_neg (by simp [h2])]
  simp only [hb, if_false]
  cases last
  · rw [if_neg (by rw [h3]; simp)]; rfl
  · rw [if_pos (h3.mpr rfl)]; rfl

/-- The fragments of a unit after the first one. -/
theorem fu_rest (H : Bytes → Nat → Bytes → Bool → Option (Bytes × List Bytes)) (D : Bool → Bool → Bytes)
    (hH : ∀ t last p buf, buf ≠ [] → H buf t (D false last ++ p) false = some (if last then ([], [buf ++ p]) else (buf ++ p, [])))
    (clk : Nat → Nat) (mark : Bool) (pt ts ssrc : Nat) (hpt : pt < 128) (hrtcp : ¬ (72 ≤ pt ∧ pt ≤ 76))
    (hts : ts < 2 ^ 32) (hss : ssrc < 2 ^ 32) (ps : List Bytes) : ∀ (seq : Nat) (buf : Bytes),
    ps ≠ [] → buf ≠ [] → 0 < seq → seq + ps.length ≤ 65536 →
    recv H clk (seq - 1, buf) (framePackets mark pt seq ts ssrc (withDesc D false ps)) =
      some ((seq + ps.length - 1, []), [buf ++ ps.flatten]) := by
  induction ps with
  | nil => intro seq buf h; exact absurd rfl h
  | cons p ps ih =>
    intro seq buf _ hb h0 hl
    rw [List.length_cons] at hl
    rw [withDesc_cons, framePackets_cons, Nat.mod_eq_of_lt (show seq < 65536 by omega)]
    simp only [recv]
    rw [addRTP_hdr _ _ _ _ _ _ _ _ _ hpt hrtcp (by omega) hts hss]
    simp only
    rw [missed_next seq (by omega) h0, hH _ _ _ _ hb]
    cases ps with
    | nil => simp [withDesc, framePackets, recv]
    | cons q qs =>
      simp only [List.isEmpty_cons, Bool.false_eq_true, if_false, Option.map_some, Option.bind_eq_bind, Option.bind_some]
      have := ih (seq + 1) (buf ++ p) (by simp) (by simp [hb]) (by omega) (by omega)
      rw [show seq + 1 - 1 = seq by omega] at this
      rw [this]
      simp only [Option.bind_some, List.flatten_cons, List.append_assoc, List.length_cons, List.nil_append]
      rw [show seq + 1 + (qs.length + 1) - 1 = seq + (qs.length + 1 + 1) - 1 by omega]

/-- All fragments of a unit. -/
theorem fu_all (H : Bytes → Nat → Bytes → Bool → Option (Bytes × List Bytes)) (D : Bool → Bool → Bytes) (pre : Bytes)
    (hpre : pre ≠ [])
    (hF : ∀ t last p ms, H [] t (D true last ++ p) ms = some (if last then ([], [pre ++ p]) else (pre ++ p, [])))
    (hH : ∀ t last p buf, buf ≠ [] → H buf t (D false last ++ p) false = some (if last then ([], [buf ++ p]) else (buf ++ p, [])))
    (clk : Nat → Nat) (mark : Bool) (pt seq ts ssrc ls : Nat) (hpt : pt < 128) (hrtcp : ¬ (72 ≤ pt ∧ pt ≤ 76))
    (hts : ts < 2 ^ 32) (hss : ssrc < 2 ^ 32) (ps : List Bytes) (hps : ps ≠ []) (hl : seq + ps.length ≤ 65536) :
    recv H clk (ls, []) (framePackets mark pt seq ts ssrc (withDesc D true ps)) =
      some ((seq + ps.length - 1, []), [pre ++ ps.flatten]) := by
  cases ps with
  | nil => exact absurd rfl hps
  | cons p ps =>
    rw [List.length_cons] at hl
    rw [withDesc_cons, framePackets_cons, Nat.mod_eq_of_lt (show seq < 65536 by omega)]
    simp only [recv]
    rw [addRTP_hdr _ _ _ _ _ _ _ _ _ hpt hrtcp (by omega) hts hss]
    simp only
    rw [hF]
    cases ps with
    | nil => simp [withDesc, framePackets, recv]
    | cons q qs =>
      simp only [List.isEmpty_cons, Bool.false_eq_true, if_false, Option.map_some, Option.bind_eq_bind, Option.bind_some]
      have := fu_rest H D hH clk mark pt ts ssrc hpt hrtcp hts hss (q :: qs) (seq + 1) (pre ++ p) (by simp) (by simp [hpre])
        (by omega) (by omega)
      rw [show seq + 1 - 1 = seq by omega] at this
      rw [this]
      simp only [Option.bind_some, List.flatten_cons, List.append_assoc, List.length_cons, List.nil_append]
      rw [show seq + 1 + (qs.length + 1) - 1 = seq + (qs.length + 1 + 1) - 1 by omega]

/-- **C51 for larger H264 units (partial)**: a unit that is sent in fragments, none of them after a
sequence number wrap, is received as one unit, with the one byte behind it that the sender adds
(`C27_h264_fails`). SPS and PPS units (types 7 and 8) are left out. -/
theorem C51_h264_partial (clk : Nat → Nat) (max : Nat) (m : Bool) (pt seq ts ssrc ls : Nat) (hpt : pt < 128)
    (hrtcp : ¬ (72 ≤ pt ∧ pt ≤ 76)) (hts : ts < 2 ^ 32) (hss : ssrc < 2 ^ 32)
    (b : UInt8) (rest : Bytes) (x : UInt8) (after : Bytes) (last : Bool)
    (_hty : b.toNat % 32 ≠ 7 ∧ b.toNat % 32 ≠ 8)
    (hmax : 14 < max) (hbig : max < (b :: rest).length + 12 + 2)
    (hseq : seq + ((b :: rest).length + (max - 14) - 1) / (max - 14) ≤ 65536) (hs : seq < 65536) :
    ∃ pkts h' ls', sendH264 max (hdr m pt seq ts ssrc) (b :: rest) (x :: after) last = some (pkts, h') ∧
      recv h264Handler clk (ls, []) pkts = some ((ls', []), [b :: rest ++ [x]]) := by
  obtain ⟨ps, pkts, m', h1, h2, h3, h4, h5, -⟩ := C27_h264_partial max m pt seq ts ssrc hpt hs b rest x after last hmax hbig
  refine ⟨pkts, _, seq + ps.length - 1, h1, ?_⟩
  rw [← withDesc_true (fun f l => fuA b f l)] at h5
  rw [h5, fu_all h264Handler (fun f l => fuA b f l) [b] (by simp)
    (fun t last p ms => h264_first b last ms p) (fun t last p buf hb => h264_next b last p buf hb)
    clk last pt seq ts ssrc ls hpt hrtcp hts hss ps
    (fun h => by rw [h] at h3; simp at h3) (by omega), h3]
  rfl

theorem fuHevc_first (b0 b1 : UInt8) (last : Bool) : ∃ i f, fuHevc b0 b1 true last = [i, b1, f] ∧ (i &&& 0x7E) >>> 1 = 49 ∧
    f &&& 0x80 ≠ 0 ∧ (f &&& 0x40 ≠ 0 ↔ last = true) ∧ ((f &&& 0x3F) <<< 1) ||| (i &&& 0x81) = b0 := by
  have : ∀ (b : UInt8) (last : Bool),
      let i := UInt8.ofNat (b.toNat / 128 * 128 + 49 * 2 + b.toNat % 2)
      let f := UInt8.ofNat ((if true then 128 else 0) + (if last then 64 else 0) + b.toNat / 2 % 64)
      (i &&& 0x7E) >>> 1 = 49 ∧ f &&& 0x80 ≠ 0 ∧ (f &&& 0x40 ≠ 0 ↔ last = true) ∧ ((f &&& 0x3F) <<< 1) ||| (i &&& 0x81) = b := by
    decide +kernel
  exact ⟨_, _, rfl, this b0 last⟩

theorem fuHevc_next (b0 b1 : UInt8) (last : Bool) : ∃ i f, fuHevc b0 b1 false last = [i, b1, f] ∧ (i &&& 0x7E) >>> 1 = 49 ∧
    f &&& 0x80 = 0 ∧ (f &&& 0x40 ≠ 0 ↔ last = true) := by
  have : ∀ (b : UInt8) (last : Bool),
      let i := UInt8.ofNat (b.toNat / 128 * 128 + 49 * 2 + b.toNat % 2)
      let f := UInt8.ofNat ((if false then 128 else 0) + (if last then 64 else 0) + b.toNat / 2 % 64)
      (i &&& 0x7E) >>> 1 = 49 ∧ f &&& 0x80 = 0 ∧ (f &&& 0x40 ≠ 0 ↔ last = true) := by
    decide +kernel
  exact ⟨_, _, rfl, this b0 last⟩

theorem hevc_first (b0 b1 : UInt8) (last ms : Bool) (p : Bytes) :
    handleHEVC [] (fuHevc b0 b1 true last ++ p) ms = some (if last then ([], [[b0, b1] ++ p]) else ([b0, b1] ++ p, [])) := by
  obtain ⟨i, f, he, h1, h2, h3, h4⟩ := fuHevc_first b0 b1 last
  rw [he]
  simp only [List.cons_append, List.nil_append, handleHEVC, h1]
  rw [if_neg (by decide), if_pos trivial, if_neg (by simp [h2]), if_neg (by simp)]
  simp only [if_true, h4]
  cases last
  · rw [if_neg (by rw [h3]; simp)]; rfl
  · rw [if_pos (h3.mpr rfl)]; rfl

theorem hevc_next (b0 b1 : UInt8) (last : Bool) (p buf : Bytes) (hb : buf ≠ []) :
    handleHEVC buf (fuHevc b0 b1 false last ++ p) false = some (if last then ([], [buf ++ p]) else (buf ++ p, [])) := by
  obtain ⟨i, f, he, h1, h2, h3⟩ := fuHevc_next b0 b1 last
  rw [he]
  simp only [List.cons_append, List.nil_append, handleHEVC, h1]
  rw [if_neg (by decide), if_pos trivial, if_neg (by simp [hb]), if_neg (by simp [h2])]
  simp only [hb, if_false]
  cases last
  · rw [if_neg (by rw [h3]; simp)]; rfl
  · rw [if_pos (h3.mpr rfl)]; rfl

/-- **C51 for H265 units that fit in one packet.** -/
theorem C51_h265_single (clk : Nat → Nat) (max : Nat) (m : Bool) (pt seq ts ssrc ls : Nat) (hpt : pt < 128)
    (hrtcp : ¬ (72 ≤ pt ∧ pt ≤ 76)) (hseq : seq < 65536) (hts : ts < 2 ^ 32) (hss : ssrc < 2 ^ 32)
    (b0 b1 : UInt8) (rest after : Bytes) (hfit : (b0 :: b1 :: rest).length + 12 + 3 ≤ max)
    (hty : b0.toNat / 2 % 64 < 48) :
    ∃ pkts h', sendH265 max (hdr m pt seq ts ssrc) (b0 :: b1 :: rest) after = some (pkts, h') ∧
      recv hevcHandler clk (ls, []) pkts = some ((seq, []), [b0 :: b1 :: rest]) := by
  obtain ⟨m', h1⟩ := C27_h265_single max m pt seq ts ssrc hpt hseq (b0 :: b1 :: rest) after hfit
  refine ⟨_, _, h1, ?_⟩
  rw [framePackets_cons, framePackets_nil, Nat.mod_eq_of_lt hseq]
  simp only [recv]
  rw [addRTP_hdr _ _ _ _ _ _ _ _ _ hpt hrtcp hseq hts hss]
  have hb : ∀ b : UInt8, b.toNat / 2 % 64 < 48 → ¬ ((b &&& 0x7E) >>> 1 = 48) ∧ ¬ ((b &&& 0x7E) >>> 1 = 49) ∧
      ¬ ((b &&& 0x7E) >>> 1 = 50) := by decide +kernel
  obtain ⟨h2, h3, h4⟩ := hb b0 hty
  simp [hevcHandler, handleHEVC, h2, h3, h4]

/-- **C51 for larger H265 units (partial)**: as for H264, with two bytes added. -/
theorem C51_h265_partial (clk : Nat → Nat) (max : Nat) (m : Bool) (pt seq ts ssrc ls : Nat) (hpt : pt < 128)
    (hrtcp : ¬ (72 ≤ pt ∧ pt ≤ 76)) (hts : ts < 2 ^ 32) (hss : ssrc < 2 ^ 32)
    (b0 b1 : UInt8) (rest : Bytes) (x y : UInt8) (after : Bytes)
    (hmax : 15 < max) (hbig : max < (b0 :: b1 :: rest).length + 12 + 3)
    (hseq : seq + ((b0 :: b1 :: rest).length + (max - 15) - 1) / (max - 15) ≤ 65536) (hs : seq < 65536) :
    ∃ pkts h' ls', sendH265 max (hdr m pt seq ts ssrc) (b0 :: b1 :: rest) (x :: y :: after) = some (pkts, h') ∧
      recv hevcHandler clk (ls, []) pkts = some ((ls', []), [b0 :: b1 :: rest ++ [x, y]]) := by
  obtain ⟨ps, pkts, m', h1, h2, h3, h4, h5, -⟩ := C27_h265_partial max m pt seq ts ssrc hpt hs b0 b1 rest x y after hmax hbig
  refine ⟨pkts, _, seq + ps.length - 1, h1, ?_⟩
  rw [← withDesc_true (fun f l => fuHevc b0 b1 f l)] at h5
  rw [h5, fu_all hevcHandler (fun f l => fuHevc b0 b1 f l) [b0, b1] (by simp)
    (fun t last p ms => hevc_first b0 b1 last ms p) (fun t last p buf hb => hevc_next b0 b1 last p buf hb)
    clk true pt seq ts ssrc ls hpt hrtcp hts hss ps
    (fun h => by rw [h] at h3; simp at h3) (by omega), h3]
  rfl

/-- Non-vacuity: a 2000 byte slice with the real packet size. -/
example : (14 : Nat) < maxDataLen ∧ maxDataLen < ((0x65 : UInt8) :: List.replicate 1999 0).length + 12 + 2 ∧
    7 + (((0x65 : UInt8) :: List.replicate 1999 0).length + (maxDataLen - 14) - 1) / (maxDataLen - 14) ≤ 65536 ∧
    (0x65 : UInt8).toNat % 32 ≠ 7 := by
  rw [List.length_cons, List.length_replicate]; decide

/-- **C51 fails after a loss.** When the end of a fragmented unit was lost, the receiver throws away the
first fragment of the *next* unit too (rtp.cpp 1337-1342 returns after clearing its buffer), so that
every fragmented unit following a damaged one is lost although all its packets arrive. -/
theorem C51_h264_after_loss_fails (buf : Bytes) (hb : buf ≠ []) (b : UInt8) (last ms : Bool) (p : Bytes) :
    handleH264 buf (fuA b true last ++ p) ms = some ([], []) := by
  obtain ⟨i, f, he, h1, h2, h3, h4⟩ := fuA_first b last
  rw [he]
  simp only [List.cons_append, List.nil_append, handleH264, h1]
  rw [if_neg (by decide), if_neg (by decide), if_neg (by decide), if_pos trivial, if_neg (by simp [hb]), if_pos (by simp [hb, h2])]

/-- ... and without its first fragment, the rest of that unit is ignored. -/
theorem C51_h264_ignored (b : UInt8) (last ms : Bool) (p : Bytes) :
    handleH264 [] (fuA b false last ++ p) ms = some ([], []) := by
  obtain ⟨i, f, he, h1, h2, h3⟩ := fuA_next b last
  rw [he]
  simp only [List.cons_append, List.nil_append, handleH264, h1]
  rw [if_neg (by decide), if_neg (by decide), if_neg (by decide), if_pos trivial, if_pos (by simp [h2])]

/-! ## Malformed payloads (C52) -/

/-- **C52 for VP8 (partial)**: no payload makes the VP8 receiver read outside it, except one that
consists of a payload descriptor only. -/
theorem C52_vp8_partial (s : Vp8) (t : Nat) (pl : Bytes) (ms : Bool)
    (hne : ∀ b0 b1 b2 r, pl = b0 :: b1 :: b2 :: r → vp8HeaderSize b0 b1 b2 ≠ pl.length) :
    handleVP8 s t pl ms ≠ none := by
  match pl with
  | [] | [_] | [_, _] => simp [handleVP8]
  | b0 :: b1 :: b2 :: r =>
    have hne := hne b0 b1 b2 r rfl
    simp only [handleVP8]
    split
    · simp
    · rename_i h1
      have : 0 < ((b0 :: b1 :: b2 :: r).drop (vp8HeaderSize b0 b1 b2)).length := by
        rw [List.length_drop]; omega
      obtain ⟨c, q, hc⟩ : ∃ c q, (b0 :: b1 :: b2 :: r).drop (vp8HeaderSize b0 b1 b2) = c :: q := by
        cases h : (b0 :: b1 :: b2 :: r).drop (vp8HeaderSize b0 b1 b2) with
        | nil => rw [h] at this; cases this
        | cons c q => exact ⟨c, q, rfl⟩
      rw [hc]
      simp only [List.getElem?_cons_zero, Option.bind_eq_bind, Option.bind_some]
      generalize hX : (if s.buf ≠ [] ∧ ((b0 &&& 16) >>> 4 = 1 ∧ b0 &&& 7 = 0 ∨ ms = true) then (⟨[], false⟩ : Vp8) else s) = X
      split <;> simp

/-- Non-vacuity: a packet with a two byte descriptor and three bytes of data. -/
example : handleVP8 ⟨[], false⟩ 7 [0x90, 0x00, 1, 2, 3] false ≠ none :=
  C52_vp8_partial _ _ _ _ (by intro b0 b1 b2 r h; obtain ⟨rfl, rfl, rfl, rfl⟩ : _ ∧ _ ∧ _ ∧ _ := by simpa using h
                              decide)

/-- **C52 fails for VP8**: a payload that is all descriptor makes it read one byte behind it. -/
theorem C52_vp8_fails (t : Nat) (ms : Bool) : handleVP8 ⟨[], false⟩ t [0x90, 0x80, 0x05] ms = none := by
  cases ms <;> rfl

/-- **C52 fails for H264 and H265**: aggregated units are copied by the length they announce, without
looking at how much there is (rtp.cpp 1312-1325, 1162-1175): a six byte packet makes the receiver read
and pass on up to 65535 bytes of memory behind it. -/
theorem C52_h264_fails (fua : Bytes) (ms : Bool) : handleH264 fua [24, 0xFF, 0xFF, 1, 2, 3] ms = none := by
  have : aggLoop 1 [24, 0xFF, 0xFF, 1, 2, 3] 1 = none := by
    rw [aggLoop]
    rfl
  simp [handleH264, this, show (24 : UInt8) &&& 31 = 24 by decide, show ¬ (24 : UInt8) < 24 by decide]

theorem C52_h265_fails (fua : Bytes) (ms : Bool) : handleHEVC fua [96, 1, 0xFF, 0xFF, 1, 2, 3] ms = none := by
  have : aggLoop 2 [96, 1, 0xFF, 0xFF, 1, 2, 3] 2 = none := by
    rw [aggLoop]
    rfl
  simp [handleHEVC, this, show ((96 : UInt8) &&& 126) >>> 1 = 48 by decide]

/-- A sequence of aggregated units (RFC 6184, 5.7.1): each behind its two byte length. -/
def aggregate (units : List Bytes) : Bytes := units.flatMap fun u => beEnc 2 u.length ++ u

theorem aggLoop_ok (lim : Nat) (hlim : 1 ≤ lim ∧ lim ≤ 2) (units : List Bytes) : ∀ (pre : Bytes),
    (∀ u ∈ units, u.length < 65536 ∧ lim ≤ u.length + 1) →
    aggLoop lim (pre ++ aggregate units) pre.length = some units := by
  induction units with
  | nil =>
    intro pre _
    rw [aggLoop, dif_neg (by simp only [aggregate, List.flatMap_nil, List.append_nil]; omega)]
  | cons u us ih =>
    intro pre hu
    obtain ⟨h1, h2⟩ := hu u (List.mem_cons_self ..)
    have he : aggregate (u :: us) = beEnc 2 u.length ++ (u ++ aggregate us) := by
      simp [aggregate]
    have hlen : (pre ++ aggregate (u :: us)).length = pre.length + 2 + u.length + (aggregate us).length := by
      rw [he]; simp only [List.length_append, beEnc_length]; omega
    rw [aggLoop, dif_pos (by rw [hlen]; omega)]
    have e1 : Bit.btoh .s ((pre ++ aggregate (u :: us)).drop pre.length) = some u.length := by
      rw [List.drop_left' rfl, he]
      exact (Ebml.btoh_be .s rfl u.length _).trans (congrArg some (Nat.mod_eq_of_lt h1))
    have e2 : readMem (pre ++ aggregate (u :: us)) (pre.length + 2) u.length = some u := by
      rw [readMem, if_pos (by rw [hlen]; omega), he, ← List.append_assoc,
        List.drop_left' (by simp), List.take_left' rfl]
    rw [e1]
    simp only [Option.bind_eq_bind, Option.bind_some]
    rw [e2]
    simp only [Option.bind_some]
    have e3 : pre ++ aggregate (u :: us) = (pre ++ beEnc 2 u.length ++ u) ++ aggregate us := by
      rw [he]; simp only [List.append_assoc]
    have e4 : pre.length + 2 + u.length = (pre ++ beEnc 2 u.length ++ u).length := by
      simp only [List.length_append, beEnc_length]
    rw [e3, e4, ih _ fun u h => hu u (List.mem_cons_of_mem _ h)]
    rfl

/-- **C52 (partial), well-formed aggregates**: they are taken apart exactly. -/
theorem C52_h264_aggregate (fua : Bytes) (b : UInt8) (hb : b.toNat % 32 = 24) (units : List Bytes)
    (hu : ∀ u ∈ units, u.length < 65536) (ms : Bool) :
    handleH264 fua (b :: aggregate units) ms = some (fua, units) := by
  have h := aggLoop_ok 1 (by decide) units [b] (fun u h => ⟨hu u h, by omega⟩)
  have hb2 : ∀ b : UInt8, b.toNat % 32 = 24 → b &&& 0x1F = 24 := by decide +kernel
  simp only [List.cons_append, List.nil_append, List.length_cons, List.length_nil] at h
  simp [handleH264, hb2 b hb, h]

theorem C52_h265_aggregate (fua : Bytes) (b0 b1 : UInt8) (hb : b0.toNat / 2 % 64 = 48) (units : List Bytes)
    (hu : ∀ u ∈ units, u.length < 65536 ∧ u ≠ []) (ms : Bool) :
    handleHEVC fua (b0 :: b1 :: aggregate units) ms = some (fua, units) := by
  have h := aggLoop_ok 2 (by decide) units [b0, b1] (fun u h => ⟨(hu u h).1, by
    have := List.length_pos_iff.mpr (hu u h).2; omega⟩)
  have hb2 : ∀ b : UInt8, b.toNat / 2 % 64 = 48 → (b &&& 0x7E) >>> 1 = 48 := by decide +kernel
  simp only [List.cons_append, List.nil_append, List.length_cons, List.length_nil] at h
  simp [handleHEVC, hb2 b0 hb, h]

example : handleH264 [] [24, 0, 2, 0x67, 1, 0, 1, 0x68] false = some ([], [[0x67, 1], [0x68]]) :=
  C52_h264_aggregate [] 24 (by decide) [[0x67, 1], [0x68]] (by decide) false

end Verif.Rtp
