import Verif.Ts.Demux

/-!
# Transport stream properties (C22, C23, C24, C49)
-/
namespace Verif.Ts
open Spec

/-! ## C22: packets -/

/-- **C22** Any payload that fits, put in a packet in one go and stuffed: exactly 188 bytes, and a
reader following the standard finds the PID, the counter, the unit start flag and exactly that payload.
With the video fields, it also finds the clock and the key flag. -/
theorem C22_packet (m : Mux) (a : Par) (d : Bytes) (hd : d ≠ []) (hfit : d.length ≤ (startPacket m a).bytesFree) :
    ∃ q v, ((startPacket m a).fillFree d).1.addStuffing = some q ∧ q.buf.length = 188 ∧ q.pos = 188 ∧
      Spec.view q.buf = some v ∧ v.payload = d ∧ v.pid = a.pid % 8192 ∧ v.unitStart = m.first ∧
      v.cc = (m.cont + 1) % 16 ∧
      (m.first = true ∧ a.video = true →
        Spec.pcr v.field = some (a.time * 27000 % (2 ^ 33 * 300)) ∧ randomAccess v.field = a.keyframe) := by
  -- pick the packet number and counter base that fit the state
  obtain ⟨k, hk⟩ : ∃ k, m.first = decide (k = 0) := by
    cases m.first with
    | true => exact ⟨0, rfl⟩
    | false => exact ⟨1, rfl⟩
  obtain ⟨m', hm'⟩ : ∃ m' : Mux, m' = { m with cont := m.cont % 2 ^ 16 } := ⟨_, rfl⟩
  obtain ⟨c0, hc0⟩ : ∃ c0, m.cont % 2 ^ 16 = (c0 + k) % 2 ^ 16 := ⟨m.cont + 2 ^ 16 * (k + 1) - k, by omega⟩
  have hsame : startPacket m a = startPacket m' a := by
    have : (m'.cont + 1) % 2 ^ 16 = (m.cont + 1) % 2 ^ 16 := by rw [hm']; simp only; omega
    simp only [startPacket, this]
    rw [hm']
  obtain ⟨h1, h2, h3, af, f, hh, h8, hv, hnv⟩ := start_head m' a k c0 (by rw [hm']; exact hk) (by rw [hm']; exact hc0)
  rw [← hsame] at f
  obtain ⟨hn, f'⟩ := fillFree_form f d
  have hall : ((startPacket m a).fillFree d).2 = d.length := by rw [hn]; omega
  rw [hall, List.take_length, List.nil_append] at f'
  obtain ⟨q, h3', af', hq, fq, hpos, hcc, hkeep, hzero⟩ := addStuffing_form f'
  have hh' : Head a c0 k h1 h2 h3' af' := by
    refine ⟨hh.h1, hh.h2, by rw [hcc, hh.h3], ?_, ?_⟩
    · intro hkv
      obtain ⟨w, hw⟩ := hh.clock hkv
      obtain ⟨w', hw'⟩ := hkeep (hv hkv)
      exact ⟨w ++ w', by rw [hw', hw]; simp⟩
    · intro hkv
      have := hnv hkv
      subst this
      exact hzero (by simp)
  obtain ⟨v, hview, hp⟩ := view_head fq hh' hpos hd
  refine ⟨q, v, hq, fq.len, hpos, hview, hp.payload, hp.pid, ?_, ?_, ?_⟩
  · rw [hp.unitStart, hk]
  · rw [hp.cc]; omega
  · intro h
    exact hp.clock ⟨by rw [hk] at h; simpa using h.1, h.2⟩

example : ((startPacket ⟨clear, 41, true, [], []⟩ ⟨true, true, 256, 1000⟩).bytesFree) = 176 := by decide +kernel

/-- **C22** A frame handed over in any pieces: the packets sent for it are all well-formed 188-byte
packets of the track, their payloads are non-empty and concatenate to exactly the bytes of the frame,
only the first starts a unit (and carries clock and key flag of a video frame), and the counters go on
from the previous frame without a gap, whatever the schedule of the program tables. -/
theorem C22_frame (a : Par) (m : Mux) (ds : List Bytes) (hp : m.pack = clear) (hc : m.cont < 2 ^ 16) :
    ∃ m' new ps, sendPieces a m ds = some m' ∧ m'.pack = clear ∧
      mediaOf m'.sent = mediaOf m.sent ++ new ∧
      Carries a.pid m.cont a.video a.keyframe a.time 0 new ps ∧ ps.flatten = ds.flatten ∧
      m'.cont = (m.cont + new.length) % 2 ^ 16 := by
  obtain ⟨m', new, ps, h1, h2, -, h3, h4, h5, h6⟩ := sendPieces_idle a m ds hp hc
  exact ⟨m', new, ps, h1, h2, h3, h4, h5, h6⟩

example : ∃ m : Mux, m.pack = clear ∧ m.cont < 2 ^ 16 ∧ m.due = [true, false] := ⟨⟨clear, 65535, true, [true, false], []⟩, rfl, by decide, rfl⟩

/-! ## C23: time stamps -/

/-- **C23** The five bytes of a time stamp are the ones of the standard (lead, three groups of bits, a
set marker bit after each), and reading them, whatever follows, gives the 33-bit number back. -/
theorem C23_stamp (l : Nat) (hl : l < 16) (t : Nat) (ht : t < 2 ^ 33) (r : Bytes) :
    bytesBits (encodePESTimestamp (l * 16) t) = Spec.stampBits l t ∧
    decode33 (encodePESTimestamp (l * 16) t ++ r) = t := by
  refine ⟨enc_bits l hl t, ?_⟩
  rw [decode33_enc l hl, Nat.mod_eq_of_lt ht]

/-- **C23** A time in milliseconds survives, as long as it fits the 33-bit clock. -/
theorem C23_milliseconds (l : Nat) (hl : l < 16) (t : Nat) (ht : t * 90 < 2 ^ 33) (r : Bytes) :
    decodePTS (encodePESTimestamp (l * 16) (t * 90) ++ r) = t := by
  rw [decodePTS_enc l hl, ms33]; omega

example : decode33 (encodePESTimestamp (3 * 16) 8589934591) = 8589934591 := by decide +kernel

/-! ## C24: program clock references -/

/-- The clock reference the server writes is the one a reader following the standard finds. -/
theorem C24_written (fl : Byte) (hf : fl.toNat / 16 % 2 = 1) (v : Nat) (hv : v < 2 ^ 33 * 300) (w : Bytes) :
    Spec.pcr (fl :: (pcrBytes v ++ w)) = some v := by
  rw [pcr_written fl hf, Nat.mod_eq_of_lt hv]

example : Spec.pcr (0x10 :: pcrBytes 2576980377599) = some 2576980377599 := by decide +kernel

theorem setPCR_cells (p : Packet) (h : p.buf.length = 188) (v : Nat) :
    (p.setPCR v).getAF = 3 ∧ (p.setPCR v).at 5 &&& 0x10 ≠ 0 ∧
    (∀ i : Fin 6, (p.setPCR v).at (6 + i.val) = ((pcrBytes v).getD i.val 0).toNat) := by
  obtain ⟨buf, pos⟩ := p
  simp only at h
  match buf, h with
  | b0 :: b1 :: b2 :: b3 :: b4 :: b5 :: b6 :: b7 :: b8 :: b9 :: b10 :: b11 :: r, _ =>
    have e : (⟨b0 :: b1 :: b2 :: b3 :: b4 :: b5 :: b6 :: b7 :: b8 :: b9 :: b10 :: b11 :: r, pos⟩ : Packet).setPCR v
        = ⟨b0 :: b1 :: b2 :: UInt8.ofNat ((b3.toNat &&& 0xCF) + ((3 &&& 3) <<< 4)) :: UInt8.ofNat 7 :: UInt8.ofNat (b5.toNat ||| 0x10) ::
            (pcrBytes v ++ r), max pos 12⟩ := rfl
    rw [e]
    refine ⟨?_, ?_, ?_⟩
    · have : ∀ b : UInt8, ((UInt8.ofNat ((b.toNat &&& 0xCF) + ((3 &&& 3) <<< 4))).toNat &&& 0x30) >>> 4 = 3 := by decide +kernel
      exact this b3
    · have : ∀ b : UInt8, (UInt8.ofNat (b.toNat ||| 0x10)).toNat &&& 0x10 ≠ 0 := by decide +kernel
      exact this b5
    · intro i
      match i with
      | ⟨0, _⟩ => rfl
      | ⟨1, _⟩ => rfl
      | ⟨2, _⟩ => rfl
      | ⟨3, _⟩ => rfl
      | ⟨4, _⟩ => rfl
      | ⟨5, _⟩ => rfl

theorem pcr_arith (T E N : Nat) (hE : E < 300) (hN : N = T * 2 ^ 15 + 32256 + E) :
    N / 256 ^ 5 % 256 = T / 2 ^ 25 % 256 ∧ N / 256 ^ 4 % 256 = T / 2 ^ 17 % 256 ∧ N / 256 ^ 3 % 256 = T / 2 ^ 9 % 256 ∧
    N / 256 ^ 2 % 256 = T / 2 % 256 ∧ N / 256 ^ 1 % 256 / 2 ^ 7 = T % 2 ∧ N / 256 % 2 * 2 ^ 8 + N / 256 ^ 0 % 256 = E := by
  refine ⟨by omega, by omega, by omega, by omega, by omega, by omega⟩

theorem pcr_sum (T : Nat) (hT : T < 2 ^ 31) :
    T / 2 ^ 25 % 256 * 2 ^ 24 + T / 2 ^ 17 % 256 * 2 ^ 16 + T / 2 ^ 9 % 256 * 2 ^ 8 + T / 2 % 256 = T / 2 := by
  omega

theorem pcr_wide (T E : Nat) (hT : T < 2 ^ 31) (hE : E < 300) :
    int64 ((int32 T * 300 % (2 ^ 64 : Nat)).toNat ||| E) = ((T * 300 ||| E : Nat) : Int) := by
  have hi : int32 T = (T : Int) := by
    unfold int32
    rw [Nat.mod_eq_of_lt (by omega), if_pos (by omega)]
  rw [hi]
  rw [show ((T : Int) * 300) = ((T * 300 : Nat) : Int) by omega, ← Int.natCast_emod, Int.toNat_natCast,
    Nat.mod_eq_of_lt (Nat.lt_of_lt_of_le (m := 2 ^ 40) (by omega) (by decide))]
  have hlt : T * 300 ||| E < 2 ^ 40 := Nat.or_lt_two_pow (by omega) (by omega)
  generalize (T * 300 ||| E) = X at hlt
  unfold int64
  rw [Nat.mod_eq_of_lt (Nat.lt_of_lt_of_le hlt (by decide)), if_pos (Nat.lt_of_lt_of_le hlt (by decide))]

/-- What the reading function returns: base and extension are or-ed instead of added. -/
theorem getPCR_setPCR (p : Packet) (h : p.buf.length = 188) (v : Nat) (hv : v / 300 < 2 ^ 31) :
    (p.setPCR v).getPCR = ((v / 300 * 300 ||| v % 300 : Nat) : Int) := by
  obtain ⟨haf, h5, hc⟩ := setPCR_cells p h v
  have c0 := hc 0
  have c1 := hc 1
  have c2 := hc 2
  have c3 := hc 3
  have c4 := hc 4
  have c5 := hc 5
  simp only [Fin.isValue, Fin.val_zero, Fin.val_one, Fin.val_two, Nat.add_zero, Nat.reduceAdd] at c0 c1 c2
  have c3 : (p.setPCR v).at 9 = _ := c3
  have c4 : (p.setPCR v).at 10 = _ := c4
  have c5 : (p.setPCR v).at 11 = _ := c5
  rw [pcrBytes_eq] at c0 c1 c2 c3 c4 c5
  have hr : v % 300 < 300 := Nat.mod_lt _ (by omega)
  obtain ⟨N, hN⟩ : ∃ N, N = v / 300 % 2 ^ 33 * 2 ^ 15 + 63 * 2 ^ 9 + v % 300 := ⟨_, rfl⟩
  rw [← hN] at c0 c1 c2 c3 c4 c5
  have c0 : (p.setPCR v).at 6 = N / 256 ^ 5 % 256 := by rw [c0]; exact u8n _
  have c1 : (p.setPCR v).at 7 = N / 256 ^ 4 % 256 := by rw [c1]; exact u8n _
  have c2 : (p.setPCR v).at 8 = N / 256 ^ 3 % 256 := by rw [c2]; exact u8n _
  have c3 : (p.setPCR v).at 9 = N / 256 ^ 2 % 256 := by rw [c3]; exact u8n _
  have c4 : (p.setPCR v).at 10 = N / 256 ^ 1 % 256 := by rw [c4]; exact u8n _
  have c5 : (p.setPCR v).at 11 = N / 256 ^ 0 % 256 := by rw [c5]; exact u8n _
  rw [Packet.getPCR, haf, if_neg (by omega), if_neg h5]
  simp only [c0, c1, c2, c3, c4, c5, shl, shr]
  obtain ⟨f5, f4, f3, f2, f1, f0⟩ := pcr_arith (v / 300) (v % 300) N hr (by rw [hN]; omega)
  rw [f5, f4, f3, f2, f1]
  rw [show N / 256 ^ 1 % 256 &&& 1 = N / 256 % 2 by rw [show 1 = 2 ^ 1 - 1 by decide, and_mask]; omega]
  rw [or_eq_add 24 (x := v / 300 / 2 ^ 25 % 256 * 2 ^ 24) (by omega) (by omega)]
  rw [or_eq_add 16 (x := v / 300 / 2 ^ 25 % 256 * 2 ^ 24 + v / 300 / 2 ^ 17 % 256 * 2 ^ 16) (by omega) (by omega)]
  rw [or_eq_add 8 (x := v / 300 / 2 ^ 25 % 256 * 2 ^ 24 + v / 300 / 2 ^ 17 % 256 * 2 ^ 16 + v / 300 / 2 ^ 9 % 256 * 2 ^ 8) (by omega) (by omega)]
  rw [pcr_sum (v / 300) hv]
  rw [or_eq_add 1 (x := v / 300 / 2 * 2 ^ 1) (y := v / 300 % 2) (by omega) (by omega)]
  rw [show v / 300 / 2 * 2 ^ 1 + v / 300 % 2 = v / 300 by omega]
  rw [f0]
  exact pcr_wide (v / 300) (v % 300) hv hr

/-- **C24, partial**: the server's own reader gets the clock back when it is a multiple of 300 (as every
clock the server writes is) and below 2^31 * 300, about six and a half hours. Missing: all other values,
see `C24_extension_fails` and `C24_late_fails`. -/
theorem C24_read_partial (p : Packet) (h : p.buf.length = 188) (v : Nat) (h300 : v % 300 = 0) (hv : v / 300 < 2 ^ 31) :
    (p.setPCR v).getPCR = v := by
  rw [getPCR_setPCR p h v hv, h300, Nat.or_zero]
  omega

example : (clear.setPCR (3600000 * 27000)).getPCR = 3600000 * 27000 := by decide +kernel

/-- **C24 fails** for a clock with a non-zero extension: 304 reads back as 300. -/
theorem C24_extension_fails : ∃ v < 2 ^ 33 * 300, (clear.setPCR v).getPCR ≠ v := ⟨304, by decide, by decide +kernel⟩

/-- **C24 fails** for a frame at 6 hours 38 minutes: the clock reads back negative. -/
theorem C24_late_fails : ∃ t, t * 27000 < 2 ^ 33 * 300 ∧ (clear.setPCR (t * 27000)).getPCR < 0 :=
  ⟨23860930, by decide, by decide +kernel⟩

/-! ## C49: frames survive the transport stream -/

/-- What the receiver should deliver for a frame. -/
def FrameIn.frame (f : FrameIn) : Spec.Frame :=
  ⟨f.pieces.flatten, f.par.time, match f.lead with
    | .video _ o _ _ => o
    | .plain _ _ _ => 0⟩

/-- The announced length is the real one (or 0, "unbounded", for video) and fits 16 bits. -/
def FrameIn.Sized (f : FrameIn) : Prop :=
  match f.lead with
  | .video len _ _ _ => (len = 0 ∨ len = f.pieces.flatten.length ∧ f.pieces.flatten.length ≤ 65519) ∧
      f.pieces.flatten.length + 64 < 2 ^ 32
  | .plain _ len _ => len = f.pieces.flatten.length ∧ f.pieces.flatten.length ≤ 65524

instance : DecidablePred FrameIn.Sized := fun f => by
  unfold FrameIn.Sized
  split <;> infer_instance

/-- The flight of a frame. -/
def FrameIn.flight (f : FrameIn) : Flight :=
  ⟨f.lead.bytes f.par.time ++ f.pieces.flatten, f.frame, match f.lead with
    | .video _ _ _ al => al
    | .plain _ _ _ => true⟩

theorem flight_ok (f : FrameIn) (hs : f.Sized) (h1 : wraps f.frame.time ≤ 3)
    (h2 : wraps (f.frame.time + f.frame.offset) = wraps f.frame.time) : f.flight.Ok := by
  intro s bpos hr hl hn
  obtain ⟨par, lead, pieces⟩ := f
  cases lead with
  | video len off bps al =>
    obtain ⟨hlen, hsmall⟩ := hs
    simp only [FrameIn.frame] at h1 h2
    simp only [FrameIn.flight, FrameIn.frame] at hl hn ⊢
    simp only at hlen hsmall
    have e1 := ms33_epoch (t := par.time) h1
    have e2 := ms33_epoch (t := par.time + off) (by show wraps _ ≤ 3; omega)
    have heq : epoch (par.time + off) = epoch par.time := h2
    rw [heq] at e2
    have hadd : par.time * 90 + off * 90 = (par.time + off) * 90 := by omega
    have hw : par.time * 90 + off * 90 < 2 ^ 64 := by
      unfold Spec.wraps at h1 h2; omega
    have hle : ms33 (par.time * 90) ≤ ms33 (par.time * 90 + off * 90) := by
      rw [hadd, e1.1, e2.1]; omega
    have := video_accept s bpos len (par.time * 90) (off * 90) bps al pieces.flatten hlen hsmall
      (fun _ => hle) hw _ rfl
    simp only [Lead.bytes]
    rw [this]
    have htime : (if off * 90 = 0 then ms33 (par.time * 90 + off * 90) else ms33 (par.time * 90)) = ms33 (par.time * 90) := by
      split
      · rename_i h0; rw [h0, Nat.add_zero]
      · rfl
    have hoff : (if off * 90 = 0 then (0 : Int) else (ms33 (par.time * 90 + off * 90) : Int) - ms33 (par.time * 90)) = (off : Int) := by
      split
      · omega
      · rw [hadd, e1.1, e2.1]; omega
    rw [htime, hoff, accept_time hr hl hn h1]
  | plain sid len bps =>
    obtain ⟨hlen, hsmall⟩ := hs
    simp only [FrameIn.frame] at h1
    simp only [FrameIn.flight, FrameIn.frame] at hl hn ⊢
    simp only at hlen hsmall
    have := plain_accept s bpos (par.time * 90) bps sid pieces.flatten hsmall _ rfl
    simp only [Lead.bytes, hlen]
    rw [this, accept_time hr hl hn h1]
    rfl

theorem near_of_steady {last : Nat} (fs : List FrameIn) (h : Spec.Steady last (fs.map FrameIn.frame)) :
    Near last (fs.map FrameIn.flight) := by
  induction fs generalizing last with
  | nil => trivial
  | cons f r ih => exact ⟨h.1, h.2.1, ih h.2.2.2.2⟩

theorem steady_ok {last : Nat} (fs : List FrameIn) (h : Spec.Steady last (fs.map FrameIn.frame)) (hs : ∀ f ∈ fs, f.Sized) :
    ∀ f ∈ fs.map FrameIn.flight, f.Ok := by
  induction fs generalizing last with
  | nil => simp
  | cons f r ih =>
    intro x hx
    rw [List.map_cons, List.mem_cons] at hx
    rcases hx with rfl | hx
    · exact flight_ok f (hs f (by simp)) h.2.2.1 h.2.2.2.1
    · exact ih h.2.2.2.2 (fun y hy => hs y (List.mem_cons_of_mem _ hy)) x hx

/-- The packets of one track among everything sent. -/
def received (pid : Nat) (l : List Sent) : List Bytes :=
  (mediaOf l).filter fun b => (fromPointer b).getPID = pid

theorem flight_bytes_ne (f : FrameIn) : f.flight.bytes ≠ [] := by
  obtain ⟨par, lead, pieces⟩ := f
  cases lead <;> simp [FrameIn.flight, Lead.bytes, videoLeadIn, plainLeadIn]

theorem sendAll_groups (pid : Nat) (fs : List FrameIn) (hpid : ∀ f ∈ fs, f.par.pid < 8192) {s : Session} (hp : s.pack = clear)
    (hc : ∀ p, s.conts p < 2 ^ 16) :
    ∃ s' gs, sendAll s fs = some s' ∧ received pid s'.sent = received pid s.sent ++ gs.flatten ∧
      All2 (Group pid) gs ((fs.filter fun f => f.par.pid = pid).map FrameIn.flight) := by
  induction fs generalizing s with
  | nil => exact ⟨s, [], rfl, by simp, .nil⟩
  | cons f r ih =>
    obtain ⟨m', new, ps, e, hpk, hct, hsent, hcar, hflat, -⟩ := sendPieces_idle f.par
      ⟨s.pack, s.conts f.par.pid, true, s.due, s.sent⟩ (f.lead.bytes f.par.time :: f.pieces) hp (hc _)
    have hfl : ps.flatten = f.flight.bytes := by
      rw [hflat]; simp [FrameIn.flight]
    have hf : sendFrame s f = some ⟨m'.pack, fun p => if p = f.par.pid then m'.cont else s.conts p, m'.due, m'.sent⟩ := by
      simp only [sendFrame, e, Option.map_some]
    obtain ⟨s', gs, e', hrec, hall⟩ := ih (fun x hx => hpid x (List.mem_cons_of_mem _ hx))
      (s := ⟨m'.pack, fun p => if p = f.par.pid then m'.cont else s.conts p, m'.due, m'.sent⟩) hpk (by
        intro p; simp only; split
        · exact hct
        · exact hc p)
    have hnew : ∀ b ∈ new, (fromPointer b).getPID = f.par.pid := by
      intro b hb
      rw [carries_pid new hcar b hb, Nat.mod_eq_of_lt (hpid f (by simp))]
    have hne : new ≠ [] := by
      intro h
      subst h
      cases ps with
      | nil => exact flight_bytes_ne f hfl.symm
      | cons _ _ => exact hcar.elim
    by_cases hq : f.par.pid = pid
    · refine ⟨s', new :: gs, ?_, ?_, ?_⟩
      · simp only [sendAll, hf, Option.bind_some]; exact e'
      · rw [hrec]
        simp only [received] at hrec ⊢
        rw [hsent, List.filter_append]
        have : new.filter (fun b => decide ((fromPointer b).getPID = pid)) = new := by
          rw [List.filter_eq_self]; intro b hb; simp [hnew b hb, hq]
        rw [this]; simp
      · simp only [List.filter_cons, hq, decide_true, if_true, List.map_cons]
        refine .cons ⟨s.conts f.par.pid, f.par.video, f.par.keyframe, f.par.time, ps, ?_, hfl, hne⟩ hall
        rw [← hq]; exact hcar
    · refine ⟨s', gs, ?_, ?_, ?_⟩
      · simp only [sendAll, hf, Option.bind_some]; exact e'
      · rw [hrec]
        simp only [received]
        rw [hsent, List.filter_append]
        have : new.filter (fun b => decide ((fromPointer b).getPID = pid)) = [] := by
          rw [List.filter_eq_nil_iff]; intro b hb; simp [hnew b hb, hq]
        rw [this]; simp
      · simp only [List.filter_cons, hq, decide_false]
        exact hall

/-- **C49, partial**: frames of any tracks sent through one multiplexer, in any order, with program tables
wherever they fall: a receiver of track `pid` that reads all its packets and finishes gets exactly that
track's frames, in order, with their bytes, times and offsets. Missing: frames whose PES length does not
fit (`C49_oversize_fails`), frames shown after the clock wraps (`C49_wrap_fails`), the fourth wrap
(`C49_drift_fails`). -/
theorem C49_frames_partial (s : Session) (fs : List FrameIn) (pid : Nat)
    (hp : s.pack = clear) (hc : ∀ p, s.conts p < 2 ^ 16) (h0 : s.sent = [])
    (hpid : ∀ f ∈ fs, f.par.pid < 8192)
    (hsized : ∀ f ∈ fs, f.par.pid = pid → f.Sized)
    (hst : Spec.Steady 0 ((fs.filter fun f => f.par.pid = pid).map FrameIn.frame)) :
    ∃ s', sendAll s fs = some s' ∧
      (demux (received pid s'.sent)).map (fun u => (u.data, u.time, u.offset)) =
        (fs.filter fun f => f.par.pid = pid).map fun f => (f.frame.data, f.frame.time, (f.frame.offset : Int)) := by
  obtain ⟨s', gs, e, hrec, hall⟩ := sendAll_groups pid fs hpid hp hc
  refine ⟨s', e, ?_⟩
  have : received pid s.sent = [] := by rw [h0]; rfl
  rw [hrec, this, List.nil_append, demux_groups gs _ hall (steady_ok _ hst ?_) (near_of_steady _ hst)]
  · rw [List.map_map, List.map_map]; rfl
  · intro f hf
    have := List.mem_filter.mp hf
    exact hsized f this.1 (by simpa using this.2)

/-- A session before anything was sent. -/
def idle : Session := ⟨clear, fun _ => 0, [], []⟩

/-- Two tracks interleaved, one with a key frame of 400 bytes and an offset, the other plain. -/
def sample : List FrameIn :=
  [⟨⟨true, true, 256, 1000⟩, .video 0 80 0 true, [List.replicate 400 7]⟩,
   ⟨⟨false, true, 257, 1010⟩, .plain 0xC0 20 0, [List.replicate 20 9]⟩,
   ⟨⟨true, false, 256, 1040⟩, .video 30 0 700 true, [List.replicate 10 8, List.replicate 20 1]⟩]

example : (∀ f ∈ sample, f.par.pid < 8192) ∧ (∀ f ∈ sample, f.Sized) ∧
    Spec.Steady 0 ((sample.filter fun f => f.par.pid = 256).map FrameIn.frame) := by
  refine ⟨by decide, by decide +kernel, ?_⟩
  exact ⟨by decide +kernel, by decide +kernel, by decide +kernel, by decide +kernel,
    by decide +kernel, by decide +kernel, by decide +kernel, by decide +kernel, trivial⟩

/-! ### H264 and HEVC -/

/-- A frame as stored: every NAL unit after its length in `n` bytes. -/
def stored (n : Nat) (nals : List Bytes) : Bytes := (nals.map fun x => beEnc n x.length ++ x).flatten

/-- The same NAL units in Annex B form. -/
def annexB (nals : List Bytes) : Bytes := (nals.map fun x => [0, 0, 0, 1] ++ x).flatten

theorem naluPieces_flatten (nals : List Bytes) (hne : ∀ x ∈ nals, x ≠ []) (pre : Bytes)
    (hs : (pre ++ stored 4 nals).length < 2 ^ 32) :
    (naluPieces 4 (pre ++ stored 4 nals) pre.length).flatten = annexB nals := by
  induction nals generalizing pre with
  | nil => rw [naluPieces.eq_def, dif_neg (by simp [stored])]; rfl
  | cons x r ih =>
    have e : pre ++ stored 4 (x :: r) = (pre ++ beEnc 4 x.length ++ x) ++ stored 4 r := by
      simp [stored]
    have hx : 0 < x.length := List.length_pos_iff.mpr (hne x (by simp))
    have hl : (pre ++ stored 4 (x :: r)).length = pre.length + 4 + x.length + (stored 4 r).length := by
      rw [e]; simp; omega
    have hlt : x.length < 256 ^ 4 := by omega
    have h4 : ((pre ++ stored 4 (x :: r)).drop pre.length).take 4 = beEnc 4 x.length := by
      rw [List.drop_left]
      simp [stored]
    have hd : ((pre ++ stored 4 (x :: r)).drop (pre.length + 4)).take x.length = x := by
      rw [e, show pre.length + 4 = (pre ++ beEnc 4 x.length).length by simp, List.append_assoc, List.drop_left,
        List.take_left]
    rw [naluPieces.eq_def, dif_pos ⟨by omega, by omega⟩]
    simp only [if_true]
    rw [h4, beVal_beEnc, Nat.mod_eq_of_lt hlt, hd, if_neg (by
      rw [hl] at hs ⊢
      have : (x.length + pre.length + 4) % 2 ^ 64 = x.length + pre.length + 4 := Nat.mod_eq_of_lt (by omega)
      omega)]
    have := ih (fun y hy => hne y (List.mem_cons_of_mem _ hy)) (pre ++ beEnc 4 x.length ++ x) (by rw [← e]; exact hs)
    rw [show (pre ++ beEnc 4 x.length ++ x).length = pre.length + (x.length + 4) by simp; omega, ← e] at this
    simp only [List.flatten_cons, this]
    simp [annexB]

theorem stored_annexB_length (nals : List Bytes) : (stored 4 nals).length = (annexB nals).length := by
  induction nals with
  | nil => rfl
  | cons x r ih => simp [stored, annexB] at ih ⊢; omega

/-- **C49** An H264 or HEVC frame stored with four-byte lengths: what goes out is the inserted bytes and
the NAL units behind start codes, and the length announced for it is right (or left open), so that
`C49_frames_partial` applies to it. -/
theorem C49_h26x (par : Par) (offset bps : Nat) (aud init : Bytes) (nals : List Bytes) (hne : ∀ x ∈ nals, x ≠ [])
    (hs : (aud ++ init ++ stored 4 nals).length + 64 < 2 ^ 32) :
    (h26xFrame par offset bps 4 aud init (stored 4 nals)).Sized ∧
    (h26xFrame par offset bps 4 aud init (stored 4 nals)).frame = ⟨aud ++ init ++ annexB nals, par.time, offset⟩ := by
  have hp := naluPieces_flatten nals hne [] (by simp at hs ⊢; omega)
  simp only [List.nil_append, List.length_nil] at hp
  have hl := stored_annexB_length nals
  simp only [List.length_append] at hs
  constructor
  · simp only [FrameIn.Sized, h26xFrame, List.flatten_cons, hp, List.length_append]
    constructor
    · split
      · left; rfl
      · right; omega
    · omega
  · simp only [FrameIn.frame, h26xFrame, List.flatten_cons, hp]
    simp

example : ∀ x ∈ [[0x67, 0x42], [0x65, 1, 2, (3 : Byte)]], x ≠ [] := by decide

theorem short_pieces : naluPieces 2 (stored 2 [[0x65, 1]]) 0 = [[0, 0, 0, 1], [0x65, 1]] := by
  have e : stored 2 [[0x65, 1]] = [0, 2, 0x65, 1] := by decide +kernel
  have h4 : naluPieces 2 [0, 2, 0x65, 1] 4 = [] := by rw [naluPieces.eq_def, dif_neg (by simp)]
  have hb : beVal [0, 2] = 2 := by decide +kernel
  rw [e, naluPieces.eq_def, dif_pos (by simp)]
  simp [hb, h4]

/-- **C49 fails** for an H264 frame stored with two-byte NAL unit lengths: the announced length counts two
bytes per unit, four are sent, and the receiver drops the frame. -/
theorem C49_short_lengths_fails :
    ∃ s, sendAll idle [h26xFrame ⟨true, true, 256, 1000⟩ 0 0 2 [] [] (stored 2 [[0x65, 1]])] = some s ∧
      demux (received 256 s.sent) = [] := by
  have e : h26xFrame ⟨true, true, 256, 1000⟩ 0 0 2 [] [] (stored 2 [[0x65, 1]]) =
      ⟨⟨true, true, 256, 1000⟩, .video 4 0 0 true, [[], [], [0, 0, 0, 1], [0x65, 1]]⟩ := by
    rw [h26xFrame, short_pieces]; rfl
  rw [e]
  have h : ((sendAll idle [⟨⟨true, true, 256, 1000⟩, .video 4 0 0 true, [[], [], [0, 0, 0, 1], [0x65, 1]]⟩]).map
      fun s => demux (received 256 s.sent)) = some [] := by decide +kernel
  revert h
  cases sendAll idle [⟨⟨true, true, 256, 1000⟩, .video 4 0 0 true, [[], [], [0, 0, 0, 1], [0x65, 1]]⟩] with
  | none => simp
  | some s => intro h; exact ⟨s, rfl, by simpa using h⟩

/-- **C49 fails** for a frame decoded just before the 33-bit clock wraps and shown just after: it comes
out at time 0 with offset 0, instead of at 95443717 ms with offset 1 ms. -/
theorem C49_wrap_fails :
    ((sendAll idle [⟨⟨true, true, 256, 95443717⟩, .video 1 1 0 true, [[5]]⟩]).map
      fun s => (demux (received 256 s.sent)).map fun u => (u.data, u.time, u.offset)) = some [([5], 0, 0)] := by
  decide +kernel

/-- **C49 fails** for audio or metadata frames of more than 65527 bytes: the 16-bit length in front of
them wraps and, unless it wraps to exactly 0, the receiver drops the frame. Nothing is found, and the
whole frame is skipped. -/
theorem C49_oversize_fails (sid : Byte) (data : Bytes) (pts : Nat) (h1 : 65528 < data.length) (h2 : data.length < 2 ^ 31)
    (h3 : (data.length + 8) % 65536 ≠ 0) (s : Demux) (bpos : Nat) (pay : Bytes)
    (hpay : pay = plainLeadIn sid data.length pts 0 ++ data) :
    (pesLoop pay.length bpos pay.length s pay).found = s.found := by
  have hann : ∀ n, (UInt8.ofNat ((n &&& 0xFF00) >>> 8)).toNat * 256 + (UInt8.ofNat (n &&& 0xFF)).toNat = n % 65536 := by
    intro n
    rw [Nat.shiftRight_and_distrib, show 0xFF00 >>> 8 = 0xFF by decide, and_ff, and_ff, u8n, u8n, shr]
    omega
  obtain ⟨l1, l2, hl, hv⟩ : ∃ l1 l2 : Byte, l1.toNat * 256 + l2.toNat = (data.length + 8) % 65536 ∧
      pay = 0 :: 0 :: 1 :: sid :: l1 :: l2 :: 0x84 :: 0x80 :: 5 :: (encodePESTimestamp 0x20 pts ++ data) := by
    refine ⟨_, _, hann (data.length + 8), ?_⟩
    rw [hpay]
    have : (data.length + 8) % 2 ^ 32 = data.length + 8 := Nat.mod_eq_of_lt (by omega)
    simp [plainLeadIn, rateField, this]
  have hlen : pay.length = 14 + data.length := by rw [hv]; simp [enc_length]; omega
  obtain ⟨k, hk⟩ : ∃ k, pay.length = k + 2 := ⟨pay.length - 2, by omega⟩
  have ht : (pesTimes pay).2.2 = 14 := by rw [hv]; simp [pesTimes]
  have h7 : pesSkip (pay.getD 7 0).toNat = 0 := by
    have : pay.getD 7 0 = 0x80 := by rw [hv]; rfl
    rw [this]; decide
  have h8 : (pay.getD 8 0).toNat = 5 := by
    have : pay.getD 8 0 = 5 := by rw [hv]; rfl
    rw [this]; rfl
  have hreal : pesReal pay.length pay ≠ data.length := by
    have e4 : pay.getD 4 0 = l1 := by rw [hv]; rfl
    have e5 : pay.getD 5 0 = l2 := by rw [hv]; rfl
    simp only [pesReal, e4, e5, h8, hl]
    split <;> omega
  have hone : pesOne s pay.length bpos pay = ({ s with
      roll := if rolled ((pesTimes pay).1 + s.roll * rollover) s.lastms then s.roll + 1 else s.roll }, pay.length) := by
    unfold pesOne
    simp only [ht, h7, h8]
    rw [if_pos (by rw [hlen] at hreal ⊢; omega)]
    simp only [Prod.mk.injEq, true_and]
    omega
  have e : ∀ f, (pesLoop pay.length bpos (f + 2) s pay).found = s.found := by
    intro f
    rw [pesLoop, if_neg (by omega), if_neg (by rw [h8]; omega), if_neg (by rw [hv]; simp)]
    simp only [hone]
    have hm : pay.length % 2 ^ 32 = pay.length := Nat.mod_eq_of_lt (by omega)
    rw [hm, List.drop_length, pesLoop, if_pos List.length_nil]
  rw [hk]
  have := e k
  rw [hk] at this
  exact this

/-- Frames of one byte at the given times. -/
def ticks (ts : List Nat) : List FrameIn := ts.map fun t => ⟨⟨false, true, 257, t⟩, .plain 0xC0 1 0, [[5]]⟩

/-- **C49 fails** after the clock has wrapped four times (about 106 hours): times come out one millisecond late. -/
theorem C49_drift_fails :
    ((sendAll idle (ticks [90000000, 99000000, 185000000, 193000000, 281000000, 290000000, 378000000, 385000000])).map
      fun s => (demux (received 257 s.sent)).map fun u => u.time) =
      some [90000000, 99000000, 185000000, 193000000, 281000000, 290000000, 378000000, 385000001] := by
  decide +kernel

/-- **C49, duplicates**: a packet of a frame that is sent several times in a row (ISO 13818-1 allows it) does not
change the frame. -/
theorem C49_duplicates (n : Packet → Nat) (ps : List Packet) (last : Int) :
    gather last (ps.flatMap fun p => List.replicate (n p + 1) p) = gather last ps := by
  have skip : ∀ (p : Packet) (k : Nat) (r : List Packet), gather p.getCC (List.replicate k p ++ r) = gather p.getCC r := by
    intro p k r
    induction k with
    | zero => rfl
    | succ k ih => rw [List.replicate_succ, List.cons_append, gather, if_pos rfl, ih]
  induction ps generalizing last with
  | nil => rfl
  | cons p ps ih =>
    rw [List.flatMap_cons, List.replicate_succ, List.cons_append, gather, gather]
    by_cases h : (p.getCC : Int) = last
    · rw [if_pos h, if_pos h, ← h, skip, ih]
    · rw [if_neg h, if_neg h, skip, ih]

/-- ... and it is needed that the counter differs between packets of the frame, as `C49_frames_partial` shows it does. -/
example : (fromPointer ([0x47, 0, 0, 0x13] ++ List.replicate 184 7)).getCC = 3 := by decide +kernel

end Verif.Ts
