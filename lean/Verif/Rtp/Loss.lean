import Verif.Rtp.Loop

/-!
# C51 with losses: what a receiver makes of some of the packets
-/
namespace Verif.Rtp
open Spec

/-- The first packet of a frame, in any state. -/
theorem vp8_start_any (s : Vp8) (t : Nat) (key : Bool) (x y : UInt8) (r : Bytes) (ms : Bool)
    (hk : s.buf = [] → s.key = false) :
    handleVP8 s t (vp8Descriptor key true ++ x :: y :: r) ms =
      some (⟨x :: y :: r, x.toNat % 2 == 0⟩, if s.buf = [] ∨ ms = true then [] else [⟨t, s.buf, s.key⟩]) := by
  obtain ⟨d, hd⟩ : ∃ d, vp8Descriptor key true = [d] := ⟨_, rfl⟩
  obtain ⟨h1, h2⟩ := desc_facts key true d hd
  have h2 := h2.mpr rfl
  have hkey : ∀ x : UInt8, decide (x &&& 0x01 = 0) = (x.toNat % 2 == 0) := by decide +kernel
  rw [hd]
  simp only [List.cons_append, List.nil_append, handleVP8]
  have hz : ¬ ((0 : UInt8) >>> 7 = 1) := by decide
  simp only [vp8HeaderSize, h1, hz, if_false, List.length_cons, h2, and_self, decide_true]
  rw [if_neg (by omega)]
  by_cases hb : s.buf = []
  · simp [hb, hk hb, ← hkey]
  · cases ms <;> simp [hb, ← hkey]

/-- The other packets of a frame, in any state. -/
theorem vp8_cont_any (s : Vp8) (t : Nat) (key : Bool) (x y : UInt8) (r : Bytes) (ms : Bool)
    (hk : s.buf = [] → s.key = false) :
    handleVP8 s t (vp8Descriptor key false ++ x :: y :: r) ms =
      some (if s.buf = [] ∨ ms = true then ⟨[], false⟩ else ⟨s.buf ++ x :: y :: r, s.key⟩, []) := by
  obtain ⟨d, hd⟩ : ∃ d, vp8Descriptor key false = [d] := ⟨_, rfl⟩
  obtain ⟨h1, h2⟩ := desc_facts key false d hd
  have h2 : ¬ ((d &&& 0x10) >>> 4 = 1 ∧ d &&& 0x07 = 0) := fun h => by cases h2.mp h
  rw [hd]
  simp only [List.cons_append, List.nil_append, handleVP8]
  have hz : ¬ ((0 : UInt8) >>> 7 = 1) := by decide
  simp only [vp8HeaderSize, h1, hz, if_false, List.length_cons, h2, decide_false]
  rw [if_neg (by omega)]
  obtain ⟨buf, k⟩ := s
  cases buf with
  | nil =>
    have := hk rfl
    simp only at this
    subst this
    simp
  | cons a b => cases ms <;> simp

/-- The receiver before packet `p`, when `cur` is what was sent of the current frame so far: what it has
collected is either void, or recognisably interrupted, or exactly that. -/
def LossInv (cur : Bytes) (key : Bool) (p : Nat) (st : Nat × Vp8) : Prop :=
  (st.2.buf = [] → st.2.key = false) ∧
  (st.2.buf ≠ [] → st.1 < p ∧ (st.1 + 1 = p → st.2.buf = cur ∧ st.2.key = key))

theorem missed_iff (ls p : Nat) (hp : p < 65536) (hls : ls < p) : missed ls p = false ↔ ls + 1 = p := by
  unfold missed
  simp only [Nat.reducePow, ne_eq, decide_not, Bool.not_eq_false', decide_eq_true_eq]
  omega

theorem loss_rest (clk : Nat → Nat) (key : Bool) (pt ts ssrc : Nat) (hpt : pt < 128) (hrtcp : ¬ (72 ≤ pt ∧ pt ≤ 76))
    (hts : ts < 2 ^ 32) (hss : ssrc < 2 ^ 32) (ps : List Bytes) : ∀ (p : Nat) (cur : Bytes) (k : Bool) (st : Nat × Vp8) (got : List Bytes),
    LossInv cur k p st → p + ps.length ≤ 65536 → (∀ q ∈ ps, 2 ≤ q.length) →
    got.Sublist (framePackets true pt p ts ssrc (withDesc (fun s _ => vp8Descriptor key s) false ps)) →
    ∃ st', recv handleVP8 clk st got = some (st', []) ∧ LossInv (cur ++ ps.flatten) k (p + ps.length) st' := by
  induction ps with
  | nil =>
    intro p cur k st got hi hl _ hg
    have : got = [] := by simpa [withDesc, framePackets] using hg
    subst this
    exact ⟨st, rfl, by simpa using hi⟩
  | cons q ps ih =>
    intro p cur k st got hi hl hq hg
    obtain ⟨x, y, r, rfl⟩ := two_le (hq q (List.mem_cons_self ..))
    have hq' := fun q h => hq q (List.mem_cons_of_mem _ h)
    rw [List.length_cons] at hl
    rw [withDesc_cons, framePackets_cons, Nat.mod_eq_of_lt (show p < 65536 by omega)] at hg
    have fin : ∀ st1 got1, LossInv (cur ++ (x :: y :: r)) k (p + 1) st1 →
        got1.Sublist (framePackets true pt (p + 1) ts ssrc (withDesc (fun s _ => vp8Descriptor key s) false ps)) →
        ∃ st', recv handleVP8 clk st1 got1 = some (st', []) ∧
          LossInv (cur ++ ((x :: y :: r) :: ps).flatten) k (p + ((x :: y :: r) :: ps).length) st' := by
      intro st1 got1 h1 h2
      obtain ⟨st', h3, h4⟩ := ih (p + 1) _ k st1 got1 h1 (by omega) hq' h2
      refine ⟨st', h3, ?_⟩
      rw [List.flatten_cons, ← List.append_assoc, List.length_cons, show p + (ps.length + 1) = p + 1 + ps.length by omega]
      exact h4
    cases hg with
    | cons _ hg =>
      refine fin st got ⟨hi.1, fun hb => ⟨by have := (hi.2 hb).1; omega, fun h => ?_⟩⟩ hg
      have := (hi.2 hb).1
      omega
    | cons_cons _ hg =>
      rename_i got1
      simp only [recv]
      rw [addRTP_hdr _ _ _ _ _ _ _ _ _ hpt hrtcp (by omega) hts hss, vp8_cont_any _ _ _ _ _ _ _ hi.1]
      simp only [Option.map_some, Option.bind_eq_bind, Option.bind_some]
      obtain ⟨st', h3, h4⟩ := fin (p, if st.2.buf = [] ∨ missed st.1 p = true then ⟨[], false⟩ else ⟨st.2.buf ++ x :: y :: r, st.2.key⟩) got1
        (by
          by_cases h : st.2.buf = [] ∨ missed st.1 p = true
          · rw [if_pos h]
            exact ⟨fun _ => rfl, fun hb => absurd rfl hb⟩
          · rw [if_neg h]
            have hb : st.2.buf ≠ [] := fun e => h (Or.inl e)
            obtain ⟨h5, h6⟩ := hi.2 hb
            obtain ⟨h7, h8⟩ := h6 ((missed_iff _ _ (by omega) h5).mp (by simpa using fun e => h (Or.inr e)))
            refine ⟨fun e => absurd e (by simp), fun _ => ⟨Nat.lt_succ_self _, fun _ => ⟨?_, h8⟩⟩⟩
            show st.2.buf ++ x :: y :: r = _
            rw [h7]) hg
      rw [h3]
      exact ⟨st', rfl, h4⟩

theorem loss_frame (clk : Nat → Nat) (m : Bool) (pt seq ts ssrc : Nat) (hpt : pt < 128) (hrtcp : ¬ (72 ≤ pt ∧ pt ≤ 76))
    (hts : ts < 2 ^ 32) (hss : ssrc < 2 ^ 32) (cur : Bytes) (k : Bool) (st : Nat × Vp8) (hi : LossInv cur k seq st)
    (b : UInt8) (rest : Bytes) (hlen : (b :: rest).length % 1200 ≠ 1)
    (hseq : seq + ((b :: rest).length + 1199) / 1200 ≤ 65536) :
    ∃ pkts m', sendVP8 (hdr m pt seq ts ssrc) (b :: rest) =
        some (pkts, hdr m' pt ((seq + ((b :: rest).length + 1199) / 1200) % 65536) ts ssrc) ∧
      ∀ got, got.Sublist pkts → ∃ st' out, recv handleVP8 clk st got = some (st', out) ∧
        LossInv (b :: rest) (b.toNat % 2 == 0) (seq + ((b :: rest).length + 1199) / 1200) st' ∧
        (out.map fun f => (f.data, f.key)).Sublist [(cur, k)] := by
  have hpos : 0 < ((b :: rest).length + 1199) / 1200 := by rw [List.length_cons]; omega
  obtain ⟨ps, pkts, m', h1, h2, h3, h4, h5, h6, -⟩ := C27_vp8 m pt seq ts ssrc hpt (by omega) (b :: rest) b rfl
  refine ⟨pkts, m', by rw [h1, h2], ?_⟩
  replace h5 := h5 hlen
  rw [h6, ← withDesc_true (fun s _ => vp8Descriptor (b.toNat % 2 == 0) s)]
  intro got hg
  cases ps with
  | nil => rw [List.length_nil] at h2; omega
  | cons p ps =>
    obtain ⟨x, y, r, rfl⟩ := two_le (h5 p (List.mem_cons_self ..))
    have hx : x = b := by
      rw [List.flatten_cons] at h3
      injection h3
    subst hx
    have h5' := fun p h => h5 p (List.mem_cons_of_mem _ h)
    rw [← h2, List.length_cons] at hseq ⊢
    rw [withDesc_cons, framePackets_cons, Nat.mod_eq_of_lt (show seq < 65536 by omega)] at hg
    rw [List.flatten_cons] at h3
    have fin : ∀ st1 got1, LossInv (x :: y :: r) (x.toNat % 2 == 0) (seq + 1) st1 →
        got1.Sublist (framePackets true pt (seq + 1) ts ssrc (withDesc (fun s _ => vp8Descriptor (x.toNat % 2 == 0) s) false ps)) →
        ∃ st', recv handleVP8 clk st1 got1 = some (st', []) ∧
          LossInv (x :: rest) (x.toNat % 2 == 0) (seq + (ps.length + 1)) st' := by
      intro st1 got1 g1 g2
      obtain ⟨st', g3, g4⟩ := loss_rest clk _ pt ts ssrc hpt hrtcp hts hss ps (seq + 1) _ _ st1 got1 g1 (by omega) h5' g2
      refine ⟨st', g3, ?_⟩
      rw [← h3, show seq + (ps.length + 1) = seq + 1 + ps.length by omega]
      exact g4
    cases hg with
    | cons _ hg =>
      obtain ⟨st', h7, h8⟩ := fin st got ⟨hi.1, fun hb => ⟨by have := (hi.2 hb).1; omega, fun h => by have := (hi.2 hb).1; omega⟩⟩ hg
      exact ⟨st', [], h7, h8, List.nil_sublist _⟩
    | cons_cons _ hg =>
      rename_i got1
      simp only [recv]
      rw [addRTP_hdr _ _ _ _ _ _ _ _ _ hpt hrtcp (by omega) hts hss, vp8_start_any _ _ _ _ _ _ _ hi.1]
      simp only [Option.map_some, Option.bind_eq_bind, Option.bind_some]
      obtain ⟨st', h7, h8⟩ := fin (seq, ⟨x :: y :: r, x.toNat % 2 == 0⟩) got1
        ⟨fun e => absurd e (by simp), fun _ => ⟨Nat.lt_succ_self _, fun _ => ⟨rfl, rfl⟩⟩⟩ hg
      rw [h7]
      refine ⟨st', _, rfl, h8, ?_⟩
      rw [List.append_nil]
      by_cases h : st.2.buf = [] ∨ missed st.1 seq = true
      · rw [if_pos h]; exact List.nil_sublist _
      · rw [if_neg h]
        have hb : st.2.buf ≠ [] := fun e => h (Or.inl e)
        obtain ⟨g5, g6⟩ := hi.2 hb
        obtain ⟨g7, g8⟩ := g6 ((missed_iff _ _ (by omega) g5).mp (by simpa using fun e => h (Or.inr e)))
        simp [g7, g8]

theorem loss_session (clk : Nat → Nat) (pt ssrc : Nat) (hpt : pt < 128) (hrtcp : ¬ (72 ≤ pt ∧ pt ≤ 76))
    (hss : ssrc < 2 ^ 32) (frames : List (Nat × Bytes)) : ∀ (m : Bool) (seq ts : Nat) (cur : Bytes) (k : Bool),
    (∀ f ∈ frames, f.1 < 2 ^ 32 ∧ f.2 ≠ [] ∧ f.2.length % 1200 ≠ 1) → seq + vp8Count frames ≤ 65536 →
    ∃ pkts h', sendFramesVP8 (hdr m pt (seq % 65536) ts ssrc) frames = some (pkts, h') ∧
      ∀ st got, LossInv cur k seq st → got.Sublist pkts →
        ∃ st' out, recv handleVP8 clk st got = some (st', out) ∧
          (out.map fun f => (f.data, f.key)).Sublist
            ((cur, k) :: frames.map fun f => (f.2, (f.2.headD 0).toNat % 2 == 0)) := by
  induction frames with
  | nil =>
    intro m seq ts cur k _ _
    refine ⟨[], _, rfl, ?_⟩
    intro st got _ hg
    rw [List.sublist_nil] at hg
    subst hg
    exact ⟨st, [], rfl, List.nil_sublist _⟩
  | cons f frames ih =>
    intro m seq ts cur k hf hcount
    obtain ⟨t, f⟩ := f
    obtain ⟨f1, f2, f3⟩ := hf (t, f) (List.mem_cons_self ..)
    simp only at f1 f2 f3
    obtain ⟨b, rest, rfl⟩ : ∃ b rest, f = b :: rest := by
      cases f with
      | nil => exact absurd rfl f2
      | cons b r => exact ⟨b, r, rfl⟩
    have hc : vp8Count ((t, b :: rest) :: frames) = ((b :: rest).length + 1199) / 1200 + vp8Count frames := by
      simp [vp8Count]
    rw [hc] at hcount
    have hpos : 0 < ((b :: rest).length + 1199) / 1200 := by rw [List.length_cons]; omega
    have hlt : seq < 65536 := by omega
    rw [Nat.mod_eq_of_lt hlt]
    have hsend := fun st hi => loss_frame clk m pt seq t ssrc hpt hrtcp f1 hss cur k st hi b rest f3 (by omega)
    obtain ⟨pk1, m1, hs1, -⟩ := hsend (0, ⟨[], false⟩) ⟨fun _ => rfl, fun h => absurd rfl h⟩
    obtain ⟨pk2, h2, hs2, hr2⟩ := ih m1 (seq + ((b :: rest).length + 1199) / 1200) t (b :: rest) (b.toNat % 2 == 0)
      (fun f h => hf f (List.mem_cons_of_mem _ h)) (by omega)
    refine ⟨pk1 ++ pk2, h2, ?_, ?_⟩
    · simp only [sendFramesVP8, setTimestamp_hdr]
      rw [hs1]
      simp only [Option.bind_eq_bind, Option.bind_some]
      rw [hs2]
      rfl
    · intro st got hi hg
      obtain ⟨g1, g2, rfl, hg1, hg2⟩ := List.sublist_append_iff.mp hg
      obtain ⟨pk1', m1', hs1', hr1⟩ := hsend st hi
      rw [hs1] at hs1'
      obtain ⟨rfl, -⟩ := Prod.mk.inj (Option.some.inj hs1')
      obtain ⟨st1, o1, hr1, hi1, ho1⟩ := hr1 g1 hg1
      obtain ⟨st2, o2, hr2, ho2⟩ := hr2 st1 g2 hi1 hg2
      refine ⟨st2, o1 ++ o2, recv_append _ _ _ _ _ _ _ _ _ hr1 hr2, ?_⟩
      rw [List.map_append]
      exact ho1.append ho2

/-- **C51, losses (partial).** However many of the packets of a session are lost, and whichever: every frame that
comes out is one of the frames sent, complete, with its key flag, in order and at most once. Assumed as in
`C51_vp8_partial`: no sequence number wrap and no frame length of the form `1200 k + 1`. Not claimed: that a loss
costs only one frame (`C51_vp8_loss_fails`). -/
theorem C51_vp8_loss_partial (clk : Nat → Nat) (m : Bool) (pt seq ts ssrc ls : Nat) (hpt : pt < 128)
    (hrtcp : ¬ (72 ≤ pt ∧ pt ≤ 76)) (hss : ssrc < 2 ^ 32) (frames : List (Nat × Bytes))
    (hf : ∀ f ∈ frames, f.1 < 2 ^ 32 ∧ f.2 ≠ [] ∧ f.2.length % 1200 ≠ 1)
    (hseq : seq < 65536) (hcount : seq + (frames.map fun f => (f.2.length + 1199) / 1200).sum ≤ 65536) :
    ∃ pkts h', sendFramesVP8 (hdr m pt seq ts ssrc) frames = some (pkts, h') ∧
      ∀ got, got.Sublist pkts → ∃ st' out, recv handleVP8 clk (ls, ⟨[], false⟩) got = some (st', out) ∧
        (out.map fun f => (f.data, f.key)).Sublist (frames.map fun f => (f.2, (f.2.headD 0).toNat % 2 == 0)) := by
  cases frames with
  | nil =>
    refine ⟨[], _, rfl, ?_⟩
    intro got hg
    rw [List.sublist_nil] at hg
    subst hg
    exact ⟨_, [], rfl, List.nil_sublist _⟩
  | cons f frames =>
    -- the frame "before the first one" cannot come out: use two markers that differ
    have h := fun cur k => loss_session clk pt ssrc hpt hrtcp hss (f :: frames) m seq ts cur k hf hcount
    obtain ⟨pkts, h', hs, hr⟩ := h [] false
    obtain ⟨pkts2, h2', hs2, hr2⟩ := h [] true
    rw [hs] at hs2
    obtain ⟨rfl, -⟩ := Prod.mk.inj (Option.some.inj hs2)
    rw [Nat.mod_eq_of_lt hseq] at hs
    refine ⟨pkts, h', hs, ?_⟩
    intro got hg
    have hi : ∀ k, LossInv [] k seq (ls, ⟨[], false⟩) := fun k => ⟨fun _ => rfl, fun h => absurd rfl h⟩
    obtain ⟨st', out, e1, s1⟩ := hr _ got (hi _) hg
    obtain ⟨st2, out2, e2, s2⟩ := hr2 _ got (hi _) hg
    rw [e1] at e2
    obtain ⟨rfl, rfl⟩ := Prod.mk.inj (Option.some.inj e2)
    refine ⟨st', out, e1, ?_⟩
    cases hm : out.map fun f => (f.data, f.key) with
    | nil => exact List.nil_sublist _
    | cons a r =>
      rw [hm] at s1 s2
      cases s1 with
      | cons _ s1 => exact s1
      | cons_cons _ s1 =>
        cases s2 with
        | cons _ s2 => exact s2

/-- Non-vacuity: three frames, one of them in two packets, of which the second is lost. -/
example : ∃ pkts h', sendFramesVP8 (hdr false 96 7 0 1) [(10, [0, 1, 2]), (20, 1 :: List.replicate 1300 9), (30, [2, 3])] = some (pkts, h') ∧
    (pkts.eraseIdx 2).Sublist pkts ∧ ∃ st' out, recv handleVP8 id (0, ⟨[], false⟩) (pkts.eraseIdx 2) = some (st', out) ∧
      (out.map fun f => f.data).Sublist [[0, 1, 2], 1 :: List.replicate 1300 9, [2, 3]] := by
  obtain ⟨pkts, h', h1, h2⟩ := C51_vp8_loss_partial id false 96 7 0 1 0 (by decide) (by decide) (by decide)
    [(10, [0, 1, 2]), (20, 1 :: List.replicate 1300 9), (30, [2, 3])]
    (by
      intro f hf
      simp only [List.mem_cons, List.not_mem_nil, or_false] at hf
      rcases hf with rfl | rfl | rfl
      · decide
      · refine ⟨by decide, List.cons_ne_nil _ _, ?_⟩
        rw [List.length_cons, List.length_replicate]; decide
      · decide)
    (by decide) (by simp only [List.map_cons, List.length_cons, List.length_replicate]; decide)
  refine ⟨pkts, h', h1, List.eraseIdx_sublist .., ?_⟩
  obtain ⟨st', out, e, s⟩ := h2 _ (List.eraseIdx_sublist ..)
  refine ⟨st', out, e, ?_⟩
  have := s.map Prod.fst
  rw [List.map_map, List.map_map] at this
  exact this

/-- A lost packet also costs the frame before it: of four one-packet frames whose second packet is lost, the first
frame arrived whole and is not passed on. -/
theorem C51_vp8_loss_fails :
    ∃ pkts h', sendFramesVP8 (hdr false 96 7 0 1) [(10, [0, 1]), (20, [1, 2]), (30, [1, 3]), (40, [1, 4])] = some (pkts, h') ∧
      pkts.length = 4 ∧ (recv handleVP8 id (6, ⟨[], false⟩) pkts).map (fun r => r.2.map fun f => f.data) = some [[0, 1], [1, 2], [1, 3]] ∧
      (recv handleVP8 id (6, ⟨[], false⟩) (pkts.eraseIdx 1)).map (fun r => r.2.map fun f => f.data) = some [[1, 3]] :=
  ⟨[hdr true 96 7 10 1 ++ [0x10, 0, 1], hdr true 96 8 20 1 ++ [0x30, 1, 2], hdr true 96 9 30 1 ++ [0x30, 1, 3], hdr true 96 10 40 1 ++ [0x30, 1, 4]],
   hdr true 96 11 40 1, by decide +kernel⟩

end Verif.Rtp
