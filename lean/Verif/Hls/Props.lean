import Verif.Hls.Fetch

/-!
# C70: media playlists

`cuts video m ps` are the times at which the stream `ps` is cut into segments. Everything holds for all histories of a track: packets that
arrive and old keys that are removed.
-/
namespace Verif.Hls
open Verif.Index

/-- What the index says after a history. -/
theorem history_facts {video : Bool} {setting np nk nf : Nat} (hp : 0 < np) (hk : 0 < nk) (hf : 0 < nf) {ops : List Op} (h : Moderate (packets ops))
    (hne : packets ops ≠ []) (hshort : Short (accepted 0 (packets ops))) {t : Track} (ht : run (newTrack video setting np nk nf) ops = some t) :
    Facts t (cuts video (minFragOf setting) (accepted 0 (packets ops))) t.frags.del ∧ t.lastms = last (accepted 0 (packets ops)) ∧
      ((accepted 0 (packets ops)).map Packet.time).Pairwise (· ≤ ·) ∧ (removals ops = 0 → t.frags.del = 0) := by
  rcases run_new video setting hp hk hf ops h with ⟨u, fs, d, e, er, hi, hfl, hd, hv, hm⟩ | ⟨er, _⟩
  · rw [er] at ht; cases ht
    have hfs : fs ≠ [] := by
      intro hh
      rw [hh] at hfl
      cases hq : packets ops with
      | nil => exact hne hq
      | cons p r => rw [hq] at hfl; simp [accepted] at hfl
    have := accepted_length 0 (packets ops)
    have := h.count
    have hg : Grouped video (minFragOf setting) fs := by rw [← hv, ← hm]; exact hi.grouped
    have hc : cuts video (minFragOf setting) (accepted 0 (packets ops)) = fs.map fragFirst := by rw [← hfl]; exact cuts_grouped hg
    have hfa := facts hi hfs (by rw [hfl]; omega) (by rw [hfl]; exact fun p hp => (h.fits p (accepted_sub _ _ p hp)).1) (by rw [hfl]; exact hshort)
    refine ⟨?_, ?_, ?_, ?_⟩
    · rw [hc, hfa.del]; exact hfa
    · rw [← hfl]; exact hi.lastms
    · rw [← hfl]; exact hi.grouped.times
    · intro h0
      have := hi.tight
      rw [hfa.del]; omega
  · rw [er] at ht; cases ht

theorem packets_ne {video : Bool} {setting np nk nf : Nat} {ops : List Op} {t : Track} (hp : 0 < np) (hk : 0 < nk) (hf : 0 < nf) (h : Moderate (packets ops))
    (ht : run (newTrack video setting np nk nf) ops = some t) (h2 : 0 < t.frags.fin - t.frags.del) : packets ops ≠ [] := by
  rcases run_new video setting hp hk hf ops h with ⟨u, fs, d, e, er, hi, hfl, hd, hv, hm⟩ | ⟨er, _⟩
  · rw [er] at ht; cases ht
    intro hh
    rw [hh] at hfl
    simp only [accepted] at hfl
    have h1 := hi.shows.offFrags.fin
    have h3 := flatten_le hi.grouped.keys
    have h4 := sum_pos_len hi.grouped.frags
    rw [hfl] at h3
    simp only [List.length_nil] at h3
    omega
  · rw [er] at ht; cases ht

/-- **C70** (for streams of less than 49 days, within the limits of C30). The playlist of a live stream that has two fragments or more lists
segments `a` to `b - 1` of the stream under their own numbers. They are whole: each goes from where it is cut to the next cut, and that one
lasts no longer than the announced target, to the nearest second. All that is complete and still there is listed, but for a few: the first
two, more only to get down to the configured length, and the last one while nothing but the start of the next one is there. Fetching the
listed segments one after the other gives every packet from the start of the first to the end of the last one exactly once and in order. -/
theorem C70_listed_partial (video : Bool) (setting : Nat) {np nk nf : Nat} (hp : 0 < np) (hk : 0 < nk) (hf : 0 < nf)
    (ops : List Op) (h : Moderate (packets ops)) (hshort : Short (accepted 0 (packets ops))) (t : Track)
    (ht : run (newTrack video setting np nk nf) ops = some t) (h2 : 2 ≤ t.frags.fin - t.frags.del) (limit : Nat) :
    ∃ a b, t.frags.del ≤ a ∧ a ≤ b ∧
      b < (cuts video (minFragOf setting) (accepted 0 (packets ops))).length ∧
      (cuts video (minFragOf setting) (accepted 0 (packets ops))).length ≤ b + 2 ∧
      ((∃ p ∈ accepted 0 (packets ops), ∃ s, (cuts video (minFragOf setting) (accepted 0 (packets ops))).getLast? = some s ∧ s < p.time) →
        b + 1 = (cuts video (minFragOf setting) (accepted 0 (packets ops))).length) ∧
      (a ≤ t.frags.del + 2 ∨ (0 < limit ∧ limit ≤ b - a)) ∧
      (playlist true limit t).seq = a ∧
      (playlist true limit t).segs = (List.range' a (b - a)).map (whole (cuts video (minFragOf setting) (accepted 0 (packets ops)))) ∧
      (∀ s ∈ (playlist true limit t).segs, 0 < s.dur ∧ rounded s.dur ≤ (playlist true limit t).target) ∧
      (playlist true limit t).segs.flatMap (fetch (accepted 0 (packets ops))) =
        between ((cuts video (minFragOf setting) (accepted 0 (packets ops))).getD a 0) ((cuts video (minFragOf setting) (accepted 0 (packets ops))).getD b 0)
          (accepted 0 (packets ops)) := by
  obtain ⟨hfa, hl, hs, _⟩ := history_facts hp hk hf h (packets_ne hp hk hf h ht (by omega)) hshort ht
  generalize hS : cuts video (minFragOf setting) (accepted 0 (packets ops)) = S at *
  obtain ⟨a, b, hab⟩ := says hfa (by have := hfa.fin; have := hfa.left; omega) limit
  refine ⟨a, b, hab.start, hab.order, hab.fin, hab.recent, ?_, hab.few, hab.seq, hab.segs, ?_, ?_⟩
  · rintro ⟨p, hp, s, h3, h4⟩
    refine hab.all ?_
    have := times_le_last hs hp
    have : S.getD (S.length - 1) 0 = s := by
      rw [List.getD_eq_getElem?_getD, ← List.getLast?_eq_getElem?, h3]; rfl
    omega
  · intro s hsm
    rw [hab.segs] at hsm
    obtain ⟨i, hi, rfl⟩ := List.mem_map.mp hsm
    have := List.mem_range'_1.mp hi
    have h5 := hab.fin
    have h6 := hab.start
    refine ⟨?_, dur_target hfa i (by omega) (by omega)⟩
    have := hfa.mono i (by omega)
    show 0 < S.getD (i + 1) 0 - S.getD i 0
    omega
  · rw [hab.segs, fetch_whole hs hfa.mono a (b - a) (by have := hab.fin; have := hab.order; omega),
      show a + (b - a) = b by have := hab.order; omega]

/-- **C70** (for streams with segments of less than 65536 milliseconds). The playlist of a live stream that has two fragments or more is not
empty and not marked as ended. If anything is left out at its start, then more than four target durations are listed; and if less is left out
than asked for (two segments, or down to the configured length), then one segment less would be four target durations or fewer. -/
theorem C70_enough_partial (video : Bool) (setting : Nat) {np nk nf : Nat} (hp : 0 < np) (hk : 0 < nk) (hf : 0 < nf)
    (ops : List Op) (h : Moderate (packets ops)) (hshort : Short (accepted 0 (packets ops)))
    (hbrief : Brief (cuts video (minFragOf setting) (accepted 0 (packets ops))) (last (accepted 0 (packets ops)))) (t : Track)
    (ht : run (newTrack video setting np nk nf) ops = some t) (h2 : 2 ≤ t.frags.fin - t.frags.del) (limit : Nat) :
    ∃ s r, (playlist true limit t).segs = s :: r ∧ (playlist true limit t).ended = false ∧
      (t.frags.del < (playlist true limit t).seq → 4 * (1000 * (playlist true limit t).target) < (playlist true limit t).length) ∧
      ((playlist true limit t).seq < t.frags.del + 2 ∨ (0 < limit ∧ limit < (playlist true limit t).segs.length) →
        (r.map Seg.dur).sum ≤ 4 * (1000 * (playlist true limit t).target)) := by
  obtain ⟨hfa, hl, hs, _⟩ := history_facts hp hk hf h (packets_ne hp hk hf h ht (by omega)) hshort ht
  generalize hS : cuts video (minFragOf setting) (accepted 0 (packets ops)) = S at *
  obtain ⟨a, b, hab⟩ := says hfa (by have := hfa.fin; have := hfa.left; omega) limit
  obtain ⟨h3, h4, h5, h6⟩ := hab.brief (by rw [hl]; exact hbrief)
  have e : (playlist true limit t).segs = whole S a :: (List.range' (a + 1) (b - (a + 1))).map (whole S) := by
    rw [hab.segs, show b - a = b - (a + 1) + 1 by omega, List.range'_succ]; rfl
  refine ⟨_, _, e, h4, fun h => ?_, fun h => ?_⟩
  · rw [hab.seq] at h; have := h5 h; omega
  · rw [hab.seq] at h
    have hlen : (playlist true limit t).segs.length = b - a := by rw [hab.segs]; simp
    rw [hlen] at h
    have h7 := h6 h
    unfold Playlist.length at h7
    rw [e, List.map_cons, List.sum_cons] at h7
    omega

/-- **C70** (within the limits of C30). A number always means the same segment: what two playlists of a live stream, fetched at any two times,
with any settings for their length, say of the segment with some number is the same. -/
theorem C70_stable_partial (video : Bool) (setting : Nat) {np nk nf : Nat} (hp : 0 < np) (hk : 0 < nk) (hf : 0 < nf)
    (ops more : List Op) (h : Moderate (packets ops)) (h' : Moderate (packets (ops ++ more))) (hshort : Short (accepted 0 (packets (ops ++ more)))) (t t' : Track)
    (ht : run (newTrack video setting np nk nf) ops = some t) (ht' : run (newTrack video setting np nk nf) (ops ++ more) = some t')
    (h2 : 2 ≤ t.frags.fin - t.frags.del) (h2' : 2 ≤ t'.frags.fin - t'.frags.del) (limit limit' n : Nat) (s s' : Seg)
    (hs : (playlist true limit t).number n = some s) (hs' : (playlist true limit' t').number n = some s') : s = s' := by
  obtain ⟨l, happ⟩ := accepted_append 0 (packets ops) (packets more)
  rw [← packets_append] at happ
  have hshort1 : Short (accepted 0 (packets ops)) := by
    intro p hp q hq
    exact hshort p (by rw [happ]; simp [hp]) q (by rw [happ]; simp [hq])
  obtain ⟨hfa, _, _, _⟩ := history_facts hp hk hf h (packets_ne hp hk hf h ht (by omega)) hshort1 ht
  obtain ⟨hfa', _, _, _⟩ := history_facts hp hk hf h' (packets_ne hp hk hf h' ht' (by omega)) hshort ht'
  obtain ⟨c, hc⟩ := cuts_append video (minFragOf setting) (accepted 0 (packets ops)) (accepted l (packets more))
  rw [← happ] at hc
  rw [hc] at hfa'
  generalize cuts video (minFragOf setting) (accepted 0 (packets ops)) = S at *
  obtain ⟨a, b, hab⟩ := says hfa (by have := hfa.fin; have := hfa.left; omega) limit
  obtain ⟨a', b', hab'⟩ := says hfa' (by have := hfa'.fin; have := hfa'.left; omega) limit'
  have get : ∀ (S : List Nat) (e l lim : Nat) (P : Playlist) (a b : Nat) (s : Seg), Says S e l lim P a b → P.number n = some s → n < b ∧ s = whole S n := by
    intro S e l lim P a b s hsay hn
    unfold Playlist.number at hn
    rw [hsay.seq, hsay.segs] at hn
    by_cases hlt : n < a
    · rw [if_pos hlt] at hn; cases hn
    · rw [if_neg hlt, List.getElem?_map] at hn
      by_cases hb : n - a < b - a
      · rw [List.getElem?_range' (by exact hb)] at hn
        simp only [Option.map_some, Option.some.injEq, Nat.one_mul] at hn
        rw [show a + (n - a) = n by omega] at hn
        exact ⟨by omega, hn.symm⟩
      · rw [List.getElem?_eq_none (by simpa using (by omega : b - a ≤ n - a))] at hn
        cases hn
  obtain ⟨h3, rfl⟩ := get _ _ _ _ _ _ _ _ hab hs
  obtain ⟨_, rfl⟩ := get _ _ _ _ _ _ _ _ hab' hs'
  have := hab.fin
  exact (whole_append S c (by omega)).symm

/-- **C70** (for recordings; within the limits of C30). The playlist of a stream that is not live is marked as ended and lists all of its
segments from the first packet to the end, the last one included. Fetching them one after the other gives every packet before the end exactly
once and in order. Missing: the last packet, for which `C70_last_packet_fails`. -/
theorem C70_recording_partial (video : Bool) (setting : Nat) {np nk nf : Nat} (hp : 0 < np) (hk : 0 < nk) (hf : 0 < nf)
    (ops : List Op) (h : Moderate (packets ops)) (hshort : Short (accepted 0 (packets ops))) (hne : packets ops ≠ []) (hrem : removals ops = 0) (t : Track)
    (ht : run (newTrack video setting np nk nf) ops = some t) (limit : Nat) :
    (playlist false limit t).ended = true ∧ (playlist false limit t).seq = 0 ∧
      (∀ i s, (playlist false limit t).segs[i]? = some s →
        s = whole (cuts video (minFragOf setting) (accepted 0 (packets ops)) ++ [last (accepted 0 (packets ops))]) i) ∧
      (playlist false limit t).segs.flatMap (fetch (accepted 0 (packets ops))) =
        (accepted 0 (packets ops)).filter (fun p => decide (p.time < last (accepted 0 (packets ops)))) := by
  obtain ⟨hfa, hl, hs, h0⟩ := history_facts hp hk hf h hne hshort ht
  have h0 := h0 hrem
  have hle : ∀ p ∈ accepted 0 (packets ops), (cuts video (minFragOf setting) (accepted 0 (packets ops))).getD 0 0 ≤ p.time := by
    cases hq : packets ops with
    | nil => exact absurd hq hne
    | cons q r =>
      rw [hq] at hs
      rw [show accepted 0 (q :: r) = q :: accepted q.time r by simp [accepted]] at hs ⊢
      intro p hp
      have e : (cuts video (minFragOf setting) (q :: accepted q.time r)).getD 0 0 = q.time := rfl
      rw [e]
      rw [List.map_cons, List.pairwise_cons] at hs
      rcases List.mem_cons.mp hp with rfl | hp
      · exact Nat.le_refl _
      · exact hs.1 _ (List.mem_map_of_mem hp)
  rw [h0] at hfa
  rw [← hl]
  generalize hS : cuts video (minFragOf setting) (accepted 0 (packets ops)) = S at *
  have hpos := hfa.left
  have hlin := lines_eq hfa (S.length - 1) 0 (Nat.le_refl _) (by omega)
  have hsegs : (playlist false limit t).segs = (List.range' 0 (S.length - 1)).map (whole S) ++ lastLine S t.lastms := by
    rw [← hlin]
    unfold playlist
    simp only [Bool.false_eq_true, if_false, h0, hfa.fin]
    rw [show S.length - 1 + 1 = S.length - 0 by omega]
  refine ⟨by unfold playlist; simp, by unfold playlist; simp [h0], ?_, ?_⟩
  · intro i s hi
    rw [hsegs] at hi
    by_cases hc : i < S.length - 1
    · rw [List.getElem?_append_left (by simpa using hc), List.getElem?_map, List.getElem?_range' hc] at hi
      simp only [Option.map_some, Option.some.injEq, Nat.one_mul, Nat.zero_add] at hi
      rw [← hi]
      exact (whole_append S _ (by omega)).symm
    · rw [List.getElem?_append_right (by simpa using (by omega : S.length - 1 ≤ i))] at hi
      unfold lastLine at hi
      by_cases hlt : S.getD (S.length - 1) 0 < t.lastms
      · rw [if_pos hlt] at hi
        simp only [List.length_map, List.length_range'] at hi
        have hi0 : i = S.length - 1 := by
          by_cases hz : i - (S.length - 1) = 0
          · omega
          · rw [List.getElem?_eq_none (by simp; omega)] at hi; cases hi
        rw [hi0, Nat.sub_self] at hi
        simp only [List.getElem?_cons_zero, Option.some.injEq] at hi
        rw [← hi, hi0]
        unfold whole
        rw [show S.length - 1 + 1 = S.length by omega]
        have e1 : (S ++ [t.lastms]).getD S.length 0 = t.lastms := by simp
        have e2 : (S ++ [t.lastms]).getD (S.length - 1) 0 = S.getD (S.length - 1) 0 := by
          rw [List.getD_eq_getElem?_getD, List.getD_eq_getElem?_getD, List.getElem?_append_left (by omega)]
        rw [e1, e2]
      · rw [if_neg hlt] at hi; simp at hi
  · have hsp := (span hfa.mono 0 (S.length - 1) (by omega)).1
    rw [Nat.zero_add] at hsp
    have hlm := hfa.lastms (S.length - 1) (by omega)
    rw [hsegs, List.flatMap_append, fetch_whole hs hfa.mono 0 (S.length - 1) (by omega), Nat.zero_add]
    have e3 : (lastLine S t.lastms).flatMap (fetch (accepted 0 (packets ops))) = between (S.getD (S.length - 1) 0) t.lastms (accepted 0 (packets ops)) := by
      unfold lastLine
      by_cases hlt : S.getD (S.length - 1) 0 < t.lastms
      · rw [if_pos hlt, List.flatMap_cons, List.flatMap_nil, List.append_nil, fetch_between hs]
        dsimp only
        rw [show S.getD (S.length - 1) 0 + (t.lastms - S.getD (S.length - 1) 0) = t.lastms by omega]
      · rw [if_neg hlt, List.flatMap_nil]
        unfold between
        exact (List.filter_eq_nil_iff.mpr fun p _ h => by have := of_decide_eq_true h; omega).symm
    rw [e3, between_append hs hsp hlm]
    unfold between
    refine List.filter_congr fun p hp => ?_
    have := hle p hp
    exact decide_eq_decide.mpr ⟨fun h => h.2, fun h => ⟨this, h⟩⟩

/-! ### The hypotheses can be met -/

/-- A key every two seconds and one packet more: seventeen fragments. -/
def even : List Op := (List.range 17).map (fun i => .packet (pk (2000 * i) true)) ++ [.packet (pk 32040)]

theorem even_moderate : Moderate (packets even) ∧ Short (accepted 0 (packets even)) := by
  refine ⟨⟨by decide, ?_, by decide⟩, ?_⟩
  · simp [even, List.range, List.range.loop, packets, accepted, pk, Close]
  · simp [Short, even, List.range, List.range.loop, packets, accepted, pk]

/-- The sixteen segments that are complete: all are brief; without a limit segments 2 to 15 are listed, with a limit of eight the last eight. -/
example : ∃ t, run (newTrack true 0 4 4 4) even = some t ∧ 2 ≤ t.frags.fin - t.frags.del ∧
    cuts true (minFragOf 0) (accepted 0 (packets even)) = (List.range 17).map (2000 * ·) ∧
    playlist true 0 t = ⟨3, 2, (List.range' 2 14).map (fun i => ⟨2000 * i, 2000⟩), false⟩ ∧
    playlist true 8 t = ⟨3, 8, (List.range' 8 8).map (fun i => ⟨2000 * i, 2000⟩), false⟩ :=
  ⟨_, rfl, by decide +kernel, by decide +kernel, by decide +kernel, by decide +kernel⟩

example : Brief (cuts true (minFragOf 0) (accepted 0 (packets even))) (last (accepted 0 (packets even))) := by
  have : cuts true (minFragOf 0) (accepted 0 (packets even)) = (List.range 17).map (2000 * ·) := by decide +kernel
  rw [this, show last (accepted 0 (packets even)) = 32040 by decide +kernel]
  unfold Brief
  decide +kernel

/-- The same stream as a recording: seventeen segments, the last one of 40 milliseconds. -/
example : removals even = 0 ∧ ∃ t, run (newTrack true 0 4 4 4) even = some t ∧
    playlist false 0 t = ⟨3, 0, (List.range 16).map (fun i => ⟨2000 * i, 2000⟩) ++ [⟨32000, 40⟩], true⟩ :=
  ⟨by decide, _, rfl, by decide +kernel⟩

/-! ### Where the code differs -/

/-- **C70** fails for numbers: the media sequence number of a live playlist can go back. After eleven keys in steps of two seconds the
playlist starts with segment 2; after one more, ten seconds later, with segment 0. -/
theorem C70_sequence_fails : ∃ t t', run (newTrack true 0 4 4 4) ((List.range 11).map fun i => .packet (pk (2000 * i) true)) = some t ∧
    run (newTrack true 0 4 4 4) ((List.range 11).map (fun i => .packet (pk (2000 * i) true)) ++ [.packet (pk 30000 true), .packet (pk 30040)]) = some t' ∧
    (playlist true 0 t).seq = 2 ∧ (playlist true 0 t').seq = 0 :=
  ⟨_, _, rfl, rfl, by decide +kernel, by decide +kernel⟩

/-- **C70** fails for streams with one fragment: the segment that is being received is listed, and what number 0 means changes. -/
theorem C70_first_segment_fails : ∃ t t', run (newTrack true 0 4 4 4) [.packet (pk 0 true), .packet (pk 1000)] = some t ∧
    run (newTrack true 0 4 4 4) [.packet (pk 0 true), .packet (pk 1000), .packet (pk 1040)] = some t' ∧
    (playlist true 0 t).number 0 = some ⟨0, 1000⟩ ∧ (playlist true 0 t').number 0 = some ⟨0, 1040⟩ :=
  ⟨_, _, rfl, rfl, by decide +kernel, by decide +kernel⟩

/-- **C70** fails for the first packet: the playlist of a live stream with one packet is marked as ended. -/
theorem C70_first_packet_fails : ∃ t, run (newTrack true 0 4 4 4) [.packet (pk 0 true)] = some t ∧ playlist true 0 t = ⟨1, 0, [], true⟩ :=
  ⟨_, rfl, by decide +kernel⟩

/-- **C70** fails for segments of 65536 milliseconds or more: of five segments of 70 seconds two are left out, although less than four
target durations (of 71 seconds) are left. -/
theorem C70_long_segment_fails : ∃ t, run (newTrack true 0 4 4 4) ((List.range 6).flatMap (fun i => [.packet (pk (70000 * i) true),
      .packet (pk (70000 * i + 35000))])) = some t ∧
    (playlist true 0 t).seq = 2 ∧ (playlist true 0 t).target = 71 ∧ (playlist true 0 t).length = 210000 :=
  ⟨_, rfl, by decide +kernel, by decide +kernel, by decide +kernel⟩

/-- **C70** fails for recordings: the last segment does not count for the target duration. A recording of eight seconds has a target of one
second. -/
theorem C70_target_fails : ∃ t, run (newTrack true 0 4 4 4) [.packet (pk 0 true), .packet (pk 8000)] = some t ∧
    playlist false 0 t = ⟨1, 0, [⟨0, 8000⟩], true⟩ :=
  ⟨_, rfl, by decide +kernel⟩

/-- **C70** fails for the last packet of every recording: it is in none of the listed segments. -/
theorem C70_last_packet_fails (video : Bool) (setting : Nat) {np nk nf : Nat} (hp : 0 < np) (hk : 0 < nk) (hf : 0 < nf)
    (ops : List Op) (h : Moderate (packets ops)) (hshort : Short (accepted 0 (packets ops))) (hne : packets ops ≠ []) (hrem : removals ops = 0) (t : Track)
    (ht : run (newTrack video setting np nk nf) ops = some t) (limit : Nat) (p : Packet) (hlast : (accepted 0 (packets ops)).getLast? = some p) :
    ∀ s ∈ (playlist false limit t).segs, p ∉ fetch (accepted 0 (packets ops)) s := by
  intro s hs hm
  have h1 := (C70_recording_partial video setting hp hk hf ops h hshort hne hrem t ht limit).2.2.2
  have h2 : p ∈ (playlist false limit t).segs.flatMap (fetch (accepted 0 (packets ops))) := List.mem_flatMap.mpr ⟨s, hs, hm⟩
  rw [h1] at h2
  have h3 := of_decide_eq_true (List.mem_filter.mp h2).2
  unfold last at h3
  rw [hlast] at h3
  exact absurd h3 (by simp)

end Verif.Hls
