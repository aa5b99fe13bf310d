import Verif.Index.StepKey

/-!
# Properties of the index of a track (C30, C31)
-/
namespace Verif.Index

/-! ## Specification -/

/-- The fragments that are offered, from the `e`-th on, have all their keys if the first `d` keys are gone; and only fragments
that lost a key are not offered. -/
def Whole (fs : List (List Group)) (d e : Nat) : Prop :=
  d ≤ (fs.take e).flatten.length ∧ (e = 0 ∨ (fs.take (e - 1)).flatten.length < d)

/-- The packets fit their fields and follow one another closely, and there are less than 2^32 of them. -/
structure Moderate (ps : List Packet) : Prop where
  fits : ∀ p ∈ ps, Fits p
  close : Close (accepted 0 ps)
  count : ps.length + 2 < 2 ^ 32

/-- Two packets whose distance is a positive multiple of 2^32 milliseconds (49 days and 17 hours). -/
def Turns (ps : List Packet) : Prop := ∃ q ∈ ps, ∃ p ∈ ps, q.time < p.time ∧ (p.time - q.time) % 2 ^ 32 = 0

/-! ## Proofs -/

theorem Inv.shows {t fs d e} (h : Inv t fs d e) : Shows t fs d e :=
  ⟨⟨h.parts.del, h.parts.fin, by rw [h.parts.ok.pres, h.parts.del, h.parts.fin]⟩,
   ⟨h.keys.del, h.keys.fin, by rw [h.keys.ok.pres, h.keys.del, h.keys.fin]⟩,
   ⟨h.frags.del, h.frags.fin, by rw [h.frags.ok.pres, h.frags.del, h.frags.fin]⟩,
   h.parts.get, h.keys.get, h.frags.get, h.firstms, h.lastms⟩

theorem ok_new {α : Type} {n : Nat} (h : 0 < n) (s : Nat → α) : Tab.Ok { n := n, slot := s } :=
  ⟨h, Nat.le_refl _, by simp, rfl, Nat.le_refl _, by simp⟩

theorem inv_new (video : Bool) (setting : Nat) {p k f : Nat} (hp : 0 < p) (hk : 0 < k) (hf : 0 < f) :
    Inv (newTrack video setting p k f) [] 0 0 := by
  refine ⟨⟨ok_new hp _, rfl, rfl, by simp⟩, ⟨ok_new hk _, rfl, rfl, by simp⟩, ⟨ok_new hf _, rfl, rfl, by simp⟩, grouped_nil _ _, ?_,
    by simp, by simp, by simp, .inl rfl, by simp, rfl⟩
  show 0 < minFragOf setting
  unfold minFragOf; split <;> omega

theorem close_mid {ps : List Packet} {p : Packet} {r : List Packet} (h : Close (ps ++ p :: r)) (hne : ps ≠ []) :
    p.time - last ps < 2 ^ 16 := by
  induction ps with
  | nil => exact absurd rfl hne
  | cons q s ih =>
    cases s with
    | nil => exact h.1
    | cons u s =>
      have := ih h.2 (by simp)
      simpa [last, List.getLast?_cons_cons] using this

theorem accepted_length (l : Nat) (ps : List Packet) : (accepted l ps).length ≤ ps.length := by
  induction ps generalizing l with
  | nil => simp [accepted]
  | cons p r ih =>
    unfold accepted; split
    · have := ih l; simp; omega
    · have := ih p.time; simp; omega

theorem run_inv (ops : List Op) (t : Track) (fs : List (List Group)) (d e : Nat) (h : Inv t fs d e)
    (hfit : ∀ p ∈ packets ops, Fits p) (hclose : Close (fs.flatten.flatten ++ accepted t.lastms (packets ops)))
    (hlen : fs.flatten.flatten.length + (packets ops).length + 2 < 2 ^ 32) :
    (∃ t' fs' d' e', run t ops = some t' ∧ Inv t' fs' d' e' ∧
      fs'.flatten.flatten = fs.flatten.flatten ++ accepted t.lastms (packets ops) ∧ d' ≤ d + removals ops ∧ t'.video = t.video ∧ t'.minFrag = t.minFrag) ∨
    (run t ops = none ∧ Turns (fs.flatten.flatten ++ accepted t.lastms (packets ops))) := by
  induction ops generalizing t fs d e with
  | nil => exact .inl ⟨t, fs, d, e, rfl, h, by simp [packets, accepted], by simp [removals], rfl, rfl⟩
  | cons o r ih =>
    cases o with
    | remove =>
      simp only [packets, removals] at hfit hclose hlen ⊢
      simp only [run, step]
      split
      · rename_i h2
        rw [h.frags.fin, h.frags.del] at h2
        obtain ⟨t', e', er, hi, _, hv, hm⟩ := step_remove h (by omega) (by omega)
        have hl : t'.lastms = t.lastms := by rw [hi.lastms, h.lastms]
        rw [er, ← hl]
        rw [← hl] at hclose
        rw [← hv, ← hm]
        rcases ih t' fs _ _ hi hfit hclose hlen with ⟨a, b, c, d', h1, h2, h3, h4, h5⟩ | hn
        · exact .inl ⟨a, b, c, d', h1, h2, h3, by omega, h5⟩
        · exact .inr hn
      · rcases ih t fs d e h hfit hclose hlen with ⟨a, b, c, d', h1, h2, h3, h4, h5⟩ | hn
        · exact .inl ⟨a, b, c, d', h1, h2, h3, by omega, h5⟩
        · exact .inr hn
    | packet p =>
      simp only [packets, removals, List.length_cons] at hfit hclose hlen ⊢
      simp only [run, step]
      unfold accepted at hclose ⊢
      by_cases hlt : p.time < t.lastms
      · rw [if_pos hlt] at hclose ⊢
        have : update t p = some t := by unfold update; rw [if_pos hlt]
        rw [this]
        exact ih t fs d e h (fun q hq => hfit q (List.mem_cons_of_mem _ hq)) hclose (by omega)
      · rw [if_neg hlt] at hclose ⊢
        have hgap : fs ≠ [] → p.time - t.lastms < 2 ^ 16 := by
          intro hf
          rw [h.lastms]
          refine close_mid hclose ?_
          intro hz
          have := flat_len_keys h.grouped.keys (h.dlt hf)
          rw [hz] at this; simp at this
        rcases step_packet h (by omega) (hfit p (by simp)) hgap (by omega) with ⟨t', fs', er, hi, hfl, hv, hm⟩ | ⟨er, f, hf, h1, h2⟩
        · rw [er]
          have hl : t'.lastms = p.time := by rw [hi.lastms, hfl, last_snoc]
          have ha : fs.flatten.flatten ++ p :: accepted p.time (packets r) = fs'.flatten.flatten ++ accepted t'.lastms (packets r) := by
            rw [hfl, hl]; simp
          rw [ha] at hclose ⊢
          rw [← hv, ← hm]
          exact ih t' fs' d e hi (fun q hq => hfit q (List.mem_cons_of_mem _ hq)) hclose (by rw [hfl, List.length_append, List.length_singleton]; omega)
        · refine .inr ⟨by rw [er]; rfl, ?_⟩
          have hfm : f ∈ fs := List.mem_of_getLast? hf
          have hfne := h.grouped.frags f hfm
          obtain ⟨g, gs, rfl⟩ : ∃ g r, f = g :: r := ⟨_, _, (List.cons_head_tail hfne).symm⟩
          have hgm : g ∈ fs.flatten := List.mem_flatten.mpr ⟨_, hfm, by simp⟩
          have hgne := h.grouped.keys g hgm
          obtain ⟨q, qs, rfl⟩ : ∃ p r, g = p :: r := ⟨_, _, (List.cons_head_tail hgne).symm⟩
          have hq : fragFirst ((q :: qs) :: gs) = q.time := rfl
          rw [hq] at h1 h2
          have := h.min
          exact ⟨q, by rw [List.mem_append]; exact .inl (List.mem_flatten.mpr ⟨_, hgm, by simp⟩), p, by simp, by omega, h2⟩

/-- From the creation of the track. -/
theorem run_new (video : Bool) (setting : Nat) {np nk nf : Nat} (hp : 0 < np) (hk : 0 < nk) (hf : 0 < nf) (ops : List Op)
    (h : Moderate (packets ops)) :
    (∃ t fs d e, run (newTrack video setting np nk nf) ops = some t ∧ Inv t fs d e ∧
      fs.flatten.flatten = accepted 0 (packets ops) ∧ d ≤ removals ops ∧ t.video = video ∧ t.minFrag = minFragOf setting) ∨
    (run (newTrack video setting np nk nf) ops = none ∧ Turns (accepted 0 (packets ops))) := by
  have := run_inv ops (newTrack video setting np nk nf) [] 0 0 (inv_new video setting hp hk hf) h.fits (by simpa [newTrack] using h.close)
    (by have := h.count; simp; omega)
  simpa [newTrack] using this

/-! ## C30 -/

/-- **C30** (the part without the limits of the fields). After any history of packets and removals, of any length below 2^32
packets, the index describes a division of the accepted packets, in their order, into keys and fragments that are cut exactly
where they should be; the entries have the right times, counts, durations, positions and sums. Missing, because the code does not have it:
packets more than 65535 milliseconds apart (`C30_long_gap_fails`), times 2^32 milliseconds apart (`C30_turn_fails`). -/
theorem C30_index_describes_packets_partial (video : Bool) (setting : Nat) {np nk nf : Nat} (hp : 0 < np) (hk : 0 < nk) (hf : 0 < nf)
    (ops : List Op) (h : Moderate (packets ops)) (t : Track) (ht : run (newTrack video setting np nk nf) ops = some t) :
    ∃ fs d e, fs.flatten.flatten = accepted 0 (packets ops) ∧ Grouped video (minFragOf setting) fs ∧
      d ≤ removals ops ∧ Whole fs d e ∧ Shows t fs d e := by
  rcases run_new video setting hp hk hf ops h with ⟨t', fs, d, e, er, hi, hfl, hd, hv, hm⟩ | ⟨er, _⟩
  · rw [er] at ht; cases ht
    exact ⟨fs, d, e, hfl, by rw [← hv, ← hm]; exact hi.grouped, hd, ⟨hi.cover, hi.tight⟩, hi.shows⟩
  · rw [er] at ht; cases ht

/-- **C30**: the process does not crash unless two packets are a multiple of 2^32 milliseconds apart. -/
theorem C30_no_crash_partial (video : Bool) (setting : Nat) {np nk nf : Nat} (hp : 0 < np) (hk : 0 < nk) (hf : 0 < nf)
    (ops : List Op) (h : Moderate (packets ops)) (hw : ¬ Turns (accepted 0 (packets ops))) :
    ∃ t, run (newTrack video setting np nk nf) ops = some t := by
  rcases run_new video setting hp hk hf ops h with ⟨t', fs, d, e, er, _⟩ | ⟨_, hn⟩
  · exact ⟨t', er⟩
  · exact absurd hn hw


/-- A packet of a track, for examples. -/
def pk (time : Nat) (key : Bool := false) : Packet := ⟨time, 0, 100, 0, key, 130⟩

/-- Nine packets in four keys and three fragments, one packet too late; a removal after the seventh. -/
def sample : List Op :=
  [.packet (pk 0 true), .packet (pk 40), .packet (pk 1000 true), .packet (pk 20), .packet (pk 1040), .packet (pk 2000 true), .packet (pk 2040),
    .packet (pk 4000 true), .remove, .packet (pk 4040)]

instance (p : Packet) : Decidable (Fits p) := by unfold Fits; exact inferInstance

theorem sample_moderate : Moderate (packets sample) := by
  refine ⟨by decide, ?_, by decide⟩
  simp [sample, packets, accepted, pk, Close]

/-- The hypotheses hold of the sample, with tables that have to grow. -/
example : Moderate (packets sample) ∧ ¬ Turns (accepted 0 (packets sample)) ∧
    ((run (newTrack true 0 1 1 1) sample).map fun t => (t.keys.fin, t.keys.del, t.frags.fin, t.frags.del, t.parts.fin, t.parts.del)) =
      some (4, 1, 3, 1, 8, 2) := by
  refine ⟨sample_moderate, ?_, by decide +kernel⟩
  simp [Turns, sample, packets, accepted, pk]

/-- **C30** fails for long gaps: after packets at 0 and 70000 milliseconds, the first one's duration is not 70000. -/
theorem C30_long_gap_fails : ∃ t, run (newTrack true 0 8 8 8) [.packet (pk 0 true), .packet (pk 70000)] = some t ∧
    ¬ PartIs (t.parts.get 0) [pk 0 true, pk 70000] 0 (pk 0 true) := by
  refine ⟨_, rfl, ?_⟩
  intro h
  have := h.dur
  revert this
  decide +kernel

/-- **C30** fails for times that are 2^32 milliseconds apart: the process divides by zero. -/
theorem C30_turn_fails : run (newTrack true 0 8 8 8) [.packet (pk 0 true), .packet (pk (2 ^ 32) true)] = none := by
  decide +kernel

/-! ## C31 -/

/-- **C31** (for tracks with two or more fragments, and within the limits of C30). In any state that a history leads to, removing the first key removes exactly that
key: the index then describes the same stream without one key more, with the first time of the next key, and offers exactly the fragments
that still have all their keys. `C31_single_fragment_fails` shows what happens in a track with one fragment. -/
theorem C31_remove_first_key_partial (video : Bool) (setting : Nat) {np nk nf : Nat} (hp : 0 < np) (hk : 0 < nk) (hf : 0 < nf)
    (ops : List Op) (h : Moderate (packets ops)) (t : Track) (ht : run (newTrack video setting np nk nf) ops = some t)
    (h2 : 2 ≤ t.frags.fin - t.frags.del) :
    ∃ fs d e t' e', fs.flatten.flatten = accepted 0 (packets ops) ∧ Grouped video (minFragOf setting) fs ∧ Shows t fs d e ∧
      removeFirstKey t = some t' ∧ Shows t' fs (d + 1) e' ∧ Whole fs (d + 1) e' ∧ d + 1 < fs.flatten.length := by
  rcases run_new video setting hp hk hf ops h with ⟨u, fs, d, e, er, hi, hfl, hd, hv, hm⟩ | ⟨er, _⟩
  · rw [er] at ht; cases ht
    rw [hi.frags.fin, hi.frags.del] at h2
    have hne : fs ≠ [] := by intro hh; rw [hh] at h2; simp at h2
    have hcount := h.count
    have := accepted_length 0 (packets ops)
    obtain ⟨t', e', er', hi', _⟩ := step_remove hi (by omega) (by rw [hfl]; omega)
    exact ⟨fs, d, e, t', e', hfl, by rw [← hv, ← hm]; exact hi.grouped, hi.shows, er', hi'.shows, ⟨hi'.cover, hi'.tight⟩, hi'.dlt hne⟩
  · rw [er] at ht; cases ht

/-- The hypotheses hold of the sample. -/
example : ∃ t, run (newTrack true 0 1 1 1) sample = some t ∧ 2 ≤ t.frags.fin - t.frags.del := ⟨_, rfl, by decide +kernel⟩

/-- **C31** fails for a track with one fragment: the second removal ends the process, though the track still has two keys. -/
theorem C31_single_fragment_fails : ∃ t t', run (newTrack true 0 8 8 8) [.packet (pk 0 true), .packet (pk 500 true), .packet (pk 1000 true)] = some t ∧
    removeFirstKey t = some t' ∧ t'.keys.fin - t'.keys.del = 2 ∧ removeFirstKey t' = none :=
  ⟨_, _, rfl, rfl, by decide +kernel, by decide +kernel⟩

end Verif.Index
