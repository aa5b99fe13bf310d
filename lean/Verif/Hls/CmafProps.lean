import Verif.Hls.CmafLemmas

/-! # C71: media playlists with parts -/
namespace Verif.Hls
open Verif.Index

/-- What an entry of a live playlist should say, if the stream is cut at `S` and packets up to `edge` may be sent. -/
structure EntryIs (r : Request) (S : List Nat) (edge : Nat) (en : Entry) (i : Nat) : Prop where
  num : en.num = i
  start : S[i]? = some en.start
  /-- a complete segment: up to the next cut; its parts, if they are listed, are all of it -/
  whole : ∀ next, S[i + 1]? = some next → en.full = true ∧ en.start + en.dur = next ∧ (en.parts = [] ∨ InParts en.parts en.dur)
  /-- the parts of the last four complete segments are listed -/
  recent : r.noParts = false → i + 1 < S.length → S.length < i + 5 → InParts en.parts en.dur
  /-- the segment that is being received: only parts -/
  last : i + 1 = S.length → en.full = false ∧ (r.noParts = false → SoFar en.parts (edge - en.start))

theorem getD_some {S : List Nat} {i x : Nat} (h : S[i]? = some x) : S.getD i 0 = x := by rw [List.getD_eq_getElem?_getD, h]; rfl

theorem some_getD {S : List Nat} {i : Nat} (h : i < S.length) : S[i]? = some (S.getD i 0) := by
  rw [List.getD_eq_getElem?_getD, List.getElem?_eq_getElem h]; rfl

theorem entry_is {t : Track} {S : List Nat} {e : Nat} (h : Facts t S e) (r : Request) (hl : r.live = true) (target edge i : Nat) (hi : e ≤ i) (hn : i < S.length)
    (he : edge ≤ t.lastms) (hj : t.lastms - edge < 2 ^ 32) :
    EntryIs r S edge (entry r target edge S.length i t) i ∧
      (i + 1 = S.length → r.noParts = false → (entry r target edge S.length i t).parts.length = wholeParts (entry r target edge S.length i t)) := by
  have hst := h.start i hi hn
  have hsm := h.small
  have hle := h.lastms i hn
  have hfi := h.firstms i hi hn
  have hsh := h.short
  by_cases hc : i + 1 < S.length
  · have hd := h.dur i hi hc
    have hm := h.mono i hc
    have hlt := dur_lt h i hi hc
    have e1 : (if (t.frags.get i).dur = 0 then sub64 edge (S.getD i 0) else (t.frags.get i).dur) = S.getD (i + 1) 0 - S.getD i 0 := by
      rw [hd, if_neg (by omega)]
    have e2 : entry r target edge S.length i t = ⟨i, S.getD i 0, S.getD (i + 1) 0 - S.getD i 0,
        partsOf r target edge S.length i (S.getD i 0) (S.getD (i + 1) 0 - S.getD i 0), true⟩ := by
      unfold entry
      simp only [hl, if_true, hst, e1, Bool.true_and]
      rw [show (i == S.length - 1) = false by simp; omega]
      rfl
    rw [e2]
    refine ⟨⟨rfl, some_getD hn, ?_, ?_, fun h => absurd h (by omega)⟩, fun h => absurd h (by omega)⟩
    · intro next hnext
      have := getD_some hnext
      refine ⟨rfl, by dsimp only; omega, ?_⟩
      exact parts_whole r target edge S.length i _ _ (by omega) (by omega)
    · intro hnp _ h5
      exact parts_there r target edge S.length i _ _ hl hnp (by omega) (by omega) (by omega)
  · have hi1 : i + 1 = S.length := by omega
    have hd := h.lastDur
    rw [show S.length - 1 = i by omega] at hd
    have e2 : entry r target edge S.length i t = ⟨i, S.getD i 0, sub64 edge (S.getD i 0),
        partsOf r target edge S.length i (S.getD i 0) (sub64 edge (S.getD i 0)), false⟩ := by
      unfold entry
      simp only [hl, if_true, hst, hd, Bool.true_and]
      rw [show (i == S.length - 1) = true by simp; omega]
      rfl
    rw [e2]
    refine ⟨⟨rfl, some_getD hn, ?_, fun _ h => absurd h (by omega), ?_⟩, ?_⟩
    · intro next hnext
      have := (List.getElem?_eq_some_iff.mp hnext).1
      omega
    · intro _
      refine ⟨rfl, fun hnp => ?_⟩
      exact (parts_last r target edge S.length i (S.getD i 0) hl hnp (by omega) (by omega) (by omega) (by omega) (by omega)).1
    · intro _ hnp
      exact (parts_last r target edge S.length i (S.getD i 0) hl hnp (by omega) (by omega) (by omega) (by omega) (by omega)).2

theorem target_six {t : Track} {S : List Nat} {e : Nat} (h : Facts t S e) :
    biggest t.frags (t.frags.fin - t.frags.del) t.frags.del 0 / 1000 * 6 < 2 ^ 32 := by
  have hb := biggest_facts h (2 ^ 32) (fun j h1 h2 => Nat.le_of_lt (dur_lt h j h1 h2))
  omega

/-- What a live playlist says. -/
structure CmafSays (r : Request) (S : List Nat) (e edge : Nat) (P : Cmaf) : Prop where
  start : e ≤ P.seq
  few : P.seq ≤ r.initMsn ∨ P.seq ≤ e + 2 ∨ (0 < r.limit ∧ r.limit ≤ S.length - P.seq + 2)
  limit : 0 < r.limit → S.length - P.seq ≤ r.limit + 2
  noSkip : r.skip = false → P.skipped = 0
  skip : P.skipped = 0 ∨ P.entries.length = 8
  count : P.seq + P.skipped + P.entries.length = S.length
  nonempty : P.entries ≠ []
  entries : ∀ k en, P.entries[k]? = some en → EntryIs r S edge en (P.seq + P.skipped + k)
  hint : ∀ en, P.entries.getLast? = some en → P.hint = if r.noParts then none else some (en.num, en.start, en.parts.length)
  ended : P.ended = false

theorem cmaf_says {t : Track} {S : List Nat} {e : Nat} (h : Facts t S e) (hn : S.length < 2 ^ 32) (r : Request) (hl : r.live = true) (hi : r.initMsn < S.length)
    (edge : Nat) (he : edge ≤ t.lastms) (hj : t.lastms - edge < 2 ^ 32) (P : Cmaf) (hP : cmaf r edge t = some P) : CmafSays r S e edge P := by
  have hleft := h.left
  obtain ⟨h1, h2, h3, h4⟩ := first_live r hl S.length e h.left (by omega) hi
  unfold cmaf at hP
  simp only [hl, lastFrag_live h edge, if_true] at hP
  generalize hT : biggest t.frags (t.frags.fin - t.frags.del) t.frags.del 0 / 1000 = T at hP
  have ht6 := target_six h
  rw [hT] at ht6
  obtain ⟨k, hk, rfl⟩ := Option.map_eq_some_iff.mp hP
  rw [h.del] at hk ⊢
  generalize firstListed r S.length e = c at *
  obtain ⟨h5, h6, h7⟩ := skips_eq r T S.length c k h2 hn ht6 hk
  have hlen : (entries r T edge S.length t (S.length - (c + k)) (c + k)).length = S.length - (c + k) := entries_length _ _ _ _ _ _ _
  have hget : ∀ j en, (entries r T edge S.length t (S.length - (c + k)) (c + k))[j]? = some en → j < S.length - (c + k) ∧ en = entry r T edge S.length (c + k + j) t := by
    intro j en hj
    have hlt := (List.getElem?_eq_some_iff.mp hj).1
    rw [hlen] at hlt
    rw [entries_get r T edge S.length t _ (c + k) j hlt] at hj
    exact ⟨hlt, (Option.some.inj hj).symm⟩
  refine ⟨h1, h3, h4, h5, ?_, ?_, ?_, ?_, ?_, rfl⟩
  · dsimp only; rw [hlen]; omega
  · dsimp only; rw [hlen]; omega
  · intro hh
    have := congrArg List.length hh
    dsimp only at this
    rw [hlen, List.length_nil] at this
    omega
  · intro j en hj
    obtain ⟨hlt, rfl⟩ := hget j en hj
    exact (entry_is h r hl T edge (c + k + j) (by omega) (by omega) he (by assumption)).1
  · intro en hen
    dsimp only at hen ⊢
    unfold hintOf
    have hen' := hen
    rw [List.getLast?_eq_getElem?, hlen] at hen'
    obtain ⟨hlt, e1⟩ := hget _ en hen'
    by_cases hnp : r.noParts = true
    · rw [if_neg (by simp [hnp]), if_pos hnp]
    · rw [if_pos ⟨hl, hnp⟩, if_neg hnp, hen, Option.map_some]
      have h8 := (entry_is h r hl T edge (c + k + (S.length - (c + k) - 1)) (by omega) (by omega) he (by assumption)).2 (by omega) (by simpa using hnp)
      rw [← e1] at h8
      rw [h8]

theorem cuts_small {t : Track} {S : List Nat} {e : Nat} {video : Bool} {m : Nat} {ps : List Packet} (_ : Facts t S e) (hS : cuts video m ps = S) (hc : ps.length + 2 < 2 ^ 32) :
    S.length < 2 ^ 32 := by
  have k1 : ∀ (o : Option Nat) (ps : List Packet), (keyTimes video o ps).length ≤ ps.length := by
    intro o ps
    induction ps generalizing o with
    | nil => cases o <;> simp [keyTimes]
    | cons p r ih =>
      cases o with
      | none => rw [keyTimes, List.length_cons, List.length_cons]; have := ih (some p.time); omega
      | some x =>
        rw [keyTimes]
        split
        · rw [List.length_cons, List.length_cons]; have := ih (some p.time); omega
        · rw [List.length_cons]; have := ih (some x); omega
  have k2 : ∀ (o : Option Nat) (l : List Nat), (starts m o l).length ≤ l.length := by
    intro o l
    induction l generalizing o with
    | nil => cases o <;> simp [starts]
    | cons p r ih =>
      cases o with
      | none => rw [starts, List.length_cons, List.length_cons]; have := ih (some p); omega
      | some x =>
        rw [starts]
        split
        · rw [List.length_cons, List.length_cons]; have := ih (some p); omega
        · rw [List.length_cons]; have := ih (some x); omega
  have := k1 none ps
  have := k2 none (keyTimes video none ps)
  rw [← hS]; unfold cuts
  omega

/-- **C71** (for streams of less than 49 days, within the limits of C30; `edge` may be less than the last time, by the jitter of the stream).
If a playlist of a live stream is sent, then its entries are the last segments of the stream under their own numbers, without a gap: complete
segments from where the stream is cut to the next cut, and last the one that is being received, of which only parts are listed. Listed parts
of a complete segment are all of it, each of 500 milliseconds but the last one; those of the segment that is being received are the whole
parts that are there, and the announced part is the next one. At the start segments are left out as the request and the settings say:
before `initMsn`, two, or to get down to the limit. If segments are skipped, eight entries are left. -/
theorem C71_listed_partial (video : Bool) (setting : Nat) {np nk nf : Nat} (hp : 0 < np) (hk : 0 < nk) (hf : 0 < nf)
    (ops : List Op) (h : Moderate (packets ops)) (hne : packets ops ≠ []) (hshort : Short (accepted 0 (packets ops))) (t : Track)
    (ht : run (newTrack video setting np nk nf) ops = some t) (r : Request) (hl : r.live = true)
    (hi : r.initMsn < (cuts video (minFragOf setting) (accepted 0 (packets ops))).length) (edge : Nat) (he : edge ≤ last (accepted 0 (packets ops)))
    (hj : last (accepted 0 (packets ops)) - edge < 2 ^ 32) (P : Cmaf) (hP : cmaf r edge t = some P) :
    CmafSays r (cuts video (minFragOf setting) (accepted 0 (packets ops))) t.frags.del edge P := by
  obtain ⟨hfa, hlm, _, _⟩ := history_facts hp hk hf h hne hshort ht
  have hc := h.count
  have ha := accepted_length 0 (packets ops)
  rw [← hlm] at he hj
  exact cmaf_says hfa (cuts_small hfa rfl (by omega)) r hl hi edge he hj P hP

/-! ## Sending parts -/

theorem part_end (a D p : Nat) (hD : 0 < D) (hp : p * 500 < D) (hs : D < 2 ^ 31) :
    (if D = 0 then a + (p + 1) * 500 % 2 ^ 32 else
      if min (a + D) (a + (p + 1) * 500 % 2 ^ 32) - a > D then 0 else min (a + D) (a + (p + 1) * 500 % 2 ^ 32)) = a + min D ((p + 1) * 500) := by
  have hw1 : (p + 1) * 500 ≤ D + 500 := by rw [Nat.succ_mul]; exact Nat.add_le_add_right (Nat.le_of_lt hp) 500
  have hw : (p + 1) * 500 < 2 ^ 32 := Nat.lt_of_le_of_lt hw1 (by clear hw1 hp; omega)
  rw [Nat.mod_eq_of_lt hw, if_neg (by omega)]
  clear hw hs hw1
  generalize (p + 1) * 500 = x
  rw [if_neg (by omega)]
  omega

theorem part_seg (a D p : Nat) (hp : p * 500 < D) :
    (if a + min D ((p + 1) * 500) = 0 then none else some (⟨a + p * partMs, a + min D ((p + 1) * 500) - (a + p * partMs)⟩ : Seg)) =
      some ⟨a + p * 500, min 500 (D - p * 500)⟩ := by
  unfold partMs
  rw [if_neg (by omega)]
  exact congrArg (fun x => some (Seg.mk (a + p * 500) x)) (by omega)

theorem whole_part_end {t : Track} {S : List Nat} {e : Nat} (h : Facts t S e) (i p : Nat) (hi : e ≤ i) (hn : i + 1 < S.length)
    (hp : p * 500 < S.getD (i + 1) 0 - S.getD i 0) (hs : S.getD (i + 1) 0 - S.getD i 0 < 2 ^ 31) :
    partSeg t (S.getD i 0) i p = some ⟨S.getD i 0 + p * 500, min 500 (S.getD (i + 1) 0 - S.getD i 0 - p * 500)⟩ := by
  have hd := h.dur i hi hn
  have hm := h.mono i hn
  have he : partEnd t (S.getD i 0) i p = S.getD i 0 + min (S.getD (i + 1) 0 - S.getD i 0) ((p + 1) * 500) := by
    unfold partEnd partMs
    rw [hd]
    exact part_end _ _ p (by omega) hp hs
  unfold partSeg
  rw [he]
  exact part_seg _ _ p hp

theorem parts_nth (d p x : Nat) (l : List Nat) (h : InParts l d) (hp : l[p]? = some x) : p * 500 < d ∧ x = min 500 (d - p * 500) ∧ (l.take p).sum = p * 500 := by
  rw [inParts_unique l d h] at hp ⊢
  have hm := Nat.mod_lt d (show 0 < 500 by omega)
  have hd := Nat.div_add_mod d 500
  by_cases hc : p < d / 500
  · rw [List.getElem?_append_left (by simpa using hc), List.getElem?_replicate, if_pos hc] at hp
    cases hp
    refine ⟨by omega, by omega, ?_⟩
    rw [List.take_append_of_le_length (by simp; omega), List.take_replicate, sum_replicate, Nat.min_eq_left (by omega)]
  · rw [List.getElem?_append_right (by simpa using (by omega : d / 500 ≤ p)), List.length_replicate] at hp
    by_cases h0 : d % 500 ≠ 0
    · rw [if_pos h0] at hp ⊢
      have hz : p - d / 500 = 0 := by
        by_cases hz : p - d / 500 = 0
        · exact hz
        · rw [List.getElem?_eq_none (by simp; omega)] at hp; cases hp
      rw [hz] at hp
      cases hp
      have hpe : p = d / 500 := by omega
      refine ⟨by omega, by omega, ?_⟩
      rw [hpe, List.take_append_of_le_length (by simp), List.take_of_length_le (by simp), sum_replicate]
    · rw [if_neg h0] at hp; simp at hp

theorem last_part_end {t : Track} {S : List Nat} {e : Nat} (h : Facts t S e) (p : Nat) (hp : (p + 1) * 500 < 2 ^ 32) :
    partSeg t (S.getD (S.length - 1) 0) (S.length - 1) p = some ⟨S.getD (S.length - 1) 0 + p * 500, 500⟩ := by
  have hd := h.lastDur
  have he : partEnd t (S.getD (S.length - 1) 0) (S.length - 1) p = S.getD (S.length - 1) 0 + (p + 1) * 500 := by
    unfold partEnd partMs
    rw [hd]
    dsimp only
    rw [if_pos rfl, Nat.mod_eq_of_lt hp]
  unfold partSeg
  rw [he, if_neg (by omega)]
  unfold partMs
  exact congrArg (fun x => some (Seg.mk (S.getD (S.length - 1) 0 + p * 500) x)) (by omega)

theorem soFar_nth (d p x : Nat) (l : List Nat) (h : SoFar l d) (hp : l[p]? = some x) : (p + 1) * 500 ≤ d ∧ x = 500 ∧ (l.take p).sum = p * 500 := by
  have hx := h.full x (List.mem_of_getElem? hp)
  have hlt := (List.getElem?_eq_some_iff.mp hp).1
  rw [soFar_unique l d h] at hlt ⊢
  rw [List.length_replicate] at hlt
  refine ⟨by omega, hx, ?_⟩
  rw [List.take_replicate, sum_replicate, Nat.min_eq_left (by omega)]

/-- **C71** (for complete segments of less than 2^31 milliseconds, in the same cases). Every listed part can be fetched, and gets the packets
that belong to it: it starts where the parts before it end and has the listed duration. -/
theorem C71_parts_partial (video : Bool) (setting : Nat) {np nk nf : Nat} (hp : 0 < np) (hk : 0 < nk) (hf : 0 < nf)
    (ops : List Op) (h : Moderate (packets ops)) (hne : packets ops ≠ []) (hshort : Short (accepted 0 (packets ops))) (t : Track)
    (ht : run (newTrack video setting np nk nf) ops = some t) (r : Request) (hl : r.live = true) (hnp : r.noParts = false)
    (hi : r.initMsn < (cuts video (minFragOf setting) (accepted 0 (packets ops))).length) (edge : Nat) (he : edge ≤ last (accepted 0 (packets ops)))
    (hj : last (accepted 0 (packets ops)) - edge < 2 ^ 32) (P : Cmaf) (hP : cmaf r edge t = some P) (en : Entry) (hen : en ∈ P.entries)
    (hlong : en.full = true → en.dur < 2 ^ 31) (p x : Nat) (hx : en.parts[p]? = some x) :
    partSeg t en.start en.num p = some ⟨en.start + (en.parts.take p).sum, x⟩ := by
  have hs := C71_listed_partial video setting hp hk hf ops h hne hshort t ht r hl hi edge he hj P hP
  obtain ⟨hfa, hlm, _, _⟩ := history_facts hp hk hf h hne hshort ht
  rw [← hlm] at he
  generalize cuts video (minFragOf setting) (accepted 0 (packets ops)) = S at *
  obtain ⟨k, hk⟩ := List.getElem?_of_mem hen
  have hei := hs.entries k en hk
  have h1 := hs.start
  have hdel : t.frags.del ≤ P.seq + P.skipped + k := by omega
  generalize P.seq + P.skipped + k = i at *
  have hlt := (List.getElem?_eq_some_iff.mp hei.start).1
  have hst := getD_some hei.start
  by_cases hn : i + 1 < S.length
  · obtain ⟨h3, h4, h5⟩ := hei.whole _ (some_getD hn)
    have hlong := hlong h3
    rcases h5 with h5 | h5
    · rw [h5] at hx; cases hx
    · obtain ⟨g1, g2, g3⟩ := parts_nth _ _ _ _ h5 hx
      have e1 : en.dur = S.getD (i + 1) 0 - S.getD i 0 := by omega
      rw [hei.num, ← hst, whole_part_end hfa i p hdel hn (by omega) (by omega), g3, g2, e1]
  · have hi1 : i = S.length - 1 := by omega
    obtain ⟨g1, g2, g3⟩ := soFar_nth _ _ _ _ ((hei.last (by omega)).2 hnp) hx
    have hsh := hfa.short
    have hfi := hfa.firstms i hdel hlt
    have hle := hfa.lastms i hlt
    rw [hei.num, ← hst, hi1, last_part_end hfa p (by omega), g3, g2]

theorem parts_join {ps : List Packet} (h : (ps.map Packet.time).Pairwise (· ≤ ·)) (f : Nat → List Packet) (l : List Nat) (a n : Nat)
    (hf : ∀ p x, l[p]? = some x → f (n + p) = fetch ps ⟨a + (l.take p).sum, x⟩) :
    (List.range' n l.length).flatMap f = fetch ps ⟨a, l.sum⟩ := by
  induction l generalizing a n with
  | nil =>
    rw [fetch_between h]
    simp only [List.length_nil, List.range'_zero, List.flatMap_nil, List.sum_nil, Nat.add_zero]
    unfold between
    symm
    rw [List.filter_eq_nil_iff]
    intro p _; simp
  | cons x l ih =>
    rw [List.length_cons, List.range'_succ, List.flatMap_cons]
    rw [ih (a + x) (n + 1) ?_]
    · have h0 := hf 0 x rfl
      rw [Nat.add_zero] at h0
      rw [h0, fetch_between h, fetch_between h, fetch_between h]
      simp only [List.take_zero, List.sum_nil, Nat.add_zero, List.sum_cons]
      rw [between_append h (by omega) (by omega), Nat.add_assoc]
    · intro p y hy
      have := hf (p + 1) y (by rw [List.getElem?_cons_succ]; exact hy)
      rw [show n + 1 + p = n + (p + 1) by omega, this, List.take_succ_cons, List.sum_cons, Nat.add_assoc]

/-- **C71** (in the same cases). Fetching the listed parts of a complete segment one after the other gives the same packets as fetching the
segment: every packet from its start up to the next cut, once and in order. -/
theorem C71_joined_partial (video : Bool) (setting : Nat) {np nk nf : Nat} (hp : 0 < np) (hk : 0 < nk) (hf : 0 < nf)
    (ops : List Op) (h : Moderate (packets ops)) (hne : packets ops ≠ []) (hshort : Short (accepted 0 (packets ops))) (t : Track)
    (ht : run (newTrack video setting np nk nf) ops = some t) (r : Request) (hl : r.live = true) (hnp : r.noParts = false)
    (hi : r.initMsn < (cuts video (minFragOf setting) (accepted 0 (packets ops))).length) (edge : Nat) (he : edge ≤ last (accepted 0 (packets ops)))
    (hj : last (accepted 0 (packets ops)) - edge < 2 ^ 32) (P : Cmaf) (hP : cmaf r edge t = some P) (en : Entry) (hen : en ∈ P.entries)
    (hfull : en.full = true) (hlong : en.dur < 2 ^ 31) (hany : en.parts ≠ []) :
    (List.range en.parts.length).flatMap (fun p => ((partSeg t en.start en.num p).map (fetch (accepted 0 (packets ops)))).getD []) =
        fetch (accepted 0 (packets ops)) ⟨en.start, en.dur⟩ ∧
      ∃ next, (cuts video (minFragOf setting) (accepted 0 (packets ops)))[en.num + 1]? = some next ∧
        fetch (accepted 0 (packets ops)) ⟨en.start, en.dur⟩ = between en.start next (accepted 0 (packets ops)) := by
  have hparts := C71_parts_partial video setting hp hk hf ops h hne hshort t ht r hl hnp hi edge he hj P hP en hen (fun _ => hlong)
  have hs := C71_listed_partial video setting hp hk hf ops h hne hshort t ht r hl hi edge he hj P hP
  obtain ⟨hfa, hlm, hpw, _⟩ := history_facts hp hk hf h hne hshort ht
  obtain ⟨k, hk⟩ := List.getElem?_of_mem hen
  have hei := hs.entries k en hk
  have hlt := (List.getElem?_eq_some_iff.mp hei.start).1
  have hn : P.seq + P.skipped + k + 1 < (cuts video (minFragOf setting) (accepted 0 (packets ops))).length := by
    by_cases hc : P.seq + P.skipped + k + 1 < (cuts video (minFragOf setting) (accepted 0 (packets ops))).length
    · exact hc
    · have := (hei.last (by omega)).1
      rw [hfull] at this; cases this
  obtain ⟨_, h4, h5⟩ := hei.whole _ (some_getD hn)
  have h5 := h5.resolve_left hany
  refine ⟨?_, _, by rw [hei.num]; exact some_getD hn, by rw [fetch_between hpw]; exact congrArg (fun x => between en.start x _) h4⟩
  rw [← h5.sum, List.range_eq_range']
  refine parts_join hpw _ _ _ 0 fun p x hx => ?_
  rw [Nat.zero_add, hparts p x hx]; rfl

/-- **C71** (in the same cases). What was listed stays: between two playlists of a live stream, fetched one after the other, entries with the same
number have the same start, a complete segment has the same duration, and the parts that were listed are the first ones of those that are listed
later, unless the parts are not listed any more. -/
theorem C71_stable_partial (video : Bool) (setting : Nat) {np nk nf : Nat} (hp : 0 < np) (hk : 0 < nk) (hf : 0 < nf)
    (ops more : List Op) (h : Moderate (packets ops)) (hne : packets ops ≠ []) (h' : Moderate (packets (ops ++ more)))
    (hshort : Short (accepted 0 (packets (ops ++ more)))) (t t' : Track)
    (ht : run (newTrack video setting np nk nf) ops = some t) (ht' : run (newTrack video setting np nk nf) (ops ++ more) = some t')
    (r r' : Request) (hl : r.live = true) (hl' : r'.live = true) (hn : r.noParts = false) (hn' : r'.noParts = false)
    (hi : r.initMsn < (cuts video (minFragOf setting) (accepted 0 (packets ops))).length)
    (hi' : r'.initMsn < (cuts video (minFragOf setting) (accepted 0 (packets (ops ++ more)))).length)
    (edge edge' : Nat) (he : edge ≤ last (accepted 0 (packets ops))) (hj : last (accepted 0 (packets ops)) - edge < 2 ^ 32)
    (he' : edge' ≤ last (accepted 0 (packets (ops ++ more)))) (hj' : last (accepted 0 (packets (ops ++ more))) - edge' < 2 ^ 32) (hee : edge ≤ edge')
    (P P' : Cmaf) (hP : cmaf r edge t = some P) (hP' : cmaf r' edge' t' = some P') (en en' : Entry) (hen : en ∈ P.entries) (hen' : en' ∈ P'.entries)
    (hnum : en.num = en'.num) :
    en.start = en'.start ∧ (en.full = true → en'.full = true ∧ en.dur = en'.dur) ∧ (en.parts <+: en'.parts ∨ en'.parts = []) := by
  obtain ⟨l, happ⟩ := accepted_append 0 (packets ops) (packets more)
  rw [← packets_append] at happ
  have hshort1 : Short (accepted 0 (packets ops)) := by
    intro p hp q hq
    exact hshort p (by rw [happ]; simp [hp]) q (by rw [happ]; simp [hq])
  have hne' : packets (ops ++ more) ≠ [] := by rw [packets_append]; simp [hne]
  have hs := C71_listed_partial video setting hp hk hf ops h hne hshort1 t ht r hl hi edge he hj P hP
  have hs' := C71_listed_partial video setting hp hk hf (ops ++ more) h' hne' hshort t' ht' r' hl' hi' edge' he' hj' P' hP'
  obtain ⟨hfa', hlm', hpw', _⟩ := history_facts hp hk hf h' hne' hshort ht'
  obtain ⟨hfa, hlm, hpw, _⟩ := history_facts hp hk hf h hne hshort1 ht
  obtain ⟨c, hc⟩ := cuts_append video (minFragOf setting) (accepted 0 (packets ops)) (accepted l (packets more))
  rw [← happ] at hc
  rw [hc] at hs' hfa'
  have hcut : cuts video (minFragOf setting) (accepted 0 (packets (ops ++ more))) = cuts video (minFragOf setting) (accepted 0 (packets ops)) ++ c := hc
  -- the next cut after the last one is not before the last packet that was there
  have hnext : ∀ x y, c.head? = some y → (accepted 0 (packets ops)).getLast? = some x → x.time ≤ y := by
    intro x y hy hx
    have hkt : ∀ (o : Option Nat) (a b : List Packet), ∃ o', keyTimes video o (a ++ b) = keyTimes video o a ++ keyTimes video o' b := by
      intro o a b
      induction a generalizing o with
      | nil => exact ⟨o, by cases o <;> simp [keyTimes]⟩
      | cons p a ih =>
        cases o with
        | none =>
          obtain ⟨c, hc⟩ := ih (some p.time)
          exact ⟨c, by rw [List.cons_append, keyTimes, keyTimes, hc, List.cons_append]⟩
        | some t =>
          by_cases h : p.key = true ∨ (video = false ∧ t + 2047 ≤ p.time)
          · obtain ⟨c, hc⟩ := ih (some p.time)
            exact ⟨c, by rw [List.cons_append, keyTimes, keyTimes, if_pos h, if_pos h, hc, List.cons_append]⟩
          · obtain ⟨c, hc⟩ := ih (some t)
            exact ⟨c, by rw [List.cons_append, keyTimes, keyTimes, if_neg h, if_neg h, hc]⟩
    have hst : ∀ (o : Option Nat) (a b : List Nat), ∃ o', starts (minFragOf setting) o (a ++ b) = starts (minFragOf setting) o a ++ starts (minFragOf setting) o' b := by
      intro o a b
      induction a generalizing o with
      | nil => exact ⟨o, by cases o <;> simp [starts]⟩
      | cons p a ih =>
        cases o with
        | none =>
          obtain ⟨c, hc⟩ := ih (some p)
          exact ⟨c, by rw [List.cons_append, starts, starts, hc, List.cons_append]⟩
        | some t =>
          by_cases h : t + minFragOf setting ≤ p
          · obtain ⟨c, hc⟩ := ih (some p)
            exact ⟨c, by rw [List.cons_append, starts, starts, if_pos h, if_pos h, hc, List.cons_append]⟩
          · obtain ⟨c, hc⟩ := ih (some t)
            exact ⟨c, by rw [List.cons_append, starts, starts, if_neg h, if_neg h, hc]⟩
    obtain ⟨o1, h1⟩ := hkt none (accepted 0 (packets ops)) (accepted l (packets more))
    obtain ⟨o2, h2⟩ := hst none (keyTimes video none (accepted 0 (packets ops))) (keyTimes video o1 (accepted l (packets more)))
    have hceq : c = starts (minFragOf setting) o2 (keyTimes video o1 (accepted l (packets more))) := by
      unfold cuts at hcut
      rw [happ, h1, h2] at hcut
      exact (List.append_cancel_left hcut).symm
    have m1 : ∀ (o : Option Nat) (l : List Nat), ∀ z ∈ starts (minFragOf setting) o l, z ∈ l := by
      intro o l
      induction l generalizing o with
      | nil => cases o <;> simp [starts]
      | cons q r ih =>
        cases o with
        | none =>
          intro z hz
          rw [starts] at hz
          rcases List.mem_cons.mp hz with rfl | hz
          · simp
          · exact List.mem_cons_of_mem _ (ih _ z hz)
        | some w =>
          intro z hz
          rw [starts] at hz
          split at hz
          · rcases List.mem_cons.mp hz with rfl | hz
            · simp
            · exact List.mem_cons_of_mem _ (ih _ z hz)
          · exact List.mem_cons_of_mem _ (ih _ z hz)
    have m2 : ∀ (o : Option Nat) (l : List Packet), ∀ z ∈ keyTimes video o l, z ∈ l.map Packet.time := by
      intro o l
      induction l generalizing o with
      | nil => cases o <;> simp [keyTimes]
      | cons q r ih =>
        cases o with
        | none =>
          intro z hz
          rw [keyTimes] at hz
          rcases List.mem_cons.mp hz with rfl | hz
          · simp
          · exact List.mem_cons_of_mem _ (ih _ z hz)
        | some w =>
          intro z hz
          rw [keyTimes] at hz
          split at hz
          · rcases List.mem_cons.mp hz with rfl | hz
            · simp
            · exact List.mem_cons_of_mem _ (ih _ z hz)
          · exact List.mem_cons_of_mem _ (ih _ z hz)
    have hy1 : y ∈ c := by
      cases c with
      | nil => cases hy
      | cons a b => cases hy; simp
    rw [hceq] at hy1
    have hy2 := m2 _ _ y (m1 _ _ y hy1)
    rw [happ, List.map_append, List.pairwise_append] at hpw'
    exact hpw'.2.2 x.time (List.mem_map_of_mem (List.mem_of_getLast? hx)) y hy2
  generalize hS : cuts video (minFragOf setting) (accepted 0 (packets ops)) = S at *
  obtain ⟨k, hk⟩ := List.getElem?_of_mem hen
  obtain ⟨k', hk'⟩ := List.getElem?_of_mem hen'
  have hei := hs.entries k en hk
  have hei' := hs'.entries k' en' hk'
  have hii : P'.seq + P'.skipped + k' = P.seq + P.skipped + k := by rw [← hei.num, ← hei'.num, hnum]
  rw [hii] at hei'
  generalize P.seq + P.skipped + k = i at *
  have hlt := (List.getElem?_eq_some_iff.mp hei.start).1
  have hstart : en.start = en'.start := by
    have := hei'.start
    rw [List.getElem?_append_left hlt, hei.start] at this
    exact Option.some.inj this
  by_cases hc1 : i + 1 < S.length
  · obtain ⟨g1, g2, g3⟩ := hei.whole _ (some_getD hc1)
    obtain ⟨g1', g2', g3'⟩ := hei'.whole (S.getD (i + 1) 0) (by rw [List.getElem?_append_left hc1]; exact some_getD hc1)
    have hdur : en.dur = en'.dur := by omega
    refine ⟨hstart, fun _ => ⟨g1', hdur⟩, ?_⟩
    rcases g3' with g3' | g3'
    · exact .inr g3'
    · rcases g3 with g3 | g3
      · exact .inl (by rw [g3]; exact List.nil_prefix)
      · rw [← hdur] at g3'
        rw [inParts_unique _ _ g3, inParts_unique _ _ g3']
        exact .inl (List.prefix_rfl)
  · obtain ⟨g1, g2⟩ := hei.last (by omega)
    have g2 := g2 hn
    refine ⟨hstart, fun hh => absurd hh (by rw [g1]; decide), ?_⟩
    by_cases hc2 : i + 1 < (S ++ c).length
    · obtain ⟨g1', g2', g3'⟩ := hei'.whole _ (some_getD hc2)
      rcases g3' with g3' | g3'
      · exact .inr g3'
      · refine .inl (soFar_prefix g2 g3' ?_)
        have hhead : c.head? = some ((S ++ c).getD (i + 1) 0) := by
          rw [List.getD_eq_getElem?_getD, List.getElem?_append_right (by omega), show i + 1 - S.length = 0 by omega, ← List.head?_eq_getElem?]
          cases c with
          | nil => simp at hc2; omega
          | cons a b => rfl
        have hnil : accepted 0 (packets ops) ≠ [] := by
          intro hh
          cases hq : packets ops with
          | nil => exact hne hq
          | cons p r => rw [hq] at hh; simp [accepted] at hh
        have hlx := hnext _ _ hhead (List.getLast?_eq_some_getLast hnil)
        have : last (accepted 0 (packets ops)) = ((accepted 0 (packets ops)).getLast hnil).time := by
          unfold last; rw [List.getLast?_eq_some_getLast hnil]; rfl
        omega
    · obtain ⟨_, g2'⟩ := hei'.last (by
        have := (List.getElem?_eq_some_iff.mp hei'.start).1
        omega)
      exact .inl (soFar_grow g2 (g2' hn') (by omega))

/-! ## Recordings -/

theorem first_cut (video : Bool) (setting : Nat) {np nk nf : Nat} (hp : 0 < np) (hk : 0 < nk) (hf : 0 < nf)
    (ops : List Op) (h : Moderate (packets ops)) (hne : packets ops ≠ []) (hrem : removals ops = 0) (t : Track)
    (ht : run (newTrack video setting np nk nf) ops = some t) :
    t.firstms = (cuts video (minFragOf setting) (accepted 0 (packets ops))).getD 0 0 := by
  rcases run_new video setting hp hk hf ops h with ⟨u, fs, d, e, er, hi, hfl, hd, hv, hm⟩ | ⟨er, _⟩
  · rw [er] at ht; cases ht
    have hg : Grouped video (minFragOf setting) fs := by rw [← hv, ← hm]; exact hi.grouped
    have hc : cuts video (minFragOf setting) (accepted 0 (packets ops)) = fs.map fragFirst := by rw [← hfl]; exact cuts_grouped hg
    have hd0 : d = 0 := by omega
    cases fs with
    | nil =>
      cases hq : packets ops with
      | nil => exact absurd hq hne
      | cons p r => rw [hq] at hfl; simp [accepted] at hfl
    | cons f r =>
      obtain ⟨g, hg, e1⟩ := frag_key hg (i := 0) (f := f) rfl
      rw [hc, hi.firstms g (by rw [hd0]; exact hg), e1]; rfl
  · rw [er] at ht; cases ht

/-- **C71** (for recordings, in the same cases). The playlist is marked as ended and starts with segment 0; it lists all segments but the last
one, from one cut to the next, with times that start at 0, and no parts. Missing: the last segment, for which `C71_recording_fails`. -/
theorem C71_recording_partial (video : Bool) (setting : Nat) {np nk nf : Nat} (hp : 0 < np) (hk : 0 < nk) (hf : 0 < nf)
    (ops : List Op) (h : Moderate (packets ops)) (hne : packets ops ≠ []) (hshort : Short (accepted 0 (packets ops))) (hrem : removals ops = 0) (t : Track)
    (ht : run (newTrack video setting np nk nf) ops = some t) (r : Request) (hl : r.live = false) (hsk : r.skip = false) (hlim : r.limit = 0) (edge : Nat) :
    ∃ P, cmaf r edge t = some P ∧ P.ended = true ∧ P.seq = 0 ∧ P.skipped = 0 ∧ P.hint = none ∧
      P.entries.length + 1 = (cuts video (minFragOf setting) (accepted 0 (packets ops))).length ∧
      ∀ i en, P.entries[i]? = some en → ∃ first start next, (cuts video (minFragOf setting) (accepted 0 (packets ops)))[0]? = some first ∧
        (cuts video (minFragOf setting) (accepted 0 (packets ops)))[i]? = some start ∧
        (cuts video (minFragOf setting) (accepted 0 (packets ops)))[i + 1]? = some next ∧
        en = ⟨i, start - first, next - start, [], true⟩ := by
  obtain ⟨hfa, hlm, hpw, h0⟩ := history_facts hp hk hf h hne hshort ht
  have h0 := h0 hrem
  have hsmall : (cuts video (minFragOf setting) (accepted 0 (packets ops))).length < 2 ^ 32 := by
    have hc := h.count
    have ha := accepted_length 0 (packets ops)
    exact cuts_small hfa rfl (by omega)
  have hfirst := first_cut video setting hp hk hf ops h hne hrem t ht
  generalize cuts video (minFragOf setting) (accepted 0 (packets ops)) = S at *
  have hleft := hfa.left
  rw [h0] at hfa hleft
  have hlst : lastFrag r.live edge t = S.length - 1 := by
    unfold lastFrag
    rw [hl, if_neg (by decide), hfa.fin, sub64_le (by omega) (by omega)]
  have hcur : firstListed r (S.length - 1) 0 = 0 := by
    unfold firstListed
    simp [hlim, hl]
  obtain ⟨T, hcm⟩ : ∃ T, cmaf r edge t = some ⟨T, if r.live then 0 else 0, 0, entries r T edge (S.length - 1) t (S.length - 1 - (0 + 0)) (0 + 0),
      hintOf r (entries r T edge (S.length - 1) t (S.length - 1 - (0 + 0)) (0 + 0)), !r.live⟩ := by
    refine ⟨biggest t.frags (t.frags.fin - 0) 0 0 / 1000, ?_⟩
    unfold cmaf
    simp only [hlst, h0, hcur]
    rw [show skips r (biggest t.frags (t.frags.fin - 0) 0 0 / 1000) (S.length - 1) 0 = some 0 by unfold skips; simp [hsk], Option.map_some]
  refine ⟨_, hcm, by simp [hl], by simp [hl], rfl, by simp [hintOf, hl], ?_, ?_⟩
  · dsimp only; rw [entries_length]; omega
  · intro i en hen
    dsimp only at hen
    have hlt := (List.getElem?_eq_some_iff.mp hen).1
    rw [entries_length] at hlt
    rw [entries_get _ _ _ _ _ _ _ _ hlt] at hen
    refine ⟨S.getD 0 0, S.getD i 0, S.getD (i + 1) 0, some_getD (by omega), some_getD (by omega), some_getD (by omega), ?_⟩
    rw [← Option.some.inj hen]
    have hst := hfa.start i (by omega) (by omega)
    have hd := hfa.dur i (by omega) (by omega)
    have hm := hfa.mono i (by omega)
    have hfi := hfa.firstms i (by omega) (by omega)
    have hsm := hfa.small
    have hle := hfa.lastms i (by omega)
    unfold entry
    simp only [Nat.zero_add, hl, hst, hd, Bool.false_and, Bool.not_false, Bool.false_eq_true, if_false]
    rw [if_neg (by omega), sub64_le hfi (by omega), hfirst]
    unfold partsOf
    simp [hl]

/-! ### The hypotheses can be met -/

/-- A live stream of seventeen segments, with parts. -/
def liveRequest : Request := ⟨true, false, false, 0, 0⟩

/-- Segments 2 to 15 are complete; those from 12 on have parts; of segment 16 nothing is there yet, and its first part is announced. -/
example : ∃ t P, run (newTrack true 0 4 4 4) even = some t ∧ cmaf liveRequest 32040 t = some P ∧ P.seq = 2 ∧ P.skipped = 0 ∧ P.entries.length = 15 ∧
    P.entries[12]? = some ⟨14, 28000, 2000, [500, 500, 500, 500], true⟩ ∧ P.entries[0]? = some ⟨2, 4000, 2000, [], true⟩ ∧
    P.hint = some (16, 32000, 0) :=
  ⟨_, _, rfl, rfl, by decide +kernel, by decide +kernel, by decide +kernel, by decide +kernel, by decide +kernel, by decide +kernel⟩

/-- With skipping, eight entries are left. -/
example : ∃ t, run (newTrack true 0 4 4 4) even = some t ∧
    (cmaf { liveRequest with skip := true } 32040 t).map (fun P => [P.seq, P.skipped, P.entries.length]) = some [2, 7, 8] :=
  ⟨_, rfl, by decide +kernel⟩

/-- A segment that is being received, with two parts and then three. -/
example : ∃ t t' P P', run (newTrack true 0 4 4 4) [.packet (pk 0 true), .packet (pk 2000 true), .packet (pk 3040)] = some t ∧
    run (newTrack true 0 4 4 4) [.packet (pk 0 true), .packet (pk 2000 true), .packet (pk 3040), .packet (pk 3500), .packet (pk 3740 true)] = some t' ∧
    cmaf liveRequest 3040 t = some P ∧ P.entries[1]? = some ⟨1, 2000, 1040, [500, 500], false⟩ ∧ P.hint = some (1, 2000, 2) ∧
    cmaf liveRequest 3740 t' = some P' ∧ P'.entries[1]? = some ⟨1, 2000, 1740, [500, 500, 500], false⟩ ∧ P'.hint = some (1, 2000, 3) :=
  ⟨_, _, _, _, rfl, rfl, rfl, by decide +kernel, by decide +kernel, rfl, by decide +kernel, by decide +kernel⟩

/-! ### Where the code differs -/

/-- **C71** fails for recordings: the last segment is not listed. A recording of eight seconds without a cut has an empty playlist. -/
theorem C71_recording_fails : ∃ t, run (newTrack true 0 4 4 4) [.packet (pk 0 true), .packet (pk 8000)] = some t ∧
    cmaf ⟨false, false, false, 0, 0⟩ 8000 t = some ⟨0, 0, 0, [], none, true⟩ :=
  ⟨_, rfl, by decide +kernel⟩

/-- **C71** fails for requests that ask to skip segments: the process crashes while no segment of a second is complete. -/
theorem C71_skip_fails : ∃ t, run (newTrack true 0 4 4 4) [.packet (pk 0 true), .packet (pk 40)] = some t ∧
    cmaf { liveRequest with skip := true } 40 t = none :=
  ⟨_, rfl, by decide +kernel⟩

/-- **C71** fails for the target duration: a complete segment of 2.9 seconds, three to the nearest, is listed under a target of two. -/
theorem C71_target_fails : ∃ t P, run (newTrack true 0 4 4 4) [.packet (pk 0 true), .packet (pk 2900 true), .packet (pk 3000)] = some t ∧
    cmaf liveRequest 3000 t = some P ∧ P.target = 2 ∧ P.entries[0]?.map (fun en => rounded en.dur) = some 3 ∧ P.entries[0]?.map Entry.full = some true :=
  ⟨_, _, rfl, rfl, by decide +kernel, by decide +kernel, by decide +kernel⟩

/-- **C71** fails for short lists: with `listlimit` 3 no complete segment is listed, however many there are. -/
theorem C71_limit_fails : ∃ t P, run (newTrack true 0 4 4 4) even = some t ∧ cmaf { liveRequest with limit := 3 } 32040 t = some P ∧
    P.entries = [⟨16, 32000, 40, [], false⟩] :=
  ⟨_, _, rfl, rfl, by decide +kernel⟩

/-- **C71** fails for parts that will never be there: a part past the end of a complete segment is not refused, but answered with no packets.
(A part can be announced and then not come, when the segment ends.) -/
theorem C71_refused_fails : ∃ t t' P, run (newTrack true 0 4 4 4) [.packet (pk 0 true), .packet (pk 2000 true), .packet (pk 4000)] = some t ∧
    cmaf liveRequest 4000 t = some P ∧ P.hint = some (1, 2000, 4) ∧
    run (newTrack true 0 4 4 4) [.packet (pk 0 true), .packet (pk 2000 true), .packet (pk 4000), .packet (pk 4000 true), .packet (pk 4040)] = some t' ∧
    (t'.frags.get 1).dur = 2000 ∧ partSeg t' 2000 1 4 = some ⟨4000, 0⟩ ∧ fetch (packets [.packet (pk 4000), .packet (pk 4000 true)]) ⟨4000, 0⟩ = [] :=
  ⟨_, _, _, rfl, rfl, by decide +kernel, rfl, by decide +kernel, by decide +kernel, by decide +kernel⟩

/-- One long segment and seventeen short ones. -/
def uneven : List Op := (List.range 17).map (fun i => .packet (pk (9000 + 1000 * i) true))

/-- **C71** fails for the skip boundary (six target durations before the end of the playlist, as announced): with a segment of nine seconds and
seventeen of one second, all but the last eight seconds are skipped. -/
theorem C71_boundary_fails : ∃ t, run (newTrack true 1000 4 4 4) (.packet (pk 0 true) :: uneven) = some t ∧ t.lastms = 25000 ∧
    (cmaf { liveRequest with skip := true } 25000 t).map (fun P => (P.target, P.skipped, P.entries.map Entry.start)) =
      some (9, 8, (List.range' 18 8).map (1000 * ·)) :=
  ⟨_, rfl, by decide +kernel, by decide +kernel⟩

end Verif.Hls
