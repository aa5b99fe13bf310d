import Verif.Hls.Hide

/-! # Live playlists of an index -/
namespace Verif.Hls
open Verif.Index

theorem Brief.whole {S : List Nat} {l : Nat} (h : Brief S l) {i : Nat} (hi : i + 1 < S.length) : S.getD (i + 1) 0 - S.getD i 0 < 2 ^ 16 := by
  have := h i (by omega)
  rwa [List.getD_eq_getElem?_getD, List.getElem?_append_left hi, ← List.getD_eq_getElem?_getD] at this

theorem Brief.last {S : List Nat} {l : Nat} (h : Brief S l) (hS : 0 < S.length) : l - S.getD (S.length - 1) 0 < 2 ^ 16 := by
  have := h (S.length - 1) (by omega)
  rw [show S.length - 1 + 1 = S.length by omega] at this
  rwa [List.getD_eq_getElem?_getD, List.getElem?_append_right (by omega), Nat.sub_self] at this

theorem sum_whole_pos {S : List Nat} (hm : ∀ i, i + 1 < S.length → S.getD i 0 < S.getD (i + 1) 0) (a n : Nat) (h : a + n < S.length) (hn : 0 < n) :
    0 < (((List.range' a n).map (whole S)).map Seg.dur).sum := by
  obtain ⟨n, rfl⟩ : ∃ m, n = m + 1 := ⟨n - 1, by omega⟩
  rw [List.range'_succ, List.map_cons, List.map_cons, List.sum_cons]
  have := hm a (by omega)
  have e : (whole S a).dur = S.getD (a + 1) 0 - S.getD a 0 := rfl
  omega

/-- What the playlist of a live stream says. -/
structure Says (S : List Nat) (e l limit : Nat) (P : Playlist) (a b : Nat) : Prop where
  start : e ≤ a
  order : a ≤ b
  fin : b < S.length
  recent : S.length ≤ b + 2
  all : S.getD (S.length - 1) 0 < l → b + 1 = S.length
  seq : P.seq = a
  segs : P.segs = (List.range' a (b - a)).map (whole S)
  few : a ≤ e + 2 ∨ (0 < limit ∧ limit ≤ b - a)
  brief : Brief S l → a < b ∧ P.ended = false ∧ (e < a → P.target * 4000 < P.length) ∧
    (a < e + 2 ∨ (0 < limit ∧ limit < b - a) → P.length - (whole S a).dur ≤ P.target * 4000)

theorem target_small {t : Track} {S : List Nat} {e : Nat} (h : Facts t S e) (hb : Brief S t.lastms) : targetOf t * 4000 < 2 ^ 32 ∧ 0 < targetOf t := by
  have := biggest_facts h (2 ^ 16) (fun i _ hi => Nat.le_of_lt (hb.whole hi))
  unfold targetOf
  generalize biggest t.frags (t.frags.fin - t.frags.del) t.frags.del 0 = B at this ⊢
  rw [Nat.mod_eq_of_lt (by omega)]
  omega

theorem length_drop1 {S : List Nat} (hm : ∀ i, i + 1 < S.length → S.getD i 0 < S.getD (i + 1) 0) (a n : Nat) (h : a + n < S.length) (hn : 0 < n) :
    ((((List.range' a n).map (whole S)).drop 1).map Seg.dur).sum = (((List.range' a n).map (whole S)).map Seg.dur).sum - (whole S a).dur := by
  obtain ⟨n, rfl⟩ : ∃ m, n = m + 1 := ⟨n - 1, by omega⟩
  rw [List.range'_succ, List.map_cons, List.drop_succ_cons, List.drop_zero, List.map_cons, List.sum_cons]
  omega

/-- The playlist of a live stream of which segments `e` to `k`, and perhaps one more, are there. -/
theorem says_hide {t : Track} {S : List Nat} {e : Nat} (h : Facts t S e) (limit b : Nat) (x : Seg) (hb : b < S.length) (he : e < b) (hr : S.length ≤ b + 2)
    (hall : S.getD (S.length - 1) 0 < t.lastms → b + 1 = S.length)
    (hlines : lines t (t.frags.fin - t.frags.del) t.frags.del = (List.range' e (b - e)).map (whole S) ++ [x])
    (hx : Brief S t.lastms → x.dur < 2 ^ 16) (hxe : x.dur ≤ t.lastms - S.getD b 0) : ∃ a, Says S e t.lastms limit (playlist true limit t) a b := by
  have hne : (List.range' e (b - e)).map (whole S) ≠ [] := by
    intro hh
    have := congrArg List.length hh
    simp at this
    omega
  obtain ⟨j, h1, h2, h3, h4, h5⟩ := hide_drop limit (targetOf t) ((List.range' e (b - e)).map (whole S)) x hne
  rw [range_drop] at h2 h4 h5
  have h1 : j ≤ b - e := by simpa using h1
  have hseq : (playlist true limit t).seq = e + j := by
    unfold playlist
    simp only [if_true, hlines]
    rw [show (biggest t.frags (t.frags.fin - t.frags.del) t.frags.del 0 / 1000 + 1) % 2 ^ 32 = targetOf t from rfl, h3, h.del]
  have hsegs : (playlist true limit t).segs = (List.range' (e + j) (b - (e + j))).map (whole S) := by
    unfold playlist
    simp only [if_true, hlines]
    rw [show (biggest t.frags (t.frags.fin - t.frags.del) t.frags.del 0 / 1000 + 1) % 2 ^ 32 = targetOf t from rfl, h2,
      show b - (e + j) = b - e - j by omega]
  have htar : (playlist true limit t).target = targetOf t := rfl
  have hlen : (playlist true limit t).length = (((List.range' (e + j) (b - e - j)).map (whole S)).map Seg.dur).sum := by
    unfold Playlist.length; rw [hsegs, show b - (e + j) = b - e - j by omega]
  refine ⟨e + j, by omega, by omega, hb, hr, hall, hseq, hsegs, ?_, ?_⟩
  · rcases h4 with h | ⟨h, h'⟩
    · exact .inl (by omega)
    · refine .inr ⟨h, ?_⟩
      simp only [List.length_map, List.length_range'] at h'
      omega
  intro hbr
  obtain ⟨t1, t2⟩ := target_small h hbr
  have hsp := span h.mono e (b - e) (by omega)
  rw [show e + (b - e) = b by omega] at hsp
  have hfirst := h.firstms e (Nat.le_refl _) (by omega)
  have hlast := h.lastms b hb
  have hshort := h.short
  obtain ⟨h6, h7, h8⟩ := h5 (by
      intro s hs
      rcases List.mem_append.mp hs with hs | hs
      · obtain ⟨i, hi, rfl⟩ := List.mem_map.mp hs
        have := List.mem_range'_1.mp hi
        exact hbr.whole (by omega)
      · rw [List.mem_singleton.mp hs]; exact hx hbr)
    (by
      rw [List.map_append, List.sum_append, hsp.2]
      simp only [List.map_cons, List.map_nil, List.sum_cons, List.sum_nil, Nat.add_zero]
      omega) t1
  have hjb : e + j < b := by
    by_cases hj : e + j < b
    · exact hj
    · have e1 : b - e - j = 0 := by omega
      have := h7 (by omega)
      rw [e1] at this
      simp at this
  have hpos := sum_whole_pos h.mono (e + j) (b - e - j) (by omega) (by omega)
  refine ⟨hjb, ?_, ?_, ?_⟩
  · unfold playlist
    simp only [if_true, hlines]
    rw [show (biggest t.frags (t.frags.fin - t.frags.del) t.frags.del 0 / 1000 + 1) % 2 ^ 32 = targetOf t from rfl, h6]
    generalize (((List.range' (e + j) (b - e - j)).map (whole S)).map Seg.dur).sum = X at hpos
    simp; omega
  · intro hj
    rw [htar, hlen]; exact h7 (by omega)
  · intro hj
    rw [htar, hlen, ← length_drop1 h.mono _ _ (by omega) (by omega)]
    rw [List.length_map, List.length_range'] at h8
    rw [range_drop, show b - e - (j + 1) = b - e - j - 1 by omega, show e + (j + 1) = e + j + 1 by omega] at h8
    rw [range_drop]
    exact h8 (by omega)

/-- The playlist of a live stream with at least two fragments. -/
theorem says {t : Track} {S : List Nat} {e : Nat} (h : Facts t S e) (he : e + 2 ≤ S.length) (limit : Nat) :
    ∃ a b, Says S e t.lastms limit (playlist true limit t) a b := by
  have hl := lines_eq h (S.length - 1 - e) e (Nat.le_refl _) (by omega)
  have hlin : lines t (t.frags.fin - t.frags.del) t.frags.del = (List.range' e (S.length - 1 - e)).map (whole S) ++ lastLine S t.lastms := by
    rw [h.del, h.fin, ← hl, show S.length - 1 - e + 1 = S.length - e by omega]
  unfold lastLine at hlin
  by_cases hc : S.getD (S.length - 1) 0 < t.lastms
  · rw [if_pos hc] at hlin
    obtain ⟨a, ha⟩ := says_hide h limit (S.length - 1) _ (by omega) (by omega) (by omega) (fun _ => by omega) hlin (fun hb => hb.last (by omega)) (Nat.le_refl _)
    exact ⟨a, _, ha⟩
  · rw [if_neg hc, List.append_nil] at hlin
    by_cases h2 : e + 2 = S.length
    · refine ⟨e, S.length - 1, Nat.le_refl _, by omega, by omega, by omega, fun h => absurd h hc, ?_, ?_, .inl (by omega), ?_⟩
      · rw [show S.length - 1 - e = 1 by omega] at hlin
        unfold playlist
        simp only [if_true, hlin]
        exact h.del
      · rw [show S.length - 1 - e = 1 by omega] at hlin ⊢
        unfold playlist
        simp only [if_true, hlin]
        rfl
      · intro hbr
        have h3 := hbr.whole (i := e) (by omega)
        have h4 := h.mono e (by omega)
        rw [show S.length - 1 - e = 1 by omega] at hlin
        have e1 : (whole S e).dur = S.getD (e + 1) 0 - S.getD e 0 := rfl
        refine ⟨by omega, ?_, fun h => absurd h (by omega), fun _ => ?_⟩
        · unfold playlist
          simp only [if_true, hlin]
          have : (hide limit ((biggest t.frags (t.frags.fin - t.frags.del) t.frags.del 0 / 1000 + 1) % 2 ^ 32) [whole S e]).2.1 = (whole S e).dur := by
            show total32 [whole S e] = _
            unfold total32
            simp only [List.map_cons, List.map_nil, List.sum_cons, List.sum_nil, Nat.add_zero]
            exact Nat.mod_eq_of_lt (by omega)
          simp only [List.range'_one, List.map_cons, List.map_nil, this]
          rw [e1]
          have h5 : 0 < S.getD (e + 1) 0 - S.getD e 0 := by omega
          generalize S.getD (e + 1) 0 - S.getD e 0 = X at h5
          simp; omega
        · have : (playlist true limit t).length = (whole S e).dur := by
            unfold Playlist.length playlist
            simp only [if_true, hlin]
            show ([whole S e].map Seg.dur).sum = _
            simp
          omega
    · have hsplit : (List.range' e (S.length - 1 - e)).map (whole S) = (List.range' e (S.length - 2 - e)).map (whole S) ++ [whole S (S.length - 2)] := by
        rw [show S.length - 1 - e = (S.length - 2 - e) + 1 by omega, List.range'_concat, List.map_append, Nat.one_mul,
          show e + (S.length - 2 - e) = S.length - 2 by omega]
        rfl
      rw [hsplit] at hlin
      have hle := h.lastms (S.length - 1) (by omega)
      have e1 : (whole S (S.length - 2)).dur = S.getD (S.length - 1) 0 - S.getD (S.length - 2) 0 := by
        unfold whole; rw [show S.length - 2 + 1 = S.length - 1 by omega]
      obtain ⟨a, ha⟩ := says_hide h limit (S.length - 2) _ (by omega) (by omega) (by omega) (fun h => absurd h hc) hlin
        (fun hb => by
          have := hb.whole (i := S.length - 2) (by omega)
          rw [show S.length - 2 + 1 = S.length - 1 by omega] at this
          rw [e1]; exact this)
        (by rw [e1]; omega)
      exact ⟨a, _, ha⟩

end Verif.Hls
