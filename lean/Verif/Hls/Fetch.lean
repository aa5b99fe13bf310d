import Verif.Hls.LiveList

/-! # The packets of the listed segments -/
namespace Verif.Hls
open Verif.Index

theorem between_none {ps : List Packet} {a b : Nat} (h : ∀ p ∈ ps, b ≤ p.time) : between a b ps = [] := by
  unfold between
  rw [List.filter_eq_nil_iff]
  intro p hp
  have := h p hp
  simp; omega

theorem take_between {ps : List Packet} (h : (ps.map Packet.time).Pairwise (· ≤ ·)) (a b : Nat) (ha : ∀ p ∈ ps, a ≤ p.time) :
    ps.takeWhile (fun p => !decide (p.time ≥ b)) = between a b ps := by
  induction ps with
  | nil => rfl
  | cons p r ih =>
    rw [List.map_cons, List.pairwise_cons] at h
    have hp := ha p (by simp)
    by_cases hc : b ≤ p.time
    · rw [between_none (fun q hq => ?_), List.takeWhile_cons]
      · simp [hc]
      · rcases List.mem_cons.mp hq with rfl | hq
        · exact hc
        · exact Nat.le_trans hc (h.1 _ (List.mem_map_of_mem hq))
    · rw [List.takeWhile_cons, ih h.2 (fun q hq => ha q (by simp [hq]))]
      unfold between
      simp only [List.filter_cons]
      have : (decide (a ≤ p.time ∧ p.time < b)) = true := by simp; omega
      have h2 : (!decide (p.time ≥ b)) = true := by simp; omega
      rw [this, h2]; rfl

theorem fetch_between {ps : List Packet} (h : (ps.map Packet.time).Pairwise (· ≤ ·)) (s : Seg) : fetch ps s = between s.start (s.start + s.dur) ps := by
  unfold fetch
  induction ps with
  | nil => rfl
  | cons p r ih =>
    have h' := h
    rw [List.map_cons, List.pairwise_cons] at h
    by_cases hc : p.time < s.start
    · rw [List.dropWhile_cons]
      simp only [hc, decide_true, if_true]
      rw [ih h.2]
      unfold between
      rw [List.filter_cons]
      have : (decide (s.start ≤ p.time ∧ p.time < s.start + s.dur)) = false := by simp; omega
      rw [this]; rfl
    · rw [List.dropWhile_cons]
      simp only [hc, decide_false]
      refine take_between h' _ _ fun q hq => ?_
      rcases List.mem_cons.mp hq with rfl | hq
      · omega
      · have := h.1 _ (List.mem_map_of_mem hq); omega

theorem between_append {ps : List Packet} (h : (ps.map Packet.time).Pairwise (· ≤ ·)) {a b c : Nat} (hab : a ≤ b) (hbc : b ≤ c) :
    between a b ps ++ between b c ps = between a c ps := by
  induction ps with
  | nil => rfl
  | cons p r ih =>
    rw [List.map_cons, List.pairwise_cons] at h
    have ih := ih h.2
    by_cases h1 : p.time < b
    · have e1 : between b c (p :: r) = between b c r := by
        unfold between
        rw [List.filter_cons, show (decide (b ≤ p.time ∧ p.time < c)) = false by simp; omega]; rfl
      rw [e1]
      unfold between at ih ⊢
      rw [List.filter_cons, List.filter_cons]
      by_cases h2 : a ≤ p.time
      · rw [show (decide (a ≤ p.time ∧ p.time < b)) = true by simp; omega, show (decide (a ≤ p.time ∧ p.time < c)) = true by simp; omega]
        simp only [if_true, List.cons_append, ih]
      · rw [show (decide (a ≤ p.time ∧ p.time < b)) = false by simp; omega, show (decide (a ≤ p.time ∧ p.time < c)) = false by simp; omega]
        exact ih
    · have e1 : ∀ x, between x b (p :: r) = [] := fun x => between_none fun q hq => by
        rcases List.mem_cons.mp hq with rfl | hq
        · omega
        · have := h.1 _ (List.mem_map_of_mem hq); omega
      rw [e1, List.nil_append]
      unfold between
      refine List.filter_congr fun q hq => ?_
      have : b ≤ q.time := by
        rcases List.mem_cons.mp hq with rfl | hq
        · omega
        · have := h.1 _ (List.mem_map_of_mem hq); omega
      exact decide_eq_decide.mpr ⟨fun h => ⟨by omega, h.2⟩, fun h => ⟨by omega, h.2⟩⟩

theorem fetch_whole {ps : List Packet} (h : (ps.map Packet.time).Pairwise (· ≤ ·)) {S : List Nat} (hm : ∀ i, i + 1 < S.length → S.getD i 0 < S.getD (i + 1) 0)
    (a n : Nat) (hn : a + n < S.length) : ((List.range' a n).map (whole S)).flatMap (fetch ps) = between (S.getD a 0) (S.getD (a + n) 0) ps := by
  induction n generalizing a with
  | zero =>
    rw [List.range'_zero, List.map_nil, List.flatMap_nil]
    unfold between
    exact (List.filter_eq_nil_iff.mpr fun p _ => by simp).symm
  | succ n ih =>
    have h1 := hm a (by omega)
    have h2 := (span hm (a + 1) n (by omega)).1
    rw [List.range'_succ, List.map_cons, List.flatMap_cons, ih (a + 1) (by omega), fetch_between h]
    have e : (whole S a).start + (whole S a).dur = S.getD (a + 1) 0 := by
      unfold whole; dsimp only; omega
    rw [e, show (whole S a).start = S.getD a 0 from rfl, show a + (n + 1) = a + 1 + n by omega]
    exact between_append h (by omega) h2

end Verif.Hls
