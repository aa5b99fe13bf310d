import Verif.Stbl.Time
import Verif.Index.Lemmas

/-! # The clock: times in milliseconds -/
namespace Verif.Stbl
open Verif.Index (sub64 sub64_eq)

theorem clock_nil (scale : Nat) : clock scale [] = (0, 0) := by
  unfold clock clockOf; rw [List.foldl_nil]

theorem clock_step (scale : Nat) (ds : List Nat) (x : Nat) : clock scale (ds ++ [x]) = increase scale (clock scale ds) x := by
  unfold clock
  exact clock_snoc (increase scale) ds x

theorem millis_eq (scale total : Nat) (h : total < 2 ^ 54) : millis scale total = total * 1000 / scale := by
  unfold millis
  rw [Nat.mod_eq_of_lt (Nat.lt_of_lt_of_le (Nat.mul_lt_mul_of_pos_right h (by decide)) (by decide))]

/-- A step of a clock that is `e` ahead. -/
theorem increase_eq (scale d e x : Nat) (h1 : d + x + e < 2 ^ 54) :
    increase scale (d + e, e) x =
      if (d + e) * 1000 / scale ≥ (d + x) * 1000 / scale then
        (((d + e) * 1000 / scale + 1) * scale % 2 ^ 64 / 1000 % 2 ^ 32, sub64 (((d + e) * 1000 / scale + 1) * scale % 2 ^ 64 / 1000 % 2 ^ 32) (d + x))
      else (d + x, 0) := by
  have e3 := millis_eq scale (d + e) (by omega)
  have e4 := millis_eq scale (d + x) (by omega)
  have e1 : (d + e + x) % 2 ^ 64 = d + x + e := by clear e3 e4; rw [Nat.mod_eq_of_lt (by omega)]; omega
  have e2 : sub64 (d + x + e) e = d + x := by clear e3 e4 e1; rw [sub64_eq (by omega) (by omega)]; omega
  unfold increase
  simp only [e1, e2, e3, e4]

/-- Durations of at least a millisecond leave the clock right. -/
theorem clock_exact (scale : Nat) (hs : 0 < scale) (ds : List Nat) (h1 : ∀ x ∈ ds, scale ≤ x * 1000) (h2 : ds.sum < 2 ^ 54) : clock scale ds = (ds.sum, 0) := by
  have : ∀ n, n ≤ ds.length → clock scale (ds.take n) = ((ds.take n).sum, 0) := by
    intro n
    induction n with
    | zero => intro _; rw [List.take_zero, clock_nil]; rfl
    | succ n ih =>
      intro hn
      have hsum : (ds.take (n + 1)).sum ≤ ds.sum := by
        conv => rhs; rw [← List.take_append_drop (n + 1) ds, List.sum_append]
        omega
      rw [List.take_succ_eq_append_getElem (by omega)] at hsum ⊢
      rw [clock_step, ih (by omega)]
      rw [List.sum_append] at hsum ⊢
      simp only [List.sum_cons, List.sum_nil, Nat.add_zero] at hsum ⊢
      have hx := h1 ds[n] (List.getElem_mem _)
      generalize (ds.take n).sum = d at *
      generalize ds[n] = x at *
      have := increase_eq scale d 0 x (by omega)
      simp only [Nat.add_zero] at this
      rw [this]
      have hlt : d * 1000 / scale < (d + x) * 1000 / scale := by
        have := Nat.div_le_div_right (c := scale) (show d * 1000 + scale ≤ (d + x) * 1000 by omega)
        rw [Nat.add_div_right _ hs] at this
        omega
      rw [if_neg (by omega)]
  have h := this ds.length (Nat.le_refl _)
  rwa [List.take_length] at h

set_option maxRecDepth 100000 in
/-- One step of the clock: it stays ahead of the durations, and does not run back. -/
theorem clock_one (scale : Nat) (hs : 0 < scale) (hs2 : scale < 2 ^ 32) (d e x : Nat) (h : d + x + e + scale / 1000 < 2 ^ 32) :
    ∃ e', increase scale (d + e, e) x = (d + x + e', e') ∧ d + e ≤ d + x + e' ∧ e' ≤ e + scale / 1000 ∧ (d + x) * 1000 / scale ≤ (d + x + e') * 1000 / scale ∧
      (scale % 1000 = 0 → (d + x + e') * 1000 / scale = max ((d + x) * 1000 / scale) ((d + e) * 1000 / scale + 1)) := by
  rw [increase_eq scale d e x (by omega)]
  by_cases hc : (d + e) * 1000 / scale ≥ (d + x) * 1000 / scale
  · rw [if_pos hc]
    have b1 := Nat.div_add_mod ((d + e) * 1000) scale
    have b2 := Nat.mod_lt ((d + e) * 1000) hs
    have b3 := Nat.div_add_mod ((d + x) * 1000) scale
    have b4 := Nat.mod_lt ((d + x) * 1000) hs
    have b5 : scale * ((d + x) * 1000 / scale) ≤ scale * ((d + e) * 1000 / scale) := Nat.mul_le_mul_left _ hc
    have b6 : ((d + e) * 1000 / scale + 1) * scale = scale * ((d + e) * 1000 / scale) + scale := by rw [Nat.add_mul, Nat.one_mul, Nat.mul_comm]
    have w1 : ((d + e) * 1000 / scale + 1) * scale % 2 ^ 64 / 1000 % 2 ^ 32 = (scale * ((d + e) * 1000 / scale) + scale) / 1000 := by
      rw [b6]
      clear b3 b4 b5 b6 hc
      revert b1 b2 h
      generalize scale * ((d + e) * 1000 / scale) = m
      generalize (d + e) * 1000 % scale = r
      intro h b1 b2
      rw [Nat.mod_eq_of_lt (show m + scale < 2 ^ 64 by omega), Nat.mod_eq_of_lt (by omega)]
    rw [w1]
    clear w1 b6
    have hz : scale % 1000 = 0 → scale * ((d + e) * 1000 / scale) % 1000 = 0 := fun hz => by
      rw [Nat.mul_mod, hz, Nat.zero_mul, Nat.zero_mod]
    generalize (d + e) * 1000 % scale = r1 at b1 b2
    generalize (d + x) * 1000 % scale = r2 at b3 b4
    have hq1 : ∀ w, (w * 1000 = scale * ((d + e) * 1000 / scale) + scale) → w * 1000 / scale = (d + e) * 1000 / scale + 1 := fun w hw => by
      rw [hw, ← Nat.mul_succ, Nat.mul_div_cancel_left _ hs]
    generalize hq : (d + e) * 1000 / scale = q at *
    generalize hq' : (d + x) * 1000 / scale = q' at *
    generalize scale * q = m at *
    generalize scale * q' = m' at *
    have w2 : d + x ≤ (m + scale) / 1000 := by omega
    have w3 : d + e ≤ (m + scale) / 1000 := by omega
    have w4 : (m + scale) / 1000 ≤ d + e + scale / 1000 := by omega
    refine ⟨(m + scale) / 1000 - (d + x), ?_, by omega, by omega, ?_, ?_⟩
    · rw [sub64_eq w2 (by omega), show d + x + ((m + scale) / 1000 - (d + x)) = (m + scale) / 1000 by omega]
    · rw [← hq']
      exact Nat.div_le_div_right (by omega)
    · intro h0
      have := hq1 ((m + scale) / 1000) (by have := hz h0; omega)
      rw [show d + x + ((m + scale) / 1000 - (d + x)) = (m + scale) / 1000 by omega, this, Nat.max_eq_right (by omega)]
  · rw [if_neg hc]
    refine ⟨0, rfl, ?_, by omega, Nat.le_refl _, fun _ => by rw [Nat.add_zero, Nat.max_eq_left (by omega)]⟩
    rcases Nat.lt_or_ge (d + x) (d + e) with hl | hl
    · exact absurd (Nat.div_le_div_right (c := scale) (show (d + x) * 1000 ≤ (d + e) * 1000 by omega)) (by omega)
    · omega

/-- The clock after some samples is as far ahead as the milliseconds that were added. -/
theorem clock_ahead (scale : Nat) (hs : 0 < scale) (hs2 : scale < 2 ^ 32) (ds : List Nat) (h : ds.sum + ds.length * (scale / 1000) < 2 ^ 32) (n : Nat) (hn : n ≤ ds.length) :
    ∃ e, clock scale (ds.take n) = ((ds.take n).sum + e, e) ∧ e ≤ n * (scale / 1000) := by
  induction n with
  | zero => exact ⟨0, by rw [List.take_zero, clock_nil]; rfl, by omega⟩
  | succ n ih =>
    obtain ⟨e, h1, h2⟩ := ih (by omega)
    have hsum : (ds.take (n + 1)).sum ≤ ds.sum := by
      conv => rhs; rw [← List.take_append_drop (n + 1) ds, List.sum_append]
      omega
    rw [List.take_succ_eq_append_getElem (by omega)] at hsum ⊢
    rw [clock_step, h1]
    rw [List.sum_append] at hsum ⊢
    simp only [List.sum_cons, List.sum_nil, Nat.add_zero] at hsum ⊢
    generalize (ds.take n).sum = d at *
    generalize ds[n] = x at *
    have hle : (n + 1) * (scale / 1000) ≤ ds.length * (scale / 1000) := Nat.mul_le_mul_right _ hn
    rw [Nat.succ_mul] at hle ⊢
    obtain ⟨e', g1, g2, g3, g4⟩ := clock_one scale hs hs2 d e x (by omega)
    exact ⟨e', g1, by omega⟩

/-- One more sample. -/
theorem clock_next (scale : Nat) (hs : 0 < scale) (hs2 : scale < 2 ^ 32) (ds : List Nat) (h : ds.sum + ds.length * (scale / 1000) < 2 ^ 32) (n : Nat) (hn : n < ds.length) :
    millis scale (clock scale (ds.take n)).1 ≤ millis scale (clock scale (ds.take (n + 1))).1 ∧
    (scale % 1000 = 0 → millis scale (clock scale (ds.take (n + 1))).1 = max ((ds.take (n + 1)).sum * 1000 / scale) (millis scale (clock scale (ds.take n)).1 + 1)) := by
  obtain ⟨e, h1, h2⟩ := clock_ahead scale hs hs2 ds h n (by omega)
  have hsum : (ds.take (n + 1)).sum ≤ ds.sum := by
    conv => rhs; rw [← List.take_append_drop (n + 1) ds, List.sum_append]
    omega
  rw [List.take_succ_eq_append_getElem hn] at hsum ⊢
  rw [clock_step, h1]
  rw [List.sum_append] at hsum ⊢
  simp only [List.sum_cons, List.sum_nil, Nat.add_zero] at hsum ⊢
  generalize (ds.take n).sum = d at *
  generalize ds[n] = x at *
  have hle : (n + 1) * (scale / 1000) ≤ ds.length * (scale / 1000) := Nat.mul_le_mul_right _ hn
  rw [Nat.succ_mul] at hle
  obtain ⟨e', g1, g2, g3, g4, g5⟩ := clock_one scale hs hs2 d e x (by omega)
  rw [g1]
  dsimp only
  rw [millis_eq _ _ (by omega), millis_eq _ _ (by omega)]
  exact ⟨Nat.div_le_div_right (by omega), g5⟩

theorem clock_late (scale : Nat) (hs : 0 < scale) (hs2 : scale < 2 ^ 32) (ds : List Nat) (h : ds.sum + ds.length * (scale / 1000) < 2 ^ 32) (n : Nat) (hn : n ≤ ds.length) :
    (ds.take n).sum * 1000 / scale ≤ millis scale (clock scale (ds.take n)).1 := by
  obtain ⟨e, h1, h2⟩ := clock_ahead scale hs hs2 ds h n hn
  have hsum : (ds.take n).sum ≤ ds.sum := by
    conv => rhs; rw [← List.take_append_drop n ds, List.sum_append]
    omega
  have hle : n * (scale / 1000) ≤ ds.length * (scale / 1000) := Nat.mul_le_mul_right _ hn
  rw [h1, millis_eq _ _ (by dsimp only; omega)]
  exact Nat.div_le_div_right (by dsimp only; omega)

end Verif.Stbl
