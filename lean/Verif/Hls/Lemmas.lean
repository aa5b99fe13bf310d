import Verif.Hls.Spec
import Verif.Live.Group

/-! # Lemmas on playlists -/
namespace Verif.Hls
open Verif.Index
open Verif.Live (Cut cut_grouped)

/-! ## Where a stream is cut -/

theorem keyTimes_inside {v : Bool} {t : Nat} (g r : List Packet) (h : ∀ q ∈ g, ¬ Starts v t q) : keyTimes v (some t) (g ++ r) = keyTimes v (some t) r := by
  induction g with
  | nil => rfl
  | cons q g ih =>
    have hq := h q (by simp)
    unfold Starts at hq
    rw [List.cons_append, keyTimes, if_neg hq]
    exact ih fun x hx => h x (by simp [hx])

theorem keyTimes_cut {v : Bool} (ks : List Group) (h : Cut v ks) : keyTimes v none ks.flatten = ks.map first := by
  induction ks with
  | nil => rfl
  | cons g r ih =>
    obtain ⟨hne, hin, hst, hr⟩ := h
    obtain ⟨p, g', rfl⟩ : ∃ p r, g = p :: r := ⟨_, _, (List.cons_head_tail hne).symm⟩
    have hf : first (p :: g') = p.time := rfl
    rw [hf] at hin hst
    rw [List.flatten_cons, List.cons_append, keyTimes, keyTimes_inside g' _ hin, List.map_cons, hf, ← ih hr]
    cases r with
    | nil => rfl
    | cons h r' =>
      obtain ⟨q, hq, hs⟩ := hst h rfl
      obtain ⟨q', h', rfl⟩ : ∃ p r, h = p :: r := ⟨_, _, (List.cons_head_tail hr.1).symm⟩
      simp only [List.head?_cons, Option.some.injEq] at hq
      subst hq
      unfold Starts at hs
      rw [List.flatten_cons, List.cons_append, show keyTimes v (some p.time) (q' :: (h' ++ r'.flatten)) = q'.time :: keyTimes v (some q'.time) (h' ++ r'.flatten) by
        rw [keyTimes, if_pos hs], show keyTimes v none (q' :: (h' ++ r'.flatten)) = q'.time :: keyTimes v (some q'.time) (h' ++ r'.flatten) from rfl]

theorem starts_inside {m t : Nat} (g r : List Nat) (h : ∀ x ∈ g, x < t + m) : starts m (some t) (g ++ r) = starts m (some t) r := by
  induction g with
  | nil => rfl
  | cons q g ih =>
    have hq := h q (by simp)
    rw [List.cons_append, starts, if_neg (by omega)]
    exact ih fun x hx => h x (by simp [hx])

theorem starts_cut {m : Nat} (fs : List (List Group)) (h1 : ∀ f ∈ fs, f ≠ []) (h2 : ∀ f ∈ fs, ∀ g ∈ f.tail, first g < fragFirst f + m)
    (h3 : ∀ i f e, fs[i]? = some f → fs[i + 1]? = some e → fragFirst f + m ≤ fragFirst e) :
    starts m none (fs.flatten.map first) = fs.map fragFirst := by
  induction fs with
  | nil => rfl
  | cons f r ih =>
    obtain ⟨g, f', rfl⟩ : ∃ p r, f = p :: r := ⟨_, _, (List.cons_head_tail (h1 f (by simp))).symm⟩
    have hf : fragFirst (g :: f') = first g := rfl
    have hin := h2 (g :: f') (by simp)
    rw [hf] at hin
    rw [List.flatten_cons, List.cons_append, List.map_cons, List.map_append, starts,
      starts_inside _ _ (by intro x hx; obtain ⟨y, hy, rfl⟩ := List.mem_map.mp hx; exact hin y hy), List.map_cons, hf,
      ← ih (fun x hx => h1 x (by simp [hx])) (fun x hx => h2 x (by simp [hx])) (fun i a b ha hb => h3 (i + 1) a b (by simpa using ha) (by simpa using hb))]
    cases r with
    | nil => rfl
    | cons e r' =>
      have h4 := h3 0 _ e rfl rfl
      obtain ⟨g2, e', rfl⟩ : ∃ p r, e = p :: r := ⟨_, _, (List.cons_head_tail (h1 e (by simp))).symm⟩
      have h5 : first g + m ≤ first g2 := h4
      rw [List.flatten_cons, List.cons_append, List.map_cons]
      refine congrArg (List.cons (first g)) ?_
      rw [show starts m none (first g2 :: List.map first (e' ++ r'.flatten)) = first g2 :: starts m (some (first g2)) (List.map first (e' ++ r'.flatten)) from rfl]
      rw [starts, if_pos h5]

theorem cuts_grouped {v : Bool} {m : Nat} {fs : List (List Group)} (h : Grouped v m fs) : cuts v m fs.flatten.flatten = fs.map fragFirst := by
  unfold cuts
  rw [keyTimes_cut _ (cut_grouped h)]
  exact starts_cut fs h.frags h.fragInside h.fragStarts

theorem keyTimes_append (v : Bool) (o : Option Nat) (a b : List Packet) : ∃ c, keyTimes v o (a ++ b) = keyTimes v o a ++ c := by
  induction a generalizing o with
  | nil => exact ⟨keyTimes v o b, by cases o <;> simp [keyTimes]⟩
  | cons p a ih =>
    cases o with
    | none =>
      obtain ⟨c, hc⟩ := ih (some p.time)
      exact ⟨c, by rw [List.cons_append, keyTimes, keyTimes, hc, List.cons_append]⟩
    | some t =>
      by_cases h : p.key = true ∨ (v = false ∧ t + 2047 ≤ p.time)
      · obtain ⟨c, hc⟩ := ih (some p.time)
        exact ⟨c, by rw [List.cons_append, keyTimes, keyTimes, if_pos h, if_pos h, hc, List.cons_append]⟩
      · obtain ⟨c, hc⟩ := ih (some t)
        exact ⟨c, by rw [List.cons_append, keyTimes, keyTimes, if_neg h, if_neg h, hc]⟩

theorem starts_append (m : Nat) (o : Option Nat) (a b : List Nat) : ∃ c, starts m o (a ++ b) = starts m o a ++ c := by
  induction a generalizing o with
  | nil => exact ⟨starts m o b, by cases o <;> simp [starts]⟩
  | cons p a ih =>
    cases o with
    | none =>
      obtain ⟨c, hc⟩ := ih (some p)
      exact ⟨c, by rw [List.cons_append, starts, starts, hc, List.cons_append]⟩
    | some t =>
      by_cases h : t + m ≤ p
      · obtain ⟨c, hc⟩ := ih (some p)
        exact ⟨c, by rw [List.cons_append, starts, starts, if_pos h, if_pos h, hc, List.cons_append]⟩
      · obtain ⟨c, hc⟩ := ih (some t)
        exact ⟨c, by rw [List.cons_append, starts, starts, if_neg h, if_neg h, hc]⟩

/-- More packets do not move the cuts that were made. -/
theorem cuts_append (v : Bool) (m : Nat) (a b : List Packet) : ∃ c, cuts v m (a ++ b) = cuts v m a ++ c := by
  unfold cuts
  obtain ⟨c, hc⟩ := keyTimes_append v none a b
  rw [hc]
  exact starts_append m none _ c

theorem accepted_append (l : Nat) (a b : List Packet) : ∃ l', accepted l (a ++ b) = accepted l a ++ accepted l' b := by
  induction a generalizing l with
  | nil => exact ⟨l, rfl⟩
  | cons p a ih =>
    by_cases h : p.time < l
    · obtain ⟨l', hc⟩ := ih l
      exact ⟨l', by rw [List.cons_append, accepted, accepted, if_pos h, if_pos h, hc]⟩
    · obtain ⟨l', hc⟩ := ih p.time
      exact ⟨l', by rw [List.cons_append, accepted, accepted, if_neg h, if_neg h, hc, List.cons_append]⟩

theorem packets_append (a b : List Op) : packets (a ++ b) = packets a ++ packets b := by
  induction a with
  | nil => rfl
  | cons o a ih => cases o <;> simp [packets, ih]

theorem whole_append (S c : List Nat) {i : Nat} (h : i + 1 < S.length) : whole (S ++ c) i = whole S i := by
  unfold whole
  simp only [List.getD_eq_getElem?_getD, List.getElem?_append_left h, List.getElem?_append_left (show i < S.length by omega)]

/-! ## Lines -/

theorem sub64_le {a b : Nat} (h : b ≤ a) (ha : a < 2 ^ 64) : sub64 a b = a - b := by unfold sub64; omega

theorem sub32_le {a b : Nat} (h : b ≤ a) (ha : a < 2 ^ 32) : sub32 a b = a - b := by unfold sub32; omega

theorem line_whole {t : Track} {s n : Nat} (h1 : t.firstms ≤ s) (h2 : s < n) (h3 : n ≤ t.lastms) (h4 : t.lastms < 2 ^ 64) :
    line t s (n - s) = some ⟨s, n - s⟩ := by
  unfold line
  have e : s + (n - s) = n := by omega
  simp only [show n - s ≠ 0 by omega, if_false, e, Nat.mod_eq_of_lt (show n < 2 ^ 64 by omega), show ¬ n < t.firstms by omega,
    show ¬ s ≥ t.lastms by omega, show ¬ n > t.lastms by omega]

theorem line_last {t : Track} {s : Nat} (h1 : t.firstms ≤ s) (h2 : s ≤ t.lastms) (h4 : t.lastms < 2 ^ 64) :
    line t s 0 = if s < t.lastms then some ⟨s, t.lastms - s⟩ else none := by
  unfold line
  have e : s + (t.lastms - s) = t.lastms := by omega
  simp only [if_true, sub64_le h2 h4, e, Nat.mod_eq_of_lt h4, show ¬ t.lastms < t.firstms by omega, if_false, Nat.lt_irrefl, gt_iff_lt]
  by_cases h : s < t.lastms
  · rw [if_pos h, if_neg (by omega)]
  · rw [if_neg h, if_pos (by omega)]

end Verif.Hls
