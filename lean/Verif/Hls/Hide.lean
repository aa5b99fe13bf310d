import Verif.Hls.Lines

/-! # Live playlists -/
namespace Verif.Hls
open Verif.Index

theorem range_drop (S : List Nat) (a n j : Nat) : ((List.range' a n).map (whole S)).drop j = (List.range' (a + j) (n - j)).map (whole S) := by
  rw [← List.map_drop, List.drop_range']; simp

/-- The segments take the time between the first start and the last end. -/
theorem span {S : List Nat} (hm : ∀ i, i + 1 < S.length → S.getD i 0 < S.getD (i + 1) 0) (a n : Nat) (h : a + n < S.length) :
    S.getD a 0 ≤ S.getD (a + n) 0 ∧ (((List.range' a n).map (whole S)).map Seg.dur).sum = S.getD (a + n) 0 - S.getD a 0 := by
  induction n generalizing a with
  | zero => simp
  | succ n ih =>
    obtain ⟨h1, h2⟩ := ih (a + 1) (by omega)
    have := hm a (by omega)
    rw [show a + 1 + n = a + (n + 1) by omega] at h1 h2
    rw [List.range'_succ, List.map_cons, List.map_cons, List.sum_cons, h2]
    have e : (whole S a).dur = S.getD (a + 1) 0 - S.getD a 0 := rfl
    rw [e]
    omega

/-- The target duration of the playlist. -/
def targetOf (t : Track) : Nat := (biggest t.frags (t.frags.fin - t.frags.del) t.frags.del 0 / 1000 + 1) % 2 ^ 32

theorem biggest_le (f : Tab Frag) (k i r B : Nat) (hr : r ≤ B) (h : ∀ j, i ≤ j → j < i + k → (f.get j).dur ≤ B) : biggest f k i r ≤ B := by
  induction k generalizing i r with
  | zero => exact hr
  | succ k ih =>
    unfold biggest
    refine ih (i + 1) _ ?_ (fun j h1 h2 => h j (by omega) (by omega))
    have := h i (by omega) (by omega)
    split <;> omega

theorem biggest_facts {t : Track} {S : List Nat} {e : Nat} (h : Facts t S e) (B : Nat) (hB : ∀ i, e ≤ i → i + 1 < S.length → S.getD (i + 1) 0 - S.getD i 0 ≤ B) :
    biggest t.frags (t.frags.fin - t.frags.del) t.frags.del 0 ≤ B := by
  refine biggest_le _ _ _ _ _ (Nat.zero_le _) fun j h1 h2 => ?_
  have hl := h.left
  rw [h.del, h.fin] at h2
  rw [h.del] at h1
  by_cases hj : j + 1 < S.length
  · rw [h.dur j h1 hj]; exact hB j h1 hj
  · have : j = S.length - 1 := by omega
    rw [this, h.lastDur]; omega

theorem dur_lt {t : Track} {S : List Nat} {e : Nat} (h : Facts t S e) (i : Nat) (hi : e ≤ i) (hl : i + 1 < S.length) :
    S.getD (i + 1) 0 - S.getD i 0 < 2 ^ 32 := by
  have h1 := h.firstms i hi (by omega)
  have h2 := h.lastms (i + 1) hl
  have h3 := h.short
  omega

/-- Every listed duration, rounded to seconds, is at most the target. -/
theorem dur_target {t : Track} {S : List Nat} {e : Nat} (h : Facts t S e) (i : Nat) (hi : e ≤ i) (hl : i + 1 < S.length) :
    rounded (whole S i).dur ≤ targetOf t := by
  have hb := biggest_facts h (2 ^ 32) (fun j h1 h2 => Nat.le_of_lt (dur_lt h j h1 h2))
  obtain ⟨_, h2⟩ := biggest_ge t.frags (t.frags.fin - t.frags.del) t.frags.del 0
  have := h2 i (by rw [h.del]; exact hi) (by rw [h.del, h.fin]; omega)
  rw [h.dur i hi hl] at this
  unfold targetOf rounded
  have e1 : (whole S i).dur = S.getD (i + 1) 0 - S.getD i 0 := rfl
  rw [e1, Nat.mod_eq_of_lt (by omega)]
  omega

theorem hide_eq (limit target : Nat) (l : List Seg) (x : Seg) (hl : l ≠ []) : hide limit target (l ++ [x]) =
    if limit = 0 then skipTwo (target * 4000 % 2 ^ 32) l (sub32 (total32 (l ++ [x])) (x.dur % 2 ^ 16)) 0
    else skipLimit limit (target * 4000 % 2 ^ 32) (skipTwo (target * 4000 % 2 ^ 32) l (sub32 (total32 (l ++ [x])) (x.dur % 2 ^ 16)) 0).1
      (skipTwo (target * 4000 % 2 ^ 32) l (sub32 (total32 (l ++ [x])) (x.dur % 2 ^ 16)) 0).2.1
      (skipTwo (target * 4000 % 2 ^ 32) l (sub32 (total32 (l ++ [x])) (x.dur % 2 ^ 16)) 0).2.2 := by
  have h1 : (l ++ [x]).length > 1 := by have := List.length_pos_iff.mpr hl; simp; omega
  unfold hide
  simp only [h1, if_true, List.dropLast_concat, List.getLast?_append, List.getLast?_singleton, Option.some_or, Option.map_some, Option.getD_some]

theorem skipTwo_stop (b : Nat) (l : List Seg) (total k : Nat) (hd : ∀ s ∈ l, s.dur < 2 ^ 16) (ht : total = (l.map Seg.dur).sum) (hs : total < 2 ^ 32) :
    2 ≤ (skipTwo b l total k).2.2 ∨ (((skipTwo b l total k).1.drop 1).map Seg.dur).sum ≤ b := by
  induction l generalizing total k with
  | nil => exact .inr (by simp [skipTwo])
  | cons s r ih =>
    have h1 := hd s (by simp)
    simp only [List.map_cons, List.sum_cons] at ht
    unfold skipTwo
    rw [Nat.mod_eq_of_lt h1, sub32_le (by omega) hs, show total - s.dur = (r.map Seg.dur).sum by omega]
    by_cases hc : (r.map Seg.dur).sum > b ∧ k < 2
    · rw [if_pos hc]
      exact ih _ _ (fun x hx => hd x (by simp [hx])) rfl (by omega)
    · rw [if_neg hc]
      by_cases hk : k < 2
      · refine .inr ?_
        have : ¬ (r.map Seg.dur).sum > b := fun h => hc ⟨h, hk⟩
        simpa using this
      · exact .inl (by dsimp only; omega)

theorem skipLimit_stop (n b : Nat) (l : List Seg) (total k : Nat) (hd : ∀ s ∈ l, s.dur < 2 ^ 16) (ht : total = (l.map Seg.dur).sum) (hs : total < 2 ^ 32) :
    (skipLimit n b l total k).1.length ≤ n ∨ (((skipLimit n b l total k).1.drop 1).map Seg.dur).sum ≤ b := by
  induction l generalizing total k with
  | nil => exact .inr (by simp [skipLimit])
  | cons s r ih =>
    have h1 := hd s (by simp)
    simp only [List.map_cons, List.sum_cons] at ht
    unfold skipLimit
    rw [Nat.mod_eq_of_lt h1, sub32_le (by omega) hs, show total - s.dur = (r.map Seg.dur).sum by omega]
    by_cases hc : r.length + 1 > n ∧ (r.map Seg.dur).sum > b
    · rw [if_pos hc]
      exact ih _ _ (fun x hx => hd x (by simp [hx])) rfl (by omega)
    · rw [if_neg hc]
      by_cases hk : r.length + 1 > n
      · refine .inr ?_
        have : ¬ (r.map Seg.dur).sum > b := fun h => hc ⟨hk, h⟩
        simpa using this
      · exact .inl (by dsimp only; simp; omega)

theorem skipLimit_keep (n b : Nat) (l : List Seg) (total k : Nat) :
    (skipLimit n b l total k).2.2 = k ∨ n ≤ (skipLimit n b l total k).1.length := by
  induction l generalizing total k with
  | nil => exact .inl rfl
  | cons s r ih =>
    unfold skipLimit
    by_cases hc : r.length + 1 > n ∧ sub32 total (s.dur % 2 ^ 16) > b
    · rw [if_pos hc]
      rcases ih (sub32 total (s.dur % 2 ^ 16)) (k + 1) with h | h
      · refine .inr ?_
        obtain ⟨j, h1, h2, h3, _⟩ := skipLimit_drop n b r (sub32 total (s.dur % 2 ^ 16)) (k + 1)
        have : j = 0 := by omega
        rw [h2, this]
        simp; omega
      · exact .inr h
    · rw [if_neg hc]; exact .inl rfl

/-- Whatever is hidden, some of the first segments are. -/
theorem hide_drop (limit target : Nat) (l : List Seg) (x : Seg) (hl : l ≠ []) : ∃ j, j ≤ l.length ∧ (hide limit target (l ++ [x])).1 = l.drop j ∧
    (hide limit target (l ++ [x])).2.2 = j ∧ (j ≤ 2 ∨ (0 < limit ∧ limit ≤ (l.drop j).length)) ∧
    ((∀ s ∈ l ++ [x], s.dur < 2 ^ 16) → ((l ++ [x]).map Seg.dur).sum < 2 ^ 32 → target * 4000 < 2 ^ 32 →
      (hide limit target (l ++ [x])).2.1 = ((l.drop j).map Seg.dur).sum ∧
      (0 < j → target * 4000 < ((l.drop j).map Seg.dur).sum) ∧
      (j < 2 ∨ (0 < limit ∧ limit < (l.drop j).length) → ((l.drop (j + 1)).map Seg.dur).sum ≤ target * 4000)) := by
  rw [hide_eq limit target l x hl]
  generalize hT : sub32 (total32 (l ++ [x])) (x.dur % 2 ^ 16) = T
  generalize hB : target * 4000 % 2 ^ 32 = B
  obtain ⟨j, h1, h2, h3, h4, h5⟩ := skipTwo_drop B l T 0
  have h4 := h4 (by omega)
  have hshort : (∀ s ∈ l ++ [x], s.dur < 2 ^ 16) → ((l ++ [x]).map Seg.dur).sum < 2 ^ 32 → T = (l.map Seg.dur).sum ∧ T < 2 ^ 32 := by
    intro h6 h7
    have hx := h6 x (by simp)
    rw [List.map_append, List.sum_append] at h7
    simp only [List.map_cons, List.map_nil, List.sum_cons, List.sum_nil, Nat.add_zero] at h7
    have e1 : total32 (l ++ [x]) = (l.map Seg.dur).sum + x.dur := by
      unfold total32
      rw [List.map_append, List.sum_append]
      simp only [List.map_cons, List.map_nil, List.sum_cons, List.sum_nil, Nat.add_zero]
      exact Nat.mod_eq_of_lt h7
    rw [← hT, e1, Nat.mod_eq_of_lt hx, sub32_le (by omega) h7]
    omega
  by_cases hz : limit = 0
  · rw [if_pos hz]
    refine ⟨j, h1, h2, by rw [h3]; omega, .inl (by omega), ?_⟩
    intro h6 h7 h8
    obtain ⟨h9, h10⟩ := hshort h6 h7
    have hl6 : ∀ s ∈ l, s.dur < 2 ^ 16 := fun s hs => h6 s (by simp [hs])
    obtain ⟨h11, h12⟩ := h5 hl6 h9 h10
    rw [Nat.mod_eq_of_lt h8] at hB
    subst hB
    refine ⟨h11, h12, ?_⟩
    rintro (hj | hj)
    · rcases skipTwo_stop (target * 4000) l T 0 hl6 h9 h10 with h | h
      · omega
      · rw [h2, List.drop_drop] at h; exact h
    · omega
  · rw [if_neg hz, h2, h3]
    obtain ⟨i, g1, g2, g3, g5⟩ := skipLimit_drop limit B (l.drop j) (skipTwo B l T 0).2.1 (0 + j)
    have gk := skipLimit_keep limit B (l.drop j) (skipTwo B l T 0).2.1 (0 + j)
    have gs := skipLimit_stop limit B (l.drop j) (skipTwo B l T 0).2.1 (0 + j)
    rw [g2] at gk gs ⊢
    rw [g3] at gk ⊢
    rw [List.drop_drop] at gk gs g5 ⊢
    rw [List.length_drop] at g1
    refine ⟨j + i, by omega, rfl, by omega, ?_, ?_⟩
    · rcases gk with h | h
      · exact .inl (by omega)
      · exact .inr ⟨by omega, h⟩
    intro h6 h7 h8
    obtain ⟨h9, h10⟩ := hshort h6 h7
    have hl6 : ∀ s ∈ l, s.dur < 2 ^ 16 := fun s hs => h6 s (by simp [hs])
    obtain ⟨h11, h12⟩ := h5 hl6 h9 h10
    have hd6 : ∀ s ∈ l.drop j, s.dur < 2 ^ 16 := fun s hs => hl6 s (List.mem_of_mem_drop hs)
    have hsum : (l.map Seg.dur).sum = ((l.take j).map Seg.dur).sum + ((l.drop j).map Seg.dur).sum := by
      rw [← List.sum_append, ← List.map_append, List.take_append_drop]
    have hlt : (skipTwo B l T 0).2.1 < 2 ^ 32 := by rw [h11]; omega
    obtain ⟨g11, g12⟩ := g5 hd6 h11 hlt
    have gs := gs hd6 h11 hlt
    rw [Nat.mod_eq_of_lt h8] at hB
    subst hB
    refine ⟨g11, ?_, ?_⟩
    · intro hj
      by_cases hi : 0 < i
      · exact g12 hi
      · have : i = 0 := by omega
        subst this
        exact h12 (by omega)
    · rw [show j + i + 1 = j + i + 1 from rfl]
      rintro (hj | hj)
      · rcases skipTwo_stop (target * 4000) l T 0 hl6 h9 h10 with h | h
        · omega
        · rw [h2, List.drop_drop] at h
          have hm : ((l.drop (j + 1)).map Seg.dur).sum = (((l.drop (j + 1)).take i).map Seg.dur).sum + (((l.drop (j + 1)).drop i).map Seg.dur).sum := by
            rw [← List.sum_append, ← List.map_append, List.take_append_drop]
          rw [List.drop_drop, show j + 1 + i = j + i + 1 by omega] at hm
          omega
      · rcases gs with h | h
        · omega
        · rw [List.drop_drop] at h; exact h

end Verif.Hls
