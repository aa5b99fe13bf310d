import Verif.Hls.Cmaf
import Verif.Hls.Props

/-! # Lemmas on playlists with parts -/
namespace Verif.Hls
open Verif.Index

/-- A segment of `d` milliseconds in parts: they take `d` milliseconds together, and each but the last one takes 500. -/
structure InParts (l : List Nat) (d : Nat) : Prop where
  sum : l.sum = d
  pos : ∀ x ∈ l, 0 < x ∧ x ≤ 500
  full : ∀ x ∈ l.dropLast, x = 500

/-- The first `d` milliseconds of a segment that goes on, in parts: all take 500 milliseconds, and there are as many as there can be. -/
structure SoFar (l : List Nat) (d : Nat) : Prop where
  full : ∀ x ∈ l, x = 500
  fits : l.sum ≤ d
  most : d < l.sum + 500

theorem frag_index_le (t : Track) (ts : Nat) (h : t.frags.del ≤ t.frags.fin) : fragIndexForTime t ts ≤ t.frags.fin := by
  unfold fragIndexForTime
  have key : ∀ n i x, fragLoop t ts n i = some x → x < i + n := by
    intro n
    induction n with
    | zero => intro i x h; cases h
    | succ n ih =>
      intro i x h
      unfold fragLoop at h
      dsimp only at h
      split at h
      · cases h; omega
      · have := ih _ _ h; omega
  split
  · rename_i i hi
    have := key _ _ _ hi
    omega
  · split <;> omega

theorem sum_replicate (n x : Nat) : (List.replicate n x).sum = n * x := by
  induction n with
  | zero => simp
  | succ n ih => rw [List.replicate_succ, List.sum_cons, ih, Nat.succ_mul]; omega

theorem inParts_of (d : Nat) : InParts (List.replicate (d / 500) 500 ++ (if d % 500 ≠ 0 then [d % 500] else [])) d := by
  have hm := Nat.mod_lt d (show 0 < 500 by omega)
  have hd := Nat.div_add_mod d 500
  by_cases h : d % 500 ≠ 0
  · rw [if_pos h]
    refine ⟨?_, ?_, ?_⟩
    · rw [List.sum_append, sum_replicate]; simp; omega
    · intro x hx
      rcases List.mem_append.mp hx with hx | hx
      · rw [List.eq_of_mem_replicate hx]; omega
      · rw [List.mem_singleton.mp hx]; omega
    · intro x hx
      rw [List.dropLast_concat] at hx
      exact List.eq_of_mem_replicate hx
  · rw [if_neg h, List.append_nil]
    refine ⟨?_, ?_, ?_⟩
    · rw [sum_replicate]; omega
    · intro x hx
      rw [List.eq_of_mem_replicate hx]; omega
    · intro x hx
      exact List.eq_of_mem_replicate (List.dropLast_subset _ hx)

theorem soFar_of (d : Nat) : SoFar (List.replicate (d / 500) 500) d := by
  have hm := Nat.mod_lt d (show 0 < 500 by omega)
  have hd := Nat.div_add_mod d 500
  refine ⟨fun x hx => List.eq_of_mem_replicate hx, ?_, ?_⟩
  · rw [sum_replicate]; omega
  · rw [sum_replicate]; omega

/-- There is one way to cut a segment into parts. -/
theorem inParts_unique (l : List Nat) (d : Nat) (h : InParts l d) : l = List.replicate (d / 500) 500 ++ (if d % 500 ≠ 0 then [d % 500] else []) := by
  induction l generalizing d with
  | nil => rw [← h.sum]; rfl
  | cons x r ih =>
    have h1 := h.pos x (by simp)
    have h2 := h.sum
    rw [List.sum_cons] at h2
    cases r with
    | nil =>
      simp only [List.sum_nil, Nat.add_zero] at h2
      subst h2
      by_cases hx : x = 500
      · subst hx; rfl
      · rw [Nat.div_eq_of_lt (by omega), Nat.mod_eq_of_lt (by omega), if_pos (by omega)]; rfl
    | cons y r' =>
      have hx : x = 500 := h.full x (by simp)
      subst hx
      have := ih (y :: r').sum ⟨rfl, fun z hz => h.pos z (by simp [hz]), fun z hz => h.full z (by simp at hz ⊢; exact .inr hz)⟩
      have e1 : d / 500 = (y :: r').sum / 500 + 1 := by omega
      have e2 : d % 500 = (y :: r').sum % 500 := by omega
      rw [e1, e2, List.replicate_succ, List.cons_append, ← this]

theorem soFar_unique (l : List Nat) (d : Nat) (h : SoFar l d) : l = List.replicate (d / 500) 500 := by
  have e := List.eq_replicate_of_mem h.full
  have h1 := h.fits
  have h2 := h.most
  rw [e, sum_replicate] at h1 h2
  rw [e, show l.length = d / 500 by omega]

/-- Parts do not change when the segment goes on. -/
theorem soFar_prefix {a b : List Nat} {d e : Nat} (ha : SoFar a d) (hb : InParts b e) (h : d ≤ e) : a <+: b := by
  rw [soFar_unique a d ha, inParts_unique b e hb]
  have : d / 500 ≤ e / 500 := Nat.div_le_div_right h
  refine ⟨List.replicate (e / 500 - d / 500) 500 ++ (if e % 500 ≠ 0 then [e % 500] else []), ?_⟩
  rw [← List.append_assoc, List.replicate_append_replicate, show d / 500 + (e / 500 - d / 500) = e / 500 by omega]

theorem soFar_grow {a b : List Nat} {d e : Nat} (ha : SoFar a d) (hb : SoFar b e) (h : d ≤ e) : a <+: b := by
  rw [soFar_unique a d ha, soFar_unique b e hb]
  have : d / 500 ≤ e / 500 := Nat.div_le_div_right h
  refine ⟨List.replicate (e / 500 - d / 500) 500, ?_⟩
  rw [List.replicate_append_replicate, show d / 500 + (e / 500 - d / 500) = e / 500 by omega]

/-! ## Entries -/

theorem sub64_gt {a b : Nat} (h : a < b) (hb : b < 2 ^ 64) (hd : b - a < 2 ^ 32) : 2 ^ 63 ≤ sub64 a b := by unfold sub64; omega

theorem parts_whole (r : Request) (target edge lst i start dur : Nat) (hd : dur < 2 ^ 63) (hi : 1 < lst - i) :
    partsOf r target edge lst i start dur = [] ∨ InParts (partsOf r target edge lst i start dur) dur := by
  unfold partsOf
  split
  · exact .inl rfl
  · split
    · rw [if_neg (by omega)]
      refine .inr ?_
      have := inParts_of dur
      unfold partMs
      simp only [hi, and_true]
      exact this
    · exact .inl rfl

theorem parts_there (r : Request) (target edge lst i start dur : Nat) (hl : r.live = true) (hn : r.noParts = false) (hd : dur < 2 ^ 63) (hi : 1 < lst - i)
    (h5 : lst - i < 5) : InParts (partsOf r target edge lst i start dur) dur := by
  unfold partsOf
  rw [hl, hn, if_neg (by simp), if_pos (.inl h5), if_neg (by omega)]
  have := inParts_of dur
  unfold partMs
  simp only [hi, and_true]
  exact this

theorem parts_last (r : Request) (target edge lst i start : Nat) (hl : r.live = true) (hn : r.noParts = false) (hi : lst - i = 1)
    (he : edge < 2 ^ 64) (hs : start < 2 ^ 64) (hd : start - edge < 2 ^ 32) (hd' : edge - start < 2 ^ 32) :
    SoFar (partsOf r target edge lst i start (sub64 edge start)) (edge - start) ∧
      (partsOf r target edge lst i start (sub64 edge start)).length = wholeParts ⟨i, start, sub64 edge start, [], false⟩ := by
  unfold partsOf wholeParts
  rw [hl, hn, if_neg (by simp), if_pos (.inl (by omega))]
  dsimp only
  by_cases h : edge < start
  · have := sub64_gt h hs hd
    rw [if_pos this, if_pos this, show edge - start = 0 by omega]
    exact ⟨⟨by simp, by simp, by simp⟩, rfl⟩
  · rw [sub64_le (by omega) he, if_neg (by omega), if_neg (by omega), if_neg (by omega), List.append_nil]
    exact ⟨soFar_of _, by rw [List.length_replicate]⟩

theorem entries_get (r : Request) (target edge lst : Nat) (t : Track) (k i j : Nat) (hj : j < k) :
    (entries r target edge lst t k i)[j]? = some (entry r target edge lst (i + j) t) := by
  induction k generalizing i j with
  | zero => omega
  | succ k ih =>
    unfold entries
    cases j with
    | zero => rfl
    | succ j =>
      rw [List.getElem?_cons_succ, ih (i + 1) j (by omega), show i + 1 + j = i + (j + 1) by omega]

theorem entries_length (r : Request) (target edge lst : Nat) (t : Track) (k i : Nat) : (entries r target edge lst t k i).length = k := by
  induction k generalizing i with
  | zero => rfl
  | succ k ih => unfold entries; rw [List.length_cons, ih]

theorem lastFrag_live {t : Track} {S : List Nat} {e : Nat} (h : Facts t S e) (edge : Nat) : lastFrag true edge t = S.length := by
  have := frag_index_le t edge (by rw [h.del, h.fin]; exact Nat.le_of_lt h.left)
  unfold lastFrag
  rw [if_pos rfl]
  split
  · exact h.fin
  · rw [← h.fin]; omega

/-- Where a live playlist starts. -/
theorem first_live (r : Request) (hl : r.live = true) (n e : Nat) (he : e < n) (hn : n < 2 ^ 64) (hi : r.initMsn < n) :
    e ≤ firstListed r n e ∧ firstListed r n e < n ∧ (firstListed r n e ≤ r.initMsn ∨ firstListed r n e ≤ e + 2 ∨ (0 < r.limit ∧ r.limit ≤ n - firstListed r n e + 2)) ∧
      (0 < r.limit → n - firstListed r n e ≤ r.limit + 2) := by
  unfold firstListed
  rw [sub64_le (by omega) hn, hl]
  by_cases hc : r.limit ≠ 0 ∧ n - e > r.limit + 2
  · simp only [hc, ne_eq, not_false_eq_true, and_self, if_true, true_and]
    rw [sub64_le (show r.limit ≤ n by omega) hn, sub64_le (show n - r.limit ≤ n by omega) hn]
    have h1 := hc.1
    have h2 := hc.2
    generalize r.limit = L at *
    generalize r.initMsn = I at *
    split
    · refine ⟨?_, ?_, ?_, ?_⟩ <;> omega
    · refine ⟨?_, ?_, ?_, ?_⟩ <;> omega
  · rw [if_neg hc]
    simp only [true_and]
    rw [sub64_le (show e ≤ n by omega) hn]
    generalize r.limit = L at *
    generalize r.initMsn = I at *
    split
    · refine ⟨?_, ?_, ?_, ?_⟩ <;> omega
    · refine ⟨?_, ?_, ?_, ?_⟩ <;> omega

theorem skips_eq (r : Request) (target n c k : Nat) (hc : c < n) (hn : n < 2 ^ 32) (ht : target * 6 < 2 ^ 32) (h : skips r target n c = some k) :
    (r.skip = false → k = 0) ∧ (k = 0 ∨ n - (c + k) = 8) ∧ k < n - c := by
  unfold skips at h
  by_cases hs : r.skip = true
  · rw [if_pos hs] at h
    by_cases h0 : target = 0
    · rw [if_pos h0] at h; cases h
    · rw [if_neg h0] at h
      dsimp only at h
      rw [Nat.mod_eq_of_lt ht, Nat.mul_comm, Nat.mul_div_cancel _ (by omega), sub64_le (show c ≤ n by omega) (by omega)] at h
      cases h
      refine ⟨fun hh => absurd hh (by rw [hs]; decide), ?_, ?_⟩
      · split
        · rw [Nat.mod_eq_of_lt (by omega)]; omega
        · exact .inl rfl
      · split
        · rw [Nat.mod_eq_of_lt (by omega)]; omega
        · omega
  · rw [if_neg hs] at h
    cases h
    exact ⟨fun _ => rfl, .inl rfl, by omega⟩

end Verif.Hls
