import Verif.Stbl.Spec

/-! # Places of samples -/
namespace Verif.Stbl

theorem per_chunk (l : List (Nat × Nat)) (hs : (l.map Prod.fst).Pairwise (· < ·)) (i : Nat) (e : Nat × Nat) (he : l[i]? = some e) (c : Nat) (h1 : e.1 ≤ c)
    (h2 : ∀ f, l[i + 1]? = some f → c < f.1) : perChunk l c = e.2 := by
  induction l generalizing i with
  | nil => simp at he
  | cons x r ih =>
    rw [List.map_cons, List.pairwise_cons] at hs
    cases r with
    | nil =>
      cases i with
      | zero => simp at he; subst he; rfl
      | succ i => simp at he
    | cons y r =>
      unfold perChunk
      cases i with
      | zero =>
        simp at he; subst he
        rw [if_pos (h2 y (by simp))]
      | succ i =>
        rw [List.getElem?_cons_succ] at he
        have hy : y.1 ≤ e.1 := by
          cases i with
          | zero => simp at he; subst he; exact Nat.le_refl _
          | succ i =>
            rw [List.getElem?_cons_succ] at he
            have hp := hs.2
            rw [List.map_cons, List.pairwise_cons] at hp
            exact Nat.le_of_lt (hp.1 _ (List.mem_map_of_mem (List.mem_of_getElem? he)))
        rw [if_neg (by omega)]
        exact ih hs.2 i he fun f hf => h2 f (by rw [List.getElem?_cons_succ]; exact hf)

theorem before_succ (t : Tables) (c : Nat) : before t (c + 1) = before t c + perChunk t.stsc (c + 1) := by
  unfold before
  rw [List.range_succ, List.map_append, List.sum_append]
  simp

theorem before_mono (t : Tables) {a b : Nat} (h : a ≤ b) : before t a ≤ before t b := by
  obtain ⟨k, rfl⟩ : ∃ k, b = a + k := ⟨b - a, by omega⟩
  clear h
  induction k with
  | zero => exact Nat.le_refl _
  | succ k ih => rw [← Nat.add_assoc, before_succ]; omega

/-- In chunks with the same number of samples. -/
theorem before_run (t : Tables) (a n k : Nat) (h : ∀ c, a ≤ c → c < a + k → perChunk t.stsc (c + 1) = n) : before t (a + k) = before t a + k * n := by
  induction k with
  | zero => simp
  | succ k ih =>
    rw [← Nat.add_assoc, before_succ, ih fun c h1 h2 => h c h1 (by omega), h (a + k) (by omega) (by omega), Nat.succ_mul]
    omega

variable {t : Tables}

theorem per_pos (l : List (Nat × Nat)) (c : Nat) (hne : l ≠ []) (hall : ∀ e ∈ l, 0 < e.2) : 0 < perChunk l c := by
  induction l with
  | nil => exact absurd rfl hne
  | cons x r ih =>
    cases r with
    | nil => exact hall x (by simp)
    | cons y r =>
      unfold perChunk
      split
      · exact hall x (by simp)
      · exact ih (by simp) fun e he => hall e (by simp at he ⊢; exact .inr he)

/-- Every chunk has a sample. -/
theorem chunks_few (h : Sound t) : t.chunks.length < 2 ^ 31 := by
  have hall : ∀ n, n ≤ before t n := by
    intro n
    induction n with
    | zero => exact Nat.zero_le _
    | succ n ih =>
      rw [before_succ]
      obtain ⟨m, r, hr⟩ := h.first
      have := per_pos t.stsc (n + 1) (by rw [hr]; simp) fun e he => (h.inside e he).2
      omega
  have := hall t.chunks.length
  have := h.filled
  have := h.few
  omega

/-- The entry before which a lookup may start. -/
structure PosOk (t : Tables) (c : Cursor) : Prop where
  index : c.posIndex < t.stsc.length
  sample : ∀ e, t.stsc[c.posIndex]? = some e → 1 ≤ e.1 ∧ c.posSample = before t (e.1 - 1)

theorem first_pos (h : Sound t) {i : Nat} {e : Nat × Nat} (he : t.stsc[i]? = some e) : 1 ≤ e.1 := by
  obtain ⟨n, r, hr⟩ := h.first
  have ho := h.order
  rw [hr] at he ho
  cases i with
  | zero => simp at he; subst he; exact Nat.le_refl _
  | succ i =>
    rw [List.getElem?_cons_succ] at he
    rw [List.map_cons, List.pairwise_cons] at ho
    exact Nat.le_of_lt (ho.1 _ (List.mem_map_of_mem (List.mem_of_getElem? he)))

theorem firsts (h : Sound t) {i : Nat} {e f : Nat × Nat} (he : t.stsc[i]? = some e) (hf : t.stsc[i + 1]? = some f) : e.1 < f.1 := by
  obtain ⟨h1, rfl⟩ := List.getElem?_eq_some_iff.mp he
  obtain ⟨h2, rfl⟩ := List.getElem?_eq_some_iff.mp hf
  have := List.pairwise_iff_getElem.mp h.order i (i + 1) (by simpa using h1) (by simpa using h2) (by omega)
  simpa using this

theorem run_before (h : Sound t) {i : Nat} {e f : Nat × Nat} (he : t.stsc[i]? = some e) (hf : t.stsc[i + 1]? = some f) :
    before t (f.1 - 1) = before t (e.1 - 1) + (f.1 - e.1) * e.2 := by
  have h1 := first_pos h he
  have h2 := firsts h he hf
  have := before_run t (e.1 - 1) e.2 (f.1 - e.1) fun c hc hc' => per_chunk _ h.order i e he _ (by omega) fun g hg => by
    rw [hf] at hg; injection hg with hg; subst hg; omega
  rw [← this]; congr 1; omega

theorem pos_start (h : Sound t) (c : Cursor) (h1 : c.posIndex = 0) (h2 : c.posSample = 0) : PosOk t c := by
  obtain ⟨n, r, hr⟩ := h.first
  refine ⟨by rw [h1, hr]; simp, fun e he => ?_⟩
  rw [h1, hr] at he
  simp at he; subst he
  exact ⟨Nat.le_refl _, by rw [h2]; rfl⟩

/-- The loop stops at the entry of the sample. -/
theorem pos_loop (h : Sound t) (index : Nat) (hi : index < t.count) (k : Nat) (c : Cursor) (x : Nat × Nat) (hc : PosOk t c) (hle : c.posSample ≤ index)
    (hk : c.posIndex + k = t.stsc.length) :
    ∃ d e, posLoop t index k c x = (d, e) ∧ PosOk t d ∧ d.posSample ≤ index ∧ t.stsc[d.posIndex]? = some e ∧
      (∀ f, t.stsc[d.posIndex + 1]? = some f → index < before t (f.1 - 1)) ∧
      d = { c with posIndex := d.posIndex, posSample := d.posSample } := by
  induction k generalizing c x with
  | zero => have := hc.index; omega
  | succ k ih =>
    have hlt := hc.index
    have he : t.stsc[c.posIndex]? = some t.stsc[c.posIndex] := List.getElem?_eq_getElem hlt
    obtain ⟨e1, e2⟩ := hc.sample _ he
    unfold posLoop
    rw [List.getD_eq_getElem?_getD, he, Option.getD_some]
    dsimp only
    by_cases hn : c.posIndex + 1 < t.stsc.length
    · have hf : t.stsc[c.posIndex + 1]? = some t.stsc[c.posIndex + 1] := List.getElem?_eq_getElem hn
      have hrun := run_before h he hf
      have hlt2 := firsts h he hf
      have hin := h.inside _ (List.mem_of_getElem? hf)
      have hmono := before_mono t (show t.stsc[c.posIndex + 1].1 - 1 ≤ t.chunks.length by omega)
      have hcnt := h.few
      have hfil := h.filled
      have hch := chunks_few h
      have hx1 : (t.stsc[c.posIndex + 1].1 + 2 ^ 32 - t.stsc[c.posIndex].1) % 2 ^ 32 = t.stsc[c.posIndex + 1].1 - t.stsc[c.posIndex].1 := by
        rw [show t.stsc[c.posIndex + 1].1 + 2 ^ 32 - t.stsc[c.posIndex].1 = (t.stsc[c.posIndex + 1].1 - t.stsc[c.posIndex].1) + 2 ^ 32 by omega,
          Nat.add_mod_right, Nat.mod_eq_of_lt (by omega)]
      rw [if_pos hn, List.getD_eq_getElem?_getD, hf, Option.getD_some, hx1, Nat.mod_eq_of_lt (by omega)]
      have hnext : c.posSample + (t.stsc[c.posIndex + 1].1 - t.stsc[c.posIndex].1) * t.stsc[c.posIndex].2 = before t (t.stsc[c.posIndex + 1].1 - 1) := by
        rw [e2]; omega
      rw [hnext]
      by_cases hgt : before t (t.stsc[c.posIndex + 1].1 - 1) > index
      · rw [if_pos hgt]
        refine ⟨c, _, rfl, hc, hle, he, fun f hf' => ?_, rfl⟩
        rw [hf] at hf'; injection hf' with hf'; subst hf'; exact hgt
      · rw [if_neg hgt]
        obtain ⟨d, e, g1, g2, g3, g4, g5, g6⟩ := ih { c with posSample := before t (t.stsc[c.posIndex + 1].1 - 1), posIndex := c.posIndex + 1 } t.stsc[c.posIndex]
          ⟨hn, fun e he' => by
            rw [hf] at he'; injection he' with he'; subst he'
            exact ⟨by omega, rfl⟩⟩ (by show before t _ ≤ index; omega) (by show c.posIndex + 1 + k = _; omega)
        exact ⟨d, e, g1, g2, g3, g4, g5, g6⟩
    · rw [if_neg hn, if_pos (by omega)]
      refine ⟨c, _, rfl, hc, hle, he, fun f hf' => ?_, rfl⟩
      rw [List.getElem?_eq_none (by omega)] at hf'; cases hf'

theorem entry_size (h : Sound t) {n : Nat} (hn : n < t.count) : entrySize t n = size t n := by
  unfold entrySize size
  rw [if_neg (by omega)]
  rcases h.sized with hs | hs
  · rw [hs, if_pos rfl]
    split
    · rename_i h0; exact h0.symm
    · rfl
  · rw [hs]
    simp only [List.getD_eq_getElem?_getD, List.getElem?_nil, Option.getD_none, if_true]
    split
    · rename_i h0; exact h0
    · rfl

theorem sizes_succ (t : Tables) {a b : Nat} (h : a < b) : sizes t a b = size t a + sizes t (a + 1) b := by
  unfold sizes
  obtain ⟨k, hk⟩ : ∃ k, b - a = k + 1 := ⟨b - a - 1, by omega⟩
  rw [hk, List.range'_succ, List.map_cons, List.sum_cons, show b - (a + 1) = k by omega]

theorem sizes_add (t : Tables) {a b c : Nat} (h1 : a ≤ b) (h2 : b ≤ c) : sizes t a c = sizes t a b + sizes t b c := by
  obtain ⟨k, rfl⟩ : ∃ k, b = a + k := ⟨b - a, by omega⟩
  clear h1
  induction k generalizing a with
  | zero => simp [sizes]
  | succ k ih =>
    rw [sizes_succ t (show a < c by omega), sizes_succ t (show a < a + (k + 1) by omega)]
    have := ih (a := a + 1) (by omega)
    rw [show a + (k + 1) = a + 1 + k by omega, this]
    omega

theorem add_sizes (h : Sound t) (k j p : Nat) (hj : j + k ≤ t.count) (hp : p + sizes t j (j + k) < 2 ^ 64) : addSizes t k j p = p + sizes t j (j + k) := by
  induction k generalizing j p with
  | zero => simp [addSizes, sizes]
  | succ k ih =>
    have := sizes_succ t (show j < j + (k + 1) by omega)
    unfold addSizes
    rw [entry_size h (by omega), Nat.mod_eq_of_lt (by omega), ih (j + 1) _ (by omega) (by rw [show j + 1 + k = j + (k + 1) by omega]; omega),
      show j + 1 + k = j + (k + 1) by omega]
    omega

/-- The place of a sample, wherever the last lookup ended. -/
theorem get_pos (h : Sound t) (c : Cursor) (hc : PosOk t c) (index : Nat) (hi : index < t.count) (k p : Nat) (hk : t.chunks[k]? = some p)
    (h1 : before t k ≤ index) (h2 : index < before t (k + 1)) :
    (getPos t c index).2 = p + sizes t (before t k) index ∧ PosOk t (getPos t c index).1 ∧
      (getPos t c index).1 = { c with posIndex := (getPos t c index).1.posIndex, posSample := (getPos t c index).1.posSample } := by
  unfold getPos
  dsimp only
  have hc' : PosOk t (if index < c.posSample then { c with posIndex := 0, posSample := 0 } else c) ∧
      (if index < c.posSample then { c with posIndex := 0, posSample := 0 } else c).posSample ≤ index := by
    split
    · exact ⟨pos_start h _ rfl rfl, Nat.zero_le _⟩
    · exact ⟨hc, by omega⟩
  have hsame : (if index < c.posSample then { c with posIndex := 0, posSample := 0 } else c) =
      { c with posIndex := (if index < c.posSample then { c with posIndex := 0, posSample := 0 } else c).posIndex,
               posSample := (if index < c.posSample then { c with posIndex := 0, posSample := 0 } else c).posSample } := by
    split <;> rfl
  generalize (if index < c.posSample then ({ c with posIndex := 0, posSample := 0 } : Cursor) else c) = x at *
  obtain ⟨d, e, g1, g2, g3, g4, g5, g6⟩ := pos_loop h index hi (t.stsc.length - x.posIndex) x (0, 0) hc'.1 hc'.2 (by have := hc'.1.index; omega)
  rw [g1]
  dsimp only
  obtain ⟨e1, e2⟩ := g2.sample e g4
  have hin := h.inside e (List.mem_of_getElem? g4)
  have hkl := (List.getElem?_eq_some_iff.mp hk).1
  have hfew := h.few
  have hQ : ∀ n, index - d.posSample < n * e.2 → (index - d.posSample) / e.2 < n := fun n hn => (Nat.div_lt_iff_lt_mul hin.2).mpr hn
  have hdiv := Nat.div_add_mod (index - d.posSample) e.2
  have hmod := Nat.mod_lt (index - d.posSample) hin.2
  rw [Nat.mul_comm] at hdiv
  generalize (index - d.posSample) / e.2 = Q at *
  have hin2 : ∀ f, t.stsc[d.posIndex + 1]? = some f → e.1 - 1 + Q + 1 < f.1 := by
    intro f hf
    have hlt := g5 f hf
    rw [run_before h g4 hf, ← e2] at hlt
    have := hQ (f.1 - e.1) (by omega)
    have := firsts h g4 hf
    omega
  have hb : before t (e.1 - 1 + Q) = d.posSample + Q * e.2 := by
    rw [e2]
    refine before_run t (e.1 - 1) e.2 Q fun j hj1 hj2 => per_chunk _ h.order d.posIndex e g4 _ (by omega) fun f hf => ?_
    have := hin2 f hf
    omega
  have hnext : perChunk t.stsc (e.1 - 1 + Q + 1) = e.2 := per_chunk _ h.order d.posIndex e g4 _ (by omega) hin2
  have hbs := before_succ t (e.1 - 1 + Q)
  rw [hnext] at hbs
  have hchunk : e.1 - 1 + Q = k := by
    rcases Nat.lt_trichotomy (e.1 - 1 + Q) k with hlt | heq | hgt
    · have := before_mono t (show e.1 - 1 + Q + 1 ≤ k by omega)
      omega
    · exact heq
    · have := before_mono t (show k + 1 ≤ e.1 - 1 + Q by omega)
      omega
  have hch := chunks_few h
  have hf1 : (e.1 + 2 ^ 32 - 1) % 2 ^ 32 = e.1 - 1 := by
    rw [show e.1 + 2 ^ 32 - 1 = e.1 - 1 + 2 ^ 32 by omega, Nat.add_mod_right, Nat.mod_eq_of_lt (by omega)]
  rw [hf1, hchunk]
  have hst : d.posSample + (k - (e.1 - 1)) * e.2 = before t k := by
    rw [← hchunk, hb, show e.1 - 1 + Q - (e.1 - 1) = Q by omega]
  rw [hst]
  refine ⟨?_, g2, ?_⟩
  · rw [if_pos (by omega), List.getD_eq_getElem?_getD, hk, Option.getD_some]
    have hp := h.file k p hk
    have htot := h.total
    have h3 := sizes_add t (Nat.zero_le (before t k)) (show before t k ≤ t.count by omega)
    have h4 := sizes_add t h1 (show index ≤ t.count by omega)
    have hidx : before t k + (index - before t k) = index := by omega
    rw [add_sizes h _ _ _ (by omega) (by rw [hidx]; omega), hidx]
  · rw [g6, hsame]

end Verif.Stbl
