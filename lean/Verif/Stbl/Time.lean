import Verif.Stbl.Pos

/-! # Times, offsets and key frames of samples -/
namespace Verif.Stbl

/-- The numbers of samples of entries. -/
def counts {α : Type} (l : List (Nat × α)) : Nat := (l.map Prod.fst).sum

/-- The table, sample by sample. -/
def expand {α : Type} (l : List (Nat × α)) : List α := l.flatMap fun e => List.replicate e.1 e.2

theorem expand_length {α : Type} (l : List (Nat × α)) : (expand l).length = counts l := by
  induction l with
  | nil => rfl
  | cons e r ih =>
    unfold expand counts at *
    rw [List.flatMap_cons, List.length_append, List.length_replicate, ih, List.map_cons, List.sum_cons]

theorem counts_succ {α : Type} (l : List (Nat × α)) (i : Nat) (e : Nat × α) (he : l[i]? = some e) : counts (l.take (i + 1)) = counts (l.take i) + e.1 := by
  obtain ⟨h1, rfl⟩ := List.getElem?_eq_some_iff.mp he
  unfold counts
  rw [List.take_succ_eq_append_getElem h1, List.map_append, List.sum_append]
  simp only [List.map_cons, List.map_nil, List.sum_cons, List.sum_nil, Nat.add_zero]

theorem expand_at {α : Type} (l : List (Nat × α)) (i : Nat) (e : Nat × α) (he : l[i]? = some e) (j : Nat) (h1 : counts (l.take i) ≤ j)
    (h2 : j < counts (l.take i) + e.1) : (expand l)[j]? = some e.2 := by
  induction l generalizing i j with
  | nil => simp at he
  | cons x r ih =>
    unfold expand
    rw [List.flatMap_cons]
    cases i with
    | zero =>
      simp at he; subst he
      rw [List.take_zero] at h1 h2
      simp only [counts, List.map_nil, List.sum_nil] at h1 h2
      rw [List.getElem?_append_left (by simp; omega), List.getElem?_replicate, if_pos (by omega)]
    | succ i =>
      rw [List.getElem?_cons_succ] at he
      rw [List.take_succ_cons] at h1 h2
      have e1 : counts (x :: r.take i) = x.1 + counts (r.take i) := rfl
      rw [e1] at h1 h2
      rw [List.getElem?_append_right (by simp; omega), List.length_replicate]
      exact ih i he (j - x.1) (by omega) (by omega)

theorem take_same {α : Type} (l : List α) (x : α) (s k : Nat) (h : ∀ j, s ≤ j → j < s + k → l[j]? = some x) : l.take (s + k) = l.take s ++ List.replicate k x := by
  induction k with
  | zero => simp
  | succ k ih =>
    have h1 := h (s + k) (by omega) (by omega)
    obtain ⟨h2, h3⟩ := List.getElem?_eq_some_iff.mp h1
    rw [← Nat.add_assoc, List.take_succ_eq_append_getElem h2, ih fun j a b => h j a (by omega), h3, List.replicate_succ', List.append_assoc]

/-! ## Times

The step of the clock is any function here: with its numbers of 64 bits, comparing terms is slow. -/

section clock

/-- The clock after the durations of some samples. -/
def clockOf (f : Nat × Nat → Nat → Nat × Nat) (ds : List Nat) : Nat × Nat := ds.foldl f (0, 0)

theorem clock_snoc (f : Nat × Nat → Nat → Nat × Nat) (ds : List Nat) (x : Nat) : clockOf f (ds ++ [x]) = f (clockOf f ds) x := by
  unfold clockOf; rw [List.foldl_append]; rfl

/-- `advance`. -/
def adv (f : Nat × Nat → Nat → Nat × Nat) (delta : Nat) : Nat → Cursor → Cursor
  | 0, c => c
  | k + 1, c =>
    let s := f (c.timeTotal, c.timeExtra) delta
    adv f delta k { c with timeTotal := s.1, timeExtra := s.2, timeSample := c.timeSample + 1 }

/-- `timeLoop`. -/
def loopOf (f : Nat × Nat → Nat → Nat × Nat) (stts : List (Nat × Nat)) (index : Nat) : Nat → Cursor → Nat × Nat → Cursor × (Nat × Nat)
  | 0, c, e => (c, e)
  | k + 1, c, _ =>
    let e := stts.getD c.timeIndex (0, 0)
    let next := c.timeFirst + e.1
    if next > index then (c, e) else
    let c := adv f e.2 (next - c.timeSample) { c with timeFirst := next }
    loopOf f stts index k { c with timeIndex := c.timeIndex + 1 } e

/-- Where a lookup of a time may start. -/
structure OkOf (f : Nat × Nat → Nat → Nat × Nat) (stts : List (Nat × Nat)) (c : Cursor) : Prop where
  index : c.timeIndex ≤ stts.length
  first : c.timeFirst = counts (stts.take c.timeIndex)
  sample : c.timeFirst ≤ c.timeSample
  clock : (c.timeTotal, c.timeExtra) = clockOf f ((expand stts).take c.timeSample)

variable {f : Nat × Nat → Nat → Nat × Nat} {stts : List (Nat × Nat)}

theorem adv_eq (x k : Nat) (c : Cursor) (l : List Nat) (h : (c.timeTotal, c.timeExtra) = clockOf f l) :
    adv f x k c = { c with timeSample := c.timeSample + k, timeTotal := (clockOf f (l ++ List.replicate k x)).1, timeExtra := (clockOf f (l ++ List.replicate k x)).2 } := by
  induction k generalizing c l with
  | zero => simp only [adv, List.replicate_zero, List.append_nil, ← h, Nat.add_zero]
  | succ k ih =>
    unfold adv
    dsimp only
    rw [ih _ (l ++ [x]) (by dsimp only; rw [clock_snoc, ← h])]
    dsimp only
    rw [List.replicate_succ, List.append_assoc, List.singleton_append, show c.timeSample + 1 + k = c.timeSample + (k + 1) by omega]

theorem time_adv (c : Cursor) (hc : OkOf f stts c) (e : Nat × Nat) (he : stts[c.timeIndex]? = some e) (k : Nat)
    (hk : k = 0 ∨ c.timeSample + k ≤ c.timeFirst + e.1) (v : Nat) :
    adv f e.2 k { c with timeFirst := v } = { c with
      timeFirst := v
      timeSample := c.timeSample + k
      timeTotal := (clockOf f ((expand stts).take (c.timeSample + k))).1
      timeExtra := (clockOf f ((expand stts).take (c.timeSample + k))).2 } := by
  rw [adv_eq e.2 k { c with timeFirst := v } _ hc.clock]
  have := take_same (expand stts) e.2 c.timeSample k fun j h1 h2 =>
    expand_at stts c.timeIndex e he j (by rw [← hc.first]; have := hc.sample; omega) (by rw [← hc.first]; omega)
  rw [this]

/-- The loop stops at the entry of the sample. -/
theorem time_loop (index : Nat) (hi : index < (expand stts).length) (k : Nat) (c : Cursor) (x : Nat × Nat) (hc : OkOf f stts c) (hle : c.timeSample ≤ index)
    (hk : c.timeIndex + k = stts.length) :
    ∃ d e, loopOf f stts index k c x = (d, e) ∧ OkOf f stts d ∧ d.timeSample ≤ index ∧ stts[d.timeIndex]? = some e ∧ index < d.timeFirst + e.1 ∧
      d = { c with timeIndex := d.timeIndex, timeFirst := d.timeFirst, timeSample := d.timeSample, timeTotal := d.timeTotal, timeExtra := d.timeExtra } := by
  induction k generalizing c x with
  | zero =>
    have h1 := hc.first
    have h2 := hc.sample
    rw [show c.timeIndex = stts.length by omega, List.take_length] at h1
    rw [expand_length] at hi
    omega
  | succ k ih =>
    have he : stts[c.timeIndex]? = some stts[c.timeIndex] := List.getElem?_eq_getElem (by omega)
    unfold loopOf
    rw [List.getD_eq_getElem?_getD, he, Option.getD_some]
    dsimp only
    by_cases hgt : c.timeFirst + stts[c.timeIndex].1 > index
    · rw [if_pos hgt]
      exact ⟨c, _, rfl, hc, hle, he, hgt, rfl⟩
    · rw [if_neg hgt, time_adv c hc _ he (c.timeFirst + stts[c.timeIndex].1 - c.timeSample) (by omega)]
      have hmax : c.timeSample + (c.timeFirst + stts[c.timeIndex].1 - c.timeSample) ≤ index := by omega
      have hmin : c.timeFirst + stts[c.timeIndex].1 ≤ c.timeSample + (c.timeFirst + stts[c.timeIndex].1 - c.timeSample) := by omega
      generalize c.timeSample + (c.timeFirst + stts[c.timeIndex].1 - c.timeSample) = n at *
      dsimp only
      obtain ⟨d, e, g1, g2, g3, g4, g5, g6⟩ := ih { c with
        timeSample := n, timeTotal := (clockOf f ((expand stts).take n)).1, timeExtra := (clockOf f ((expand stts).take n)).2,
        timeFirst := c.timeFirst + stts[c.timeIndex].1, timeIndex := c.timeIndex + 1 } stts[c.timeIndex]
        ⟨by show c.timeIndex + 1 ≤ _; omega, by show c.timeFirst + _ = counts (stts.take (c.timeIndex + 1)); rw [counts_succ _ _ _ he, ← hc.first],
          hmin, rfl⟩ hmax (by show c.timeIndex + 1 + k = _; omega)
      exact ⟨d, e, g1, g2, g3, g4, g5, g6⟩

theorem time_start (c : Cursor) (h1 : c.timeIndex = 0) (h2 : c.timeFirst = 0) (h3 : c.timeSample = 0) (h4 : c.timeTotal = 0) (h5 : c.timeExtra = 0) :
    OkOf f stts c :=
  ⟨by omega, by rw [h1, h2]; rfl, by omega, by rw [h3, h4, h5]; rfl⟩

/-- The cursor of `getTime`. -/
def cursorOf (f : Nat × Nat → Nat → Nat × Nat) (stts : List (Nat × Nat)) (c : Cursor) (index : Nat) : Cursor :=
  let c := if index < c.timeSample then { c with timeIndex := 0, timeFirst := 0, timeSample := 0, timeExtra := 0, timeTotal := 0 } else c
  let r := loopOf f stts index (stts.length - c.timeIndex) c (0, 0)
  adv f r.2.2 (index - r.1.timeSample) r.1

theorem cursor_of (c : Cursor) (hc : OkOf f stts c) (index : Nat) (hi : index < (expand stts).length) :
    (cursorOf f stts c index).timeTotal = (clockOf f ((expand stts).take index)).1 ∧ OkOf f stts (cursorOf f stts c index) ∧
      cursorOf f stts c index = { c with
        timeIndex := (cursorOf f stts c index).timeIndex, timeFirst := (cursorOf f stts c index).timeFirst, timeSample := (cursorOf f stts c index).timeSample,
        timeTotal := (cursorOf f stts c index).timeTotal, timeExtra := (cursorOf f stts c index).timeExtra } := by
  unfold cursorOf
  dsimp only
  have hc' : OkOf f stts (if index < c.timeSample then { c with timeIndex := 0, timeFirst := 0, timeSample := 0, timeExtra := 0, timeTotal := 0 } else c) ∧
      (if index < c.timeSample then { c with timeIndex := 0, timeFirst := 0, timeSample := 0, timeExtra := 0, timeTotal := 0 } else c).timeSample ≤ index := by
    split
    · exact ⟨time_start _ rfl rfl rfl rfl rfl, Nat.zero_le _⟩
    · exact ⟨hc, by omega⟩
  have hsame : ∃ a b d e f, (if index < c.timeSample then { c with timeIndex := 0, timeFirst := 0, timeSample := 0, timeExtra := 0, timeTotal := 0 } else c) =
      { c with timeIndex := a, timeFirst := b, timeSample := d, timeTotal := e, timeExtra := f } := by
    split
    · exact ⟨_, _, _, _, _, rfl⟩
    · exact ⟨_, _, _, _, _, rfl⟩
  generalize (if index < c.timeSample then ({ c with timeIndex := 0, timeFirst := 0, timeSample := 0, timeExtra := 0, timeTotal := 0 } : Cursor) else c) = x at *
  obtain ⟨d, e, g1, g2, g3, g4, g5, g6⟩ := time_loop index hi (stts.length - x.timeIndex) x (0, 0) hc'.1 hc'.2 (by have := hc'.1.index; omega)
  rw [g1]
  dsimp only
  rw [show d = { d with timeFirst := d.timeFirst } from rfl, time_adv d g2 e g4 (index - d.timeSample) (by omega)]
  dsimp only
  rw [show d.timeSample + (index - d.timeSample) = index by omega]
  refine ⟨rfl, ⟨g2.index, g2.first, ?_, rfl⟩, ?_⟩
  · have := g2.sample
    show d.timeFirst ≤ index
    omega
  · obtain ⟨a1, a2, a3, a4, a5, hx⟩ := hsame
    rw [g6, hx]

end clock

theorem advance_adv (scale delta k : Nat) (c : Cursor) : advance scale delta k c = adv (increase scale) delta k c := by
  induction k generalizing c with
  | zero => rfl
  | succ k ih => exact ih _

theorem loop_of (t : Tables) (index k : Nat) (c : Cursor) (e : Nat × Nat) : timeLoop t index k c e = loopOf (increase t.scale) t.stts index k c e := by
  induction k generalizing c e with
  | zero => rfl
  | succ k ih => unfold timeLoop loopOf; simp only [advance_adv, ih]

/-- The clock after the durations of some samples. -/
def clock (scale : Nat) (ds : List Nat) : Nat × Nat := clockOf (increase scale) ds

/-- Where a lookup of a time may start. -/
def TimeOk (t : Tables) (c : Cursor) : Prop := OkOf (increase t.scale) t.stts c

variable {t : Tables}

/-- The time of a sample, wherever the last lookup ended. -/
theorem get_time (c : Cursor) (hc : TimeOk t c) (index : Nat) (hi : index < (durations t).length) :
    (getTime t c index).2 = millis t.scale (clock t.scale ((durations t).take index)).1 ∧ TimeOk t (getTime t c index).1 ∧
      (getTime t c index).1 = { c with
        timeIndex := (getTime t c index).1.timeIndex, timeFirst := (getTime t c index).1.timeFirst, timeSample := (getTime t c index).1.timeSample,
        timeTotal := (getTime t c index).1.timeTotal, timeExtra := (getTime t c index).1.timeExtra } := by
  have e : getTime t c index = (cursorOf (increase t.scale) t.stts c index, millis t.scale (cursorOf (increase t.scale) t.stts c index).timeTotal) := by
    unfold getTime cursorOf
    simp only [advance_adv, loop_of]
  obtain ⟨g1, g2, g3⟩ := cursor_of c hc index hi
  rw [e]
  exact ⟨congrArg (millis t.scale) g1, g2, g3⟩

/-! ## Offsets -/

/-- Where a lookup of an offset may start. -/
structure OffOk (l : List (Nat × Int)) (c : Cursor) : Prop where
  index : c.offIndex ≤ l.length
  sample : c.offSample = counts (l.take c.offIndex)

theorem off_loop (l : List (Nat × Int)) (index : Nat) (hi : index < (expand l).length) (k : Nat) (c : Cursor) (x : Nat × Int) (hc : OffOk l c) (hle : c.offSample ≤ index)
    (hk : c.offIndex + k = l.length) :
    ∃ d e, offLoop l index k c x = (d, e) ∧ OffOk l d ∧ (expand l)[index]? = some e.2 ∧
      d = { c with offIndex := d.offIndex, offSample := d.offSample } := by
  induction k generalizing c x with
  | zero =>
    have h1 := hc.sample
    rw [show c.offIndex = l.length by omega, List.take_length] at h1
    rw [expand_length] at hi
    omega
  | succ k ih =>
    have he : l[c.offIndex]? = some l[c.offIndex] := List.getElem?_eq_getElem (by omega)
    unfold offLoop
    rw [List.getD_eq_getElem?_getD, he, Option.getD_some]
    dsimp only
    by_cases hgt : c.offSample + l[c.offIndex].1 > index
    · rw [if_pos hgt]
      exact ⟨c, _, rfl, hc, expand_at l _ _ he index (by rw [← hc.sample]; exact hle) (by rw [← hc.sample]; exact hgt), rfl⟩
    · rw [if_neg hgt]
      obtain ⟨d, e, g1, g2, g3, g4⟩ := ih { c with offSample := c.offSample + l[c.offIndex].1, offIndex := c.offIndex + 1 } l[c.offIndex]
        ⟨by show c.offIndex + 1 ≤ _; omega, by show c.offSample + _ = counts (l.take (c.offIndex + 1)); rw [counts_succ _ _ _ he, ← hc.sample]⟩
        (by show c.offSample + _ ≤ index; omega) (by show c.offIndex + 1 + k = _; omega)
      exact ⟨d, e, g1, g2, g3, g4⟩

/-- The offset of a sample, wherever the last lookup ended. -/
theorem get_offset (c : Cursor) (hc : ∀ l, t.ctts = some l → OffOk l c) (index : Nat) (hs : (offsets t).length = t.count) (hi : index < t.count) :
    ∃ x, (offsets t)[index]? = some x ∧ (getOffset t c index).2 = (if t.ctts = none then 0 else offMillis t.scale x) ∧ (t.ctts = none → x = 0) ∧
      (∀ l, t.ctts = some l → OffOk l (getOffset t c index).1) ∧
      (getOffset t c index).1 = { c with offIndex := (getOffset t c index).1.offIndex, offSample := (getOffset t c index).1.offSample } := by
  unfold getOffset offsets at *
  cases hl : t.ctts with
  | none =>
    refine ⟨0, ?_, ?_, fun _ => rfl, (fun l h => by cases h), rfl⟩
    · dsimp only; rw [List.getElem?_replicate, if_pos hi]
    · simp
  | some l =>
    rw [hl] at hs
    dsimp only at hs ⊢
    have hc := hc l hl
    have hc' : OffOk l (if index < c.offSample then { c with offIndex := 0, offSample := 0 } else c) ∧
        (if index < c.offSample then { c with offIndex := 0, offSample := 0 } else c).offSample ≤ index := by
      split
      · exact ⟨⟨Nat.zero_le _, rfl⟩, Nat.zero_le _⟩
      · exact ⟨hc, by omega⟩
    have hsame : ∃ a b, (if index < c.offSample then { c with offIndex := 0, offSample := 0 } else c) = { c with offIndex := a, offSample := b } := by
      split
      · exact ⟨_, _, rfl⟩
      · exact ⟨_, _, rfl⟩
    generalize (if index < c.offSample then ({ c with offIndex := 0, offSample := 0 } : Cursor) else c) = x at *
    obtain ⟨d, e, g1, g2, g3, g4⟩ := off_loop l index (by unfold expand; omega) (l.length - x.offIndex) x (0, 0) hc'.1 hc'.2 (by have := hc'.1.index; omega)
    rw [g1]
    dsimp only
    refine ⟨e.2, g3, by simp, by simp, fun l' h' => ?_, ?_⟩
    · cases h'; exact g2
    · obtain ⟨a1, a2, hx⟩ := hsame
      rw [g4, hx]

/-! ## Key frames -/

/-- Where a lookup of a key frame may start. -/
structure KeyOk (l : List Nat) (c : Cursor) : Prop where
  index : c.keyIndex < l.length
  sample : ∀ x, l[c.keyIndex]? = some x → c.keySample + 1 = x

theorem key_loop (l : List Nat) (count index : Nat) (hp : l.Pairwise (· < ·)) (hin : ∀ x ∈ l, x ≤ count) (h31 : count < 2 ^ 31) (hi : index < count) (k : Nat) (c : Cursor)
    (hc : KeyOk l c) (hle : c.keySample ≤ index) (hk : c.keyIndex + k = l.length) :
    KeyOk l (keyLoop l count index k c) ∧ (keyLoop l count index k c).keySample ≤ index ∧
      (∀ x, l[(keyLoop l count index k c).keyIndex + 1]? = some x → index < x - 1) ∧
      keyLoop l count index k c = { c with keyIndex := (keyLoop l count index k c).keyIndex, keySample := (keyLoop l count index k c).keySample } := by
  induction k generalizing c with
  | zero => have := hc.index; omega
  | succ k ih =>
    unfold keyLoop
    dsimp only
    by_cases hn : c.keyIndex + 1 < l.length
    · have hf : l[c.keyIndex + 1]? = some l[c.keyIndex + 1] := List.getElem?_eq_getElem hn
      have hpos : 0 < l[c.keyIndex + 1] := by
        have := List.pairwise_iff_getElem.mp hp c.keyIndex (c.keyIndex + 1) (by omega) hn (by omega)
        omega
      have hx := hin _ (List.mem_of_getElem? hf)
      have hsub : (l[c.keyIndex + 1] + 2 ^ 32 - 1) % 2 ^ 32 = l[c.keyIndex + 1] - 1 := by
        rw [show l[c.keyIndex + 1] + 2 ^ 32 - 1 = l[c.keyIndex + 1] - 1 + 2 ^ 32 by omega, Nat.add_mod_right, Nat.mod_eq_of_lt (by omega)]
      rw [if_pos hn, List.getD_eq_getElem?_getD, hf, Option.getD_some, hsub]
      by_cases hgt : l[c.keyIndex + 1] - 1 > index
      · rw [if_pos hgt]
        refine ⟨hc, hle, fun x hx => ?_, rfl⟩
        rw [hf] at hx; rw [← Option.some.inj hx]; exact hgt
      · rw [if_neg hgt]
        exact ih { c with keySample := l[c.keyIndex + 1] - 1, keyIndex := c.keyIndex + 1 } ⟨hn, fun x hx => by
          rw [hf] at hx; rw [← Option.some.inj hx]; show _ - 1 + 1 = _; omega⟩ (by show _ - 1 ≤ _; omega) (by show c.keyIndex + 1 + k = _; omega)
    · rw [if_neg hn, if_pos (by omega)]
      refine ⟨hc, hle, fun x hx => ?_, rfl⟩
      rw [List.getElem?_eq_none (by omega)] at hx; cases hx

/-- Whether a sample is a key frame, wherever the last lookup ended. -/
theorem get_key (h : Sound t) (c : Cursor) (hc : ∀ l, t.stss = some l → KeyOk l c) (index : Nat) (hi : index < t.count) :
    ((getKey t c index).2 = true ↔ t.video = true ∧ isSync t index) ∧ (∀ l, t.stss = some l → KeyOk l (getKey t c index).1) ∧
      (getKey t c index).1 = { c with keyIndex := (getKey t c index).1.keyIndex, keySample := (getKey t c index).1.keySample } := by
  unfold getKey
  cases hv : t.video with
  | false => exact ⟨by simp, hc, rfl⟩
  | true =>
    simp only [Bool.true_eq_false, if_false]
    unfold isSync
    cases hl : t.stss with
    | none => exact ⟨by simp, (fun l h => by cases h), rfl⟩
    | some l =>
      dsimp only
      obtain ⟨⟨r, hr⟩, hp, hin⟩ := h.keys l hl
      have hc := hc l hl
      have hc' : KeyOk l (if index < c.keySample then { c with keyIndex := 0, keySample := 0 } else c) ∧
          (if index < c.keySample then { c with keyIndex := 0, keySample := 0 } else c).keySample ≤ index := by
        split
        · refine ⟨⟨?_, fun x hx => ?_⟩, Nat.zero_le _⟩
          · show 0 < l.length; rw [hr]; simp
          · rw [hr] at hx; simp at hx; subst hx; rfl
        · exact ⟨hc, by omega⟩
      have hsame : ∃ a b, (if index < c.keySample then { c with keyIndex := 0, keySample := 0 } else c) = { c with keyIndex := a, keySample := b } := by
        split
        · exact ⟨_, _, rfl⟩
        · exact ⟨_, _, rfl⟩
      generalize (if index < c.keySample then ({ c with keyIndex := 0, keySample := 0 } : Cursor) else c) = x at *
      obtain ⟨g1, g2, g3, g4⟩ := key_loop l t.count index hp hin h.few hi (l.length - x.keyIndex) x hc'.1 hc'.2 (by have := hc'.1.index; omega)
      generalize keyLoop l t.count index (l.length - x.keyIndex) x = d at *
      have hlt := g1.index
      have hd : l[d.keyIndex]? = some l[d.keyIndex] := List.getElem?_eq_getElem hlt
      have hs := g1.sample _ hd
      refine ⟨?_, fun l' h' => by cases h'; exact g1, ?_⟩
      · simp only [beq_iff_eq, true_and]
        constructor
        · intro heq
          rw [← heq, hs]
          exact List.mem_of_getElem? hd
        · intro hm
          obtain ⟨j, hj, hje⟩ := List.mem_iff_getElem.mp hm
          rcases Nat.lt_trichotomy j d.keyIndex with hlt | heq | hgt
          · have := List.pairwise_iff_getElem.mp hp j d.keyIndex hj g1.index hlt
            omega
          · subst heq; omega
          · have hn : d.keyIndex + 1 < l.length := by omega
            have h5 := g3 _ (List.getElem?_eq_getElem hn)
            by_cases he : d.keyIndex + 1 = j
            · subst he; omega
            · have := List.pairwise_iff_getElem.mp hp (d.keyIndex + 1) j hn hj (by omega)
              omega
      · obtain ⟨a1, a2, hx⟩ := hsame
        rw [g4, hx]

end Verif.Stbl
