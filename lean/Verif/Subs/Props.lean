import Verif.Subs.Lemmas

/-!
# C110: subtitle files are read and written as their format says
-/

namespace Verif.Subs
open Verif Verif.Subs.Spec

/-- **C110 (reading), partial.** A SubRip file gives one packet per subtitle, in order, with its number, start, duration
and text. Missing: WebVTT files (`C110_vtt_fails`), files whose last subtitle has no empty line after it
(`C110_last_fails`), several empty lines (`C110_blank_fails`), lines that end in carriage returns (`C110_crlf_fails`), and
texts whose first line has one byte (`C110_short_fails`). -/
theorem C110_read_partial (l : List (Cue × Bytes)) (h : ∀ p ∈ l, Written p.1 p.2 ∧ Readable p.1) :
    readFile (l.map (·.2)).flatten = l.map (fun p => packet p.1) := by
  induction l with
  | nil => rfl
  | cons p t ih =>
    have hp := h p (List.mem_cons_self ..)
    simp only [List.map_cons, List.flatten_cons]
    rw [read_cue p.1 p.2 _ hp.1 hp.2, ih (fun q hq => h q (List.mem_cons_of_mem _ hq))]

theorem dropWhile_head (q : UInt8 → Bool) (l : Bytes) : ∀ c, (l.dropWhile q).head? = some c → q c = false := by
  induction l with
  | nil => simp
  | cons x t ih =>
    intro c hc
    by_cases hx : q x = true
    · rw [List.dropWhile_cons_of_pos hx] at hc
      exact ih c hc
    · rw [List.dropWhile_cons_of_neg hx] at hc
      simp only [List.head?_cons, Option.some.injEq] at hc
      rw [← hc]
      simpa using hx

theorem trimEnd_spec (d : Bytes) : ∃ k, d = trimEnd d ++ List.replicate k 0x0A ∧ (trimEnd d).getLast? ≠ some 0x0A := by
  unfold trimEnd
  refine ⟨(d.reverse.takeWhile (· == 0x0A)).length, ?_, ?_⟩
  · have h1 : d.reverse = d.reverse.takeWhile (· == 0x0A) ++ d.reverse.dropWhile (· == 0x0A) := (List.takeWhile_append_dropWhile ..).symm
    have h2 : d.reverse.takeWhile (· == 0x0A) = List.replicate (d.reverse.takeWhile (· == 0x0A)).length 0x0A := by
      rw [List.eq_replicate_iff]
      refine ⟨rfl, ?_⟩
      intro b hb
      have := List.all_takeWhile (p := fun c : UInt8 => c == 0x0A) (l := d.reverse)
      rw [List.all_eq_true] at this
      simpa using this b hb
    have h3 := congrArg List.reverse h1
    rw [List.reverse_reverse, List.reverse_append, h2] at h3
    simpa using h3
  · rw [List.getLast?_reverse]
    intro h
    have := dropWhile_head (· == 0x0A) d.reverse _ h
    simp at this

theorem sendNext_block (vtt : Bool) (num : Nat) (p : Sub) (h : hasText p = true) :
    Block vtt num p (sendNext vtt num p).1 ∧ (sendNext vtt num p).2 = if vtt then num else num + 1 := by
  have hne : ¬ (p.data = [] ∨ p.data = [0x20]) := by
    unfold hasText at h
    simpa using h
  obtain ⟨k, h1, h2⟩ := trimEnd_spec p.data
  have hend : endTime p = stops p := by
    unfold endTime stops
    split <;> rfl
  simp only [sendNext, hne, if_false]
  exact ⟨⟨dec num, timeText p.time, timeText (stops p), trimEnd p.data, k, dec_decimal num, timeText_time _, timeText_time _, h1, h2, by rw [hend]⟩, trivial⟩

theorem sendNext_none (vtt : Bool) (num : Nat) (p : Sub) (h : hasText p = false) : sendNext vtt num p = ([], num) := by
  have hne : p.data = [] ∨ p.data = [0x20] := by
    unfold hasText at h
    simp only [Bool.not_eq_false', Bool.or_eq_true, beq_iff_eq] at h
    exact h
  simp [sendNext, hne]

theorem sendAll_blocks (vtt : Bool) (f t num : Nat) (l : List Sub) :
    ∃ txts : List Bytes, sendAll vtt f t num l = txts.flatten ∧ txts.length = ((asked f t l).filter hasText).length
      ∧ ∀ (i : Nat) p txt, ((asked f t l).filter hasText)[i]? = some p → txts[i]? = some txt → Block vtt (if vtt then num else num + i) p txt := by
  induction l generalizing num with
  | nil => exact ⟨[], by simp [sendAll, asked]⟩
  | cons p rest ih =>
    by_cases hstop : 0 < t ∧ t < p.time ∧ f < t
    · refine ⟨[], ?_⟩
      have ha : asked f t (p :: rest) = [] := by
        unfold asked
        have : ¬ p.time ≤ t := by omega
        simp [hstop, this]
      simp [sendAll, hstop, ha]
    · have ha : asked f t (p :: rest) = p :: asked f t rest := by
        unfold asked
        by_cases hc : 0 < t ∧ f < t
        · have : p.time ≤ t := by omega
          simp [hc, this]
        · simp [hc]
      simp only [sendAll, hstop, if_false, ha]
      cases hp : hasText p with
      | false =>
        rw [sendNext_none vtt num p hp]
        obtain ⟨txts, h1, h2, h3⟩ := ih num
        exact ⟨txts, by simpa using h1, by simpa [hp] using h2, by simpa [hp] using h3⟩
      | true =>
        obtain ⟨hb, hn⟩ := sendNext_block vtt num p hp
        rw [hn]
        obtain ⟨txts, h1, h2, h3⟩ := ih (if vtt then num else num + 1)
        refine ⟨(sendNext vtt num p).1 :: txts, by rw [h1]; rfl, by simp [hp, h2], ?_⟩
        intro i q txt hq ht
        simp only [List.filter_cons, hp, if_true] at hq
        cases i with
        | zero =>
          simp only [List.getElem?_cons_zero, Option.some.injEq] at hq ht
          subst hq; subst ht
          cases vtt <;> simpa using hb
        | succ i =>
          simp only [List.getElem?_cons_succ] at hq ht
          have := h3 i q txt hq ht
          cases vtt with
          | true => simpa using this
          | false =>
            simp only [Bool.false_eq_true, if_false] at this ⊢
            rw [show num + (i + 1) = num + 1 + i by omega]
            exact this

/-- **C110 (WebVTT), partial.** The WebVTT response starts with its header and has, for every packet with text that was
asked for and in order, one block with its times and its text. Missing: a text with an empty line in it ends the block
early (`C110_inject_fails`). -/
theorem C110_webvtt_partial (f t : Nat) (l : List Sub) :
    ∃ txts : List Bytes, response true f t l = [0x57, 0x45, 0x42, 0x56, 0x54, 0x54, 0x0A, 0x0A] ++ txts.flatten
      ∧ txts.length = ((asked f t l).filter hasText).length
      ∧ ∀ (i : Nat) p txt, ((asked f t l).filter hasText)[i]? = some p → txts[i]? = some txt → Block true i p txt := by
  obtain ⟨txts, h1, h2, h3⟩ := sendAll_blocks true f t 0 l
  refine ⟨txts, by unfold response; rw [h1]; rfl, h2, ?_⟩
  intro i p txt hp ht
  obtain ⟨_, a, b, body, k, _, h⟩ := h3 i p txt hp ht
  exact ⟨dec i, a, b, body, k, dec_decimal i, h⟩

/-- **C110 (SubRip), partial.** The SubRip response has, for every packet with text that was asked for and in order, one
block, with numbers from 0 up, its times and its text. Missing: the times have periods where the format has commas, so
that such a file is not read again (`C110_dot_fails`). -/
theorem C110_subrip_partial (f t : Nat) (l : List Sub) :
    ∃ txts : List Bytes, response false f t l = txts.flatten
      ∧ txts.length = ((asked f t l).filter hasText).length
      ∧ ∀ (i : Nat) p txt, ((asked f t l).filter hasText)[i]? = some p → txts[i]? = some txt → Block false i p txt := by
  obtain ⟨txts, h1, h2, h3⟩ := sendAll_blocks false f t 0 l
  refine ⟨txts, by unfold response; rw [h1]; rfl, h2, ?_⟩
  intro i p txt hp ht
  have := h3 i p txt hp ht
  simpa using this

/-- **C110 (range).** When the packets come in order of time, a response for an end asked for is that for just the
packets up to it. -/
theorem C110_until (vtt : Bool) (f t : Nat) (l : List Sub) (hs : l.Pairwise (fun p q => p.time ≤ q.time)) (ht : 0 < t) (hf : f < t) :
    response vtt f t l = response vtt 0 0 (l.filter (fun p => p.time ≤ t)) := by
  have key : ∀ num, sendAll vtt f t num l = sendAll vtt 0 0 num (l.filter (fun p => p.time ≤ t)) := by
    induction l with
    | nil => intro num; rfl
    | cons p r ih =>
      intro num
      rw [List.pairwise_cons] at hs
      by_cases h : p.time ≤ t
      · have h1 : ¬ (0 < t ∧ t < p.time ∧ f < t) := by omega
        simp only [List.filter_cons, h, decide_true, if_true, sendAll, h1, if_false, Nat.lt_irrefl, false_and]
        rw [ih hs.2]
      · have h1 : 0 < t ∧ t < p.time ∧ f < t := by omega
        have h2 : (p :: r).filter (fun p => decide (p.time ≤ t)) = [] := by
          rw [List.filter_eq_nil_iff]
          intro q hq
          simp only [decide_eq_true_eq]
          rcases List.mem_cons.1 hq with rfl | hq
          · exact h
          · have := hs.1 q hq
            omega
        rw [h2]
        simp only [sendAll, h1, and_self, if_true]
  unfold response
  rw [key]

/-! ## Concrete cases and disagreements -/

/-- "Hi". -/
def exHi : Bytes := [0x48, 0x69]
/-- "Yo". -/
def exYo : Bytes := [0x59, 0x6F]
/-- "00:00:01,500 --> 00:00:02,000" -/
def exTimes : Bytes := [0x30, 0x30, 0x3A, 0x30, 0x30, 0x3A, 0x30, 0x31, 0x2C, 0x35, 0x30, 0x30, 0x20, 0x2D, 0x2D, 0x3E, 0x20,
  0x30, 0x30, 0x3A, 0x30, 0x30, 0x3A, 0x30, 0x32, 0x2C, 0x30, 0x30, 0x30]
/-- The file "1, times, Hi, Yo". -/
def exFile : Bytes := [0x31, 0x0A] ++ exTimes ++ [0x0A] ++ exHi ++ [0x0A] ++ exYo ++ [0x0A, 0x0A]

/-- The file is read as it should. -/
example : readFile exFile = [{ index := some 1, time := some 1500, duration := some 500, data := exHi ++ [0x0A] ++ exYo }] := by
  decide +kernel

/-- It is a file that the theorem speaks of. -/
example : Written { index := 1, start := 1500, stop := 2000, lines := [exHi, exYo] } exFile
    ∧ Readable { index := 1, start := 1500, stop := 2000, lines := [exHi, exYo] } := by
  refine ⟨⟨[0x31], exTimes.take 12, exTimes.drop 17, ?_, ?_, ?_, by decide +kernel⟩, ?_⟩
  · exact ⟨by decide +kernel, by decide, by decide, by decide, by decide⟩
  · exact ⟨0, 0, 1, 500, [0x30, 0x30], [0x30, 0x30], [0x30, 0x31], [0x35, 0x30, 0x30], by decide, by decide, by decide, by decide,
      ⟨by decide +kernel, by decide, by decide, by decide, by decide⟩, ⟨by decide +kernel, by decide, by decide, by decide, by decide⟩,
      ⟨by decide +kernel, by decide, by decide, by decide, by decide⟩, ⟨by decide +kernel, by decide, by decide, by decide, by decide⟩, by decide +kernel⟩
  · exact ⟨0, 0, 2, 0, [0x30, 0x30], [0x30, 0x30], [0x30, 0x32], [0x30, 0x30, 0x30], by decide, by decide, by decide, by decide,
      ⟨by decide +kernel, by decide, by decide, by decide, by decide⟩, ⟨by decide +kernel, by decide, by decide, by decide, by decide⟩,
      ⟨by decide +kernel, by decide, by decide, by decide, by decide⟩, ⟨by decide +kernel, by decide, by decide, by decide, by decide⟩, by decide +kernel⟩
  · refine ⟨by decide, by decide, by decide, by simp, by decide, ?_⟩
    intro l r t h
    simp only [List.cons.injEq] at h
    rw [← h.1]
    decide

/-- A response in WebVTT. -/
example : response true 0 0 [{ time := 1500, duration := 500, data := exHi ++ [0x0A] }, { time := 1600, duration := 0, data := [0x20] }]
    = [0x57, 0x45, 0x42, 0x56, 0x54, 0x54, 0x0A, 0x0A, 0x30, 0x30, 0x3A, 0x30, 0x30, 0x3A, 0x30, 0x31, 0x2E, 0x35, 0x30, 0x30, 0x20, 0x2D, 0x2D, 0x3E, 0x20,
       0x30, 0x30, 0x3A, 0x30, 0x30, 0x3A, 0x30, 0x32, 0x2E, 0x30, 0x30, 0x30, 0x0A, 0x48, 0x69, 0x0A, 0x0A] := by decide +kernel

/-- **C110, disagreement.** A SubRip file from the server is not read again as it was: the start loses its milliseconds
and the duration is wrong. -/
theorem C110_dot_fails :
    readFile (response false 0 0 [{ time := 1500, duration := 500, data := exHi }])
      = [{ index := some 0, time := some 1000, duration := some 4294966296, data := exHi }] := by
  decide +kernel

/-- **C110, disagreement.** A WebVTT file from the server is not read again: it gives a packet without a time for the
header, and for a subtitle of two lines one without time and without its first line. -/
theorem C110_vtt_fails :
    readFile (response true 0 0 [{ time := 1500, duration := 500, data := exHi ++ [0x0A] ++ exYo }])
      = [{ index := some 0, time := none, duration := none, data := [] }, { index := some 0, time := some 0, duration := some 0, data := exYo }] := by
  decide +kernel

/-- **C110, disagreement.** The last subtitle of a file is lost when no empty line is after it. -/
theorem C110_last_fails : readFile (exFile.take (exFile.length - 1)) = [] := by
  decide +kernel

/-- **C110, disagreement.** A second empty line after a subtitle gives a packet whose time was never set. -/
theorem C110_blank_fails :
    readFile (exFile ++ [0x0A]) = [{ index := some 1, time := some 1500, duration := some 500, data := exHi ++ [0x0A] ++ exYo },
      { index := none, time := none, duration := none, data := [] }] := by
  decide +kernel

/-- **C110, disagreement.** In files with carriage returns the text keeps them. -/
theorem C110_crlf_fails :
    readFile ([0x31, 0x0D, 0x0A] ++ exTimes ++ [0x0D, 0x0A] ++ exHi ++ [0x0D, 0x0A, 0x0D, 0x0A])
      = [{ index := some 1, time := some 1500, duration := some 500, data := exHi ++ [0x0D] }] := by
  decide +kernel

/-- **C110, disagreement.** A first line of one byte is joined with the second. -/
theorem C110_short_fails :
    readFile ([0x31, 0x0A] ++ exTimes ++ [0x0A, 0x2D, 0x0A] ++ exHi ++ [0x0A, 0x0A])
      = [{ index := some 1, time := some 1500, duration := some 500, data := [0x2D] ++ exHi }] := by
  decide +kernel

/-- **C110, disagreement.** Two different streams give the same WebVTT file: a text with an empty line in it is taken for
more than one subtitle. -/
theorem C110_inject_fails :
    response true 0 0 [{ time := 0, duration := 1000, data := exHi ++ [0x0A, 0x0A] ++ timeText 1500 ++ [0x20, 0x2D, 0x2D, 0x3E, 0x20] ++ timeText 2000 ++ [0x0A] ++ exYo }]
      = response true 0 0 [{ time := 0, duration := 1000, data := exHi }, { time := 1500, duration := 500, data := exYo }] := by
  decide +kernel

end Verif.Subs
