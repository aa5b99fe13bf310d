import Verif.Subs.Spec

/-!
# Lemmas about numbers, times and lines
-/

namespace Verif.Subs
open Verif Verif.Subs.Spec

theorem digit_val (n : Nat) : (digit n).toNat = 0x30 + n % 10 := by
  unfold digit
  rw [u8n]
  omega

theorem dec_unfold (n : Nat) : dec n = if n < 10 then [digit n] else dec (n / 10) ++ [digit n] := by
  rw [dec.eq_def]

theorem dec_digits (n : Nat) : ∀ c ∈ dec n, 0x30 ≤ c.toNat ∧ c.toNat ≤ 0x39 := by
  fun_induction dec n with
  | case1 n h =>
    intro c hc
    simp only [List.mem_cons, List.not_mem_nil, or_false] at hc
    rw [hc, digit_val]; omega
  | case2 n h ih =>
    intro c hc
    rcases List.mem_append.1 hc with h1 | h1
    · exact ih c h1
    · simp only [List.mem_cons, List.not_mem_nil, or_false] at h1
      rw [h1, digit_val]; omega

theorem dec_val (n : Nat) : valOf (dec n) = n := by
  fun_induction dec n with
  | case1 n h => simp only [valOf, List.foldl_cons, List.foldl_nil, digit_val]; omega
  | case2 n h ih =>
    unfold valOf at ih ⊢
    rw [List.foldl_append, ih]
    simp only [List.foldl_cons, List.foldl_nil, digit_val]
    omega

theorem dec_ne (n : Nat) : dec n ≠ [] := by
  rw [dec_unfold]
  split <;> simp

theorem dec_head (n : Nat) (h : 1 < (dec n).length) : (dec n).head? ≠ some 0x30 := by
  fun_induction dec n with
  | case1 n h' => simp at h
  | case2 n h' ih =>
    have hne := dec_ne (n / 10)
    have hhd : (dec (n / 10) ++ [digit n]).head? = (dec (n / 10)).head? := by
      cases hx : dec (n / 10) with
      | nil => exact absurd hx hne
      | cons c u => rfl
    rw [hhd]
    by_cases h2 : 1 < (dec (n / 10)).length
    · exact ih h2
    · rw [dec_unfold] at h2 ⊢
      split
      · intro he
        simp only [List.head?_cons, Option.some.injEq] at he
        have := digit_val (n / 10)
        rw [he] at this
        have h48 : (0x30 : UInt8).toNat = 48 := rfl
        omega
      · rename_i h3
        simp only [h3, if_false, List.length_append, List.length_cons, List.length_nil] at h2
        have : 0 < (dec (n / 10 / 10)).length := List.length_pos_iff.2 (dec_ne _)
        omega

theorem foldl_zeros (k a : Nat) (ds : Bytes) (ha : a = 0) :
    (List.replicate k (0x30 : UInt8) ++ ds).foldl (fun (a : Nat) (c : UInt8) => a * 10 + (c.toNat - 0x30)) a = ds.foldl (fun a c => a * 10 + (c.toNat - 0x30)) 0 := by
  induction k generalizing a with
  | zero => simp [ha]
  | succ k ih =>
    simp only [List.replicate_succ, List.cons_append, List.foldl_cons]
    exact ih _ (by rw [ha]; rfl)

theorem padded_decimal (w n : Nat) : Decimal w n (padded w n) := by
  unfold padded
  refine ⟨?_, ?_, ?_, ?_, ?_⟩
  · intro c hc
    rcases List.mem_append.1 hc with h | h
    · rw [List.eq_of_mem_replicate h]; decide
    · exact dec_digits n c h
  · rw [foldl_zeros _ 0 _ rfl]
    exact dec_val n
  · simp [dec_ne]
  · simp only [List.length_append, List.length_replicate]; omega
  · intro h1 h2
    simp only [List.length_append, List.length_replicate] at h1 h2
    have h0 : w - (dec n).length = 0 := by omega
    rw [h0]
    simp only [List.replicate_zero, List.nil_append]
    exact dec_head n (by omega)

theorem dec_decimal (n : Nat) : Decimal 1 n (dec n) := by
  have h := padded_decimal 1 n
  unfold padded at h
  have : 0 < (dec n).length := List.length_pos_iff.2 (dec_ne n)
  have h0 : 1 - (dec n).length = 0 := by omega
  rw [h0] at h
  simpa using h

theorem timeText_time (t : Nat) : Time 0x2E t (timeText t) :=
  ⟨t / 3600000, t % 3600000 / 60000, t % 3600000 % 60000 / 1000, t % 1000, _, _, _, _, by omega, by omega, by omega, by omega,
    padded_decimal 2 _, padded_decimal 2 _, padded_decimal 2 _, padded_decimal 3 _, rfl⟩

/-- What is not a digit. -/
def Stops (r : Bytes) : Prop := r = [] ∨ ∃ c t, r = c :: t ∧ isDigit c = false

theorem isDigit_iff (c : UInt8) : isDigit c = true ↔ 0x30 ≤ c.toNat ∧ c.toNat ≤ 0x39 := by
  unfold isDigit
  simp only [Bool.and_eq_true, decide_eq_true_eq, UInt8.le_iff_toNat_le]
  rfl

theorem takeWhile_digits (t r : Bytes) (h : ∀ c ∈ t, isDigit c = true) (hr : Stops r) :
    (t ++ r).takeWhile isDigit = t ∧ (t ++ r).dropWhile isDigit = r := by
  induction t with
  | nil =>
    rcases hr with rfl | ⟨c, u, rfl, hc⟩
    · simp
    · simp [hc]
  | cons c t ih =>
    have hc := h c (List.mem_cons_self ..)
    have := ih (fun c hc => h c (List.mem_cons_of_mem _ hc))
    simp [hc, this]

theorem scanD_decimal {w n : Nat} {t r : Bytes} (h : Decimal w n t) (hr : Stops r) : scanD (t ++ r) = some ((n : Int), r) := by
  obtain ⟨h1, h2, h3, _, _⟩ := h
  cases t with
  | nil => exact absurd rfl h3
  | cons c t =>
    have hd : ∀ x ∈ c :: t, isDigit x = true := fun x hx => (isDigit_iff x).2 (h1 x hx)
    have htw := takeWhile_digits (c :: t) r hd hr
    have hc := h1 c (List.mem_cons_self ..)
    have hsp : isSpace c = false := by
      unfold isSpace
      simp only [Bool.or_eq_false_iff, beq_eq_false_iff_ne, Bool.and_eq_false_iff, decide_eq_false_iff_not, UInt8.le_iff_toNat_le]
      constructor
      · intro he; rw [he] at hc; exact absurd hc.1 (by decide)
      · right
        have : (13 : UInt8).toNat = 13 := rfl
        omega
    have hm : c ≠ 0x2D := by intro he; rw [he] at hc; exact absurd hc.1 (by decide)
    have hp : c ≠ 0x2B := by intro he; rw [he] at hc; exact absurd hc.1 (by decide)
    have hm' : (c == 0x2D) = false := by simpa using hm
    have hp' : (c == 0x2B) = false := by simpa using hp
    unfold scanD
    rw [List.cons_append, List.dropWhile_cons_of_neg (by simp [hsp])]
    unfold scanSigned
    simp only [hm', hp', Bool.or_self, Bool.false_eq_true, if_false]
    rw [← List.cons_append, htw.1, htw.2]
    simp only [reduceCtorEq, if_false]
    rw [show valOf (c :: t) = n from h2]

theorem stops_cons (c : UInt8) (t : Bytes) (h : isDigit c = false) : Stops (c :: t) := Or.inr ⟨c, t, rfl, h⟩

theorem scanf_num {w n : Nat} {t r : Bytes} {f : List Item} (h : Decimal w n t) (hr : Stops r) :
    scanf (.num :: f) (t ++ r) = (n : Int) :: scanf f r := by
  simp only [scanf, scanD_decimal h hr]

theorem scanf_lit {c : UInt8} {r : Bytes} {f : List Item} : scanf (.lit c :: f) (c :: r) = scanf f r := by
  simp [scanf]

theorem decimal_head {w n : Nat} {t : Bytes} (h : Decimal w n t) : ∃ c u, t = c :: u ∧ isSpace c = false := by
  obtain ⟨h1, _, h3, _⟩ := h
  cases t with
  | nil => exact absurd rfl h3
  | cons c t =>
    have hc := h1 c (List.mem_cons_self ..)
    refine ⟨c, t, rfl, ?_⟩
    unfold isSpace
    simp only [Bool.or_eq_false_iff, beq_eq_false_iff_ne, Bool.and_eq_false_iff, decide_eq_false_iff_not, UInt8.le_iff_toNat_le]
    constructor
    · intro he; rw [he] at hc; exact absurd hc.1 (by decide)
    · right
      have : (13 : UInt8).toNat = 13 := rfl
      omega

/-- The line of times is read as it is meant. -/
theorem scanf_times {s e : Nat} {a b : Bytes} (ha : Time 0x2C s a) (hb : Time 0x2C e b) :
    millis (scanf format (a ++ [0x20, 0x2D, 0x2D, 0x3E, 0x20] ++ b)) 0 = s
    ∧ millis (scanf format (a ++ [0x20, 0x2D, 0x2D, 0x3E, 0x20] ++ b)) 4 = e := by
  obtain ⟨h, m, sec, ms, th, tm, ts, tms, hs, _, _, _, d1, d2, d3, d4, rfl⟩ := ha
  obtain ⟨h', m', sec', ms', th', tm', ts', tms', he, _, _, _, e1, e2, e3, e4, rfl⟩ := hb
  have key : scanf format (th ++ [0x3A] ++ tm ++ [0x3A] ++ ts ++ [0x2C] ++ tms ++ [0x20, 0x2D, 0x2D, 0x3E, 0x20]
      ++ (th' ++ [0x3A] ++ tm' ++ [0x3A] ++ ts' ++ [0x2C] ++ tms'))
      = [(h : Int), m, sec, ms, h', m', sec', ms'] := by
    unfold format
    simp only [List.append_assoc, List.cons_append, List.nil_append]
    rw [scanf_num d1 (stops_cons _ _ (by decide)), scanf_lit, scanf_num d2 (stops_cons _ _ (by decide)), scanf_lit,
      scanf_num d3 (stops_cons _ _ (by decide)), scanf_lit, scanf_num d4 (stops_cons _ _ (by decide))]
    have hsp1 : ∀ (f : List Item) (r : Bytes), scanf (.space :: f) (0x20 :: 0x2D :: r) = scanf f (0x2D :: r) := by
      intro f r
      simp [scanf, isSpace]
    rw [hsp1, scanf_lit, scanf_lit, scanf_lit]
    obtain ⟨c, u, hcu, hcs⟩ := decimal_head e1
    have hsp2 : ∀ (f : List Item) (r : Bytes), scanf (.space :: f) (0x20 :: (th' ++ r)) = scanf f (th' ++ r) := by
      intro f r
      rw [hcu]
      simp [scanf, isSpace] at hcs ⊢
      rw [List.dropWhile_cons_of_neg (by simpa [isSpace] using hcs)]
    rw [hsp2, scanf_num e1 (stops_cons _ _ (by decide)), scanf_lit, scanf_num e2 (stops_cons _ _ (by decide)), scanf_lit,
      scanf_num e3 (stops_cons _ _ (by decide)), scanf_lit]
    have := scanf_num (f := []) e4 (Or.inl rfl)
    rw [List.append_nil] at this
    rw [this]
    rfl
  rw [key]
  simp only [millis, List.getD_cons_zero, List.getD_cons_succ]
  constructor
  · omega
  · omega

theorem linesFrom_line (cur l rest : Bytes) (h : 0x0A ∉ l) : linesFrom cur (l ++ [0x0A] ++ rest) = (cur ++ l) :: linesFrom [] rest := by
  induction l generalizing cur with
  | nil => simp [linesFrom]
  | cons c t ih =>
    have hc : c ≠ 0x0A := by intro he; exact h (by simp [he])
    have ht : 0x0A ∉ t := fun hm => h (List.mem_cons_of_mem _ hm)
    simp only [List.cons_append, linesFrom, hc, if_false]
    rw [ih _ ht]
    simp

theorem linesFrom_ended (ls : List Bytes) (rest : Bytes) (h : ∀ l ∈ ls, (0x0A : UInt8) ∉ l) :
    linesFrom [] (ended ls ++ rest) = ls ++ linesFrom [] rest := by
  induction ls with
  | nil => simp [ended]
  | cons l t ih =>
    unfold ended
    rw [List.append_assoc, linesFrom_line [] l _ (h l (List.mem_cons_self ..)), ih (fun l hl => h l (List.mem_cons_of_mem _ hl))]
    simp

theorem isHeader_false (l : Bytes) : isHeader l = false := by
  unfold isHeader
  cases h : decide (7 ≤ l.length) with
  | false => simp
  | true =>
    simp only [decide_eq_true_eq] at h
    simp only [Bool.true_and, beq_eq_false_iff_ne]
    intro he
    have := congrArg List.length he
    rw [List.length_take] at this
    simp at this
    omega

theorem readLines_text (nr : Nat) (a : Acc) (l : Bytes) (rest : List Bytes) (h : isBlank l = false) :
    readLines nr a (l :: rest) = readLines (nr + 1) (takeLine (nr + 1) a l) rest := by
  rw [readLines.eq_def]
  simp [isHeader_false, h]

theorem readLines_blank (nr : Nat) (a : Acc) (rest : List Bytes) : readLines nr a ([] :: rest) = a :: readLines 0 .fresh rest := by
  rw [readLines.eq_def]
  simp [isHeader_false, isBlank]

/-- Further lines of text. -/
theorem readLines_more (nr : Nat) (hn : 2 ≤ nr) (a : Acc) (ls : List Bytes) (rest : List Bytes) (ha : 1 < a.data.length)
    (h : ∀ l ∈ ls, isBlank l = false) :
    ∃ nr', readLines nr a (ls ++ rest) = readLines nr' { a with data := joined (a.data :: ls) } rest := by
  induction ls generalizing nr a with
  | nil => exact ⟨nr, by simp [joined]⟩
  | cons l t ih =>
    rw [List.cons_append, readLines_text nr a l _ (h l (List.mem_cons_self ..))]
    have h1 : ¬ nr + 1 = 1 := by omega
    have h2 : ¬ nr + 1 = 2 := by omega
    simp only [takeLine, h1, h2, if_false, textLine, ha, if_true]
    obtain ⟨nr', hr⟩ := ih (nr + 1) (by omega) { a with data := a.data ++ [0x0A] ++ l } (by simp; omega)
      (fun l hl => h l (List.mem_cons_of_mem _ hl))
    refine ⟨nr', ?_⟩
    rw [hr]
    cases t with
    | nil => simp [joined]
    | cons r u => simp [joined]

theorem u32_nat (n : Nat) (h : n < 4294967296) : u32 (n : Int) = n := by
  unfold u32
  omega

theorem decimal_blank {w n : Nat} {t r : Bytes} (h : Decimal w n t) : isBlank (t ++ r) = false ∧ (0x0A : UInt8) ∉ t := by
  obtain ⟨h1, _, h3, _⟩ := h
  constructor
  · cases t with
    | nil => exact absurd rfl h3
    | cons c t =>
      have hc := h1 c (List.mem_cons_self ..)
      have : c ≠ 0x0D := by intro he; rw [he] at hc; exact absurd hc.1 (by decide)
      simp [isBlank, this]
  · intro hm
    exact absurd (h1 _ hm).1 (by decide)

theorem time_line {sep : UInt8} {t : Nat} {x : Bytes} (h : Time sep t x) (hs : sep ≠ 0x0A) (r : Bytes) :
    isBlank (x ++ r) = false ∧ (0x0A : UInt8) ∉ x := by
  obtain ⟨_, _, _, _, th, tm, ts, tms, _, _, _, _, d1, d2, d3, d4, rfl⟩ := h
  constructor
  · simp only [List.append_assoc]
    exact (decimal_blank d1).1
  · simp only [List.mem_append, List.mem_cons, List.not_mem_nil, or_false, not_or]
    refine ⟨⟨⟨⟨⟨⟨(decimal_blank (r := []) d1).2, by decide⟩, (decimal_blank (r := []) d2).2⟩, by decide⟩, (decimal_blank (r := []) d3).2⟩, fun h => hs h.symm⟩, (decimal_blank (r := []) d4).2⟩

/-- One subtitle of a file. -/
theorem read_cue (c : Cue) (txt rest : Bytes) (hw : Written c txt) (hr : Readable c) :
    readFile (txt ++ rest) = packet c :: readFile rest := by
  obtain ⟨n, a, b, hn, ha, hb, rfl⟩ := hw
  obtain ⟨hle, hstop, hidx, hne, hlines, hfirst⟩ := hr
  obtain ⟨l, t, hlt⟩ := List.exists_cons_of_ne_nil hne
  unfold readFile linesOf
  have hnn := (decimal_blank (r := []) hn)
  have htl := time_line ha (by decide) ([0x20, 0x2D, 0x2D, 0x3E, 0x20] ++ b)
  have hnl : (0x0A : UInt8) ∉ a ++ [0x20, 0x2D, 0x2D, 0x3E, 0x20] ++ b := by
    simp only [List.mem_append, not_or]
    exact ⟨⟨htl.2, by decide⟩, (time_line hb (by decide) []).2⟩
  have e1 : linesFrom [] (n ++ [0x0A] ++ (a ++ [0x20, 0x2D, 0x2D, 0x3E, 0x20] ++ b) ++ [0x0A] ++ ended c.lines ++ [0x0A] ++ rest)
      = n :: (a ++ [0x20, 0x2D, 0x2D, 0x3E, 0x20] ++ b) :: (c.lines ++ [] :: linesFrom [] rest) := by
    have h1 := linesFrom_line [] n ((a ++ [0x20, 0x2D, 0x2D, 0x3E, 0x20] ++ b) ++ [0x0A] ++ (ended c.lines ++ ([] ++ [0x0A] ++ rest))) hnn.2
    have h2 := linesFrom_line [] (a ++ [0x20, 0x2D, 0x2D, 0x3E, 0x20] ++ b) (ended c.lines ++ ([] ++ [0x0A] ++ rest)) hnl
    have h3 := linesFrom_ended c.lines ([] ++ [0x0A] ++ rest) (fun l hl => (hlines l hl).2.2)
    have h4 := linesFrom_line [] [] rest (by simp)
    rw [h2, h3, h4] at h1
    simp only [List.nil_append, List.append_assoc] at h1 ⊢
    exact h1
  rw [e1, readLines_text 0 _ n _ (by simpa using hnn.1), readLines_text 1 _ _ _ (by simpa [List.append_assoc] using htl.1)]
  have hblank : ∀ l ∈ c.lines, isBlank l = false := by
    intro l hl
    have := hlines l hl
    simp [isBlank, this.1, this.2.1]
  have hat : atoi n = (c.index : Int) := by
    have := scanD_decimal (r := []) hn (Or.inl rfl)
    rw [List.append_nil] at this
    unfold atoi
    rw [this]
  obtain ⟨hm0, hm4⟩ := scanf_times ha hb
  have hd : u32 ((c.stop : Int) - (c.start : Nat)) = c.stop - c.start := by
    unfold u32; omega
  have hacc : takeLine 2 (takeLine 1 Acc.fresh n) (a ++ [0x20, 0x2D, 0x2D, 0x3E, 0x20] ++ b)
      = { index := some c.index, time := some c.start, duration := some (c.stop - c.start), data := [] } := by
    simp only [takeLine, if_true, Acc.fresh, hat, timeLine, hm0, hm4, u32_nat c.index (by omega), u32_nat c.start (by omega), hd]
    simp
  rw [show (1 + 1 : Nat) = 2 from rfl, show (0 + 1 : Nat) = 1 from rfl, hacc, hlt, List.cons_append, readLines_text 2 _ l _ (hblank l (by simp [hlt]))]
  have hacc2 : takeLine 3 { index := some c.index, time := some c.start, duration := some (c.stop - c.start), data := [] } l
      = { index := some c.index, time := some c.start, duration := some (c.stop - c.start), data := l } := by
    simp [takeLine, textLine]
  rw [show (2 + 1 : Nat) = 3 from rfl, hacc2]
  cases t with
  | nil =>
    rw [List.nil_append, readLines_blank]
    simp [packet, hlt, joined]
  | cons r u =>
    have h2 := hfirst l r u hlt
    obtain ⟨nr', hr⟩ := readLines_more 3 (by omega) { index := some c.index, time := some c.start, duration := some (c.stop - c.start), data := l }
      (r :: u) ([] :: linesFrom [] rest) (by simp; omega) (fun x hx => hblank x (by rw [hlt]; exact List.mem_cons_of_mem _ hx))
    rw [hr, readLines_blank]
    simp [packet, hlt]

end Verif.Subs
