import Verif.Select.Spec
import Verif.Http.Lemmas

/-!
# Lemmas about track selectors
-/
namespace Verif.Select
open Spec
open Verif.Http (atoll decimal digits lower space)

/-! ## Texts -/

/-- A decimal digit. -/
def IsDigit (c : UInt8) : Prop := 48 ≤ c.toNat ∧ c.toNat ≤ 57

instance (c : UInt8) : Decidable (IsDigit c) := inferInstanceAs (Decidable (_ ∧ _))

theorem digit_bool (c : UInt8) : (decide (48 ≤ c) && decide (c ≤ 57)) = true ↔ IsDigit c := by
  simp only [Bool.and_eq_true, decide_eq_true_eq, UInt8.le_iff_toNat_le]
  exact Iff.rfl

theorem takeWhile_stop {p : UInt8 → Bool} {a r : Bytes} (h : ∀ c ∈ a, p c = true) (hr : ∀ c, r.head? = some c → p c = false) : (a ++ r).takeWhile p = a := by
  induction a with
  | nil =>
    cases r with
    | nil => rfl
    | cons c r =>
      rw [List.nil_append, List.takeWhile_cons_of_neg]
      simp [hr c rfl]
  | cons x a ih =>
    rw [List.cons_append, List.takeWhile_cons_of_pos (h x List.mem_cons_self), ih fun c hc => h c (List.mem_cons_of_mem _ hc)]

theorem digitsOf_decimal (n : Nat) {r : Bytes} (hr : ∀ c, r.head? = some c → ¬ IsDigit c) : digitsOf (decimal n ++ r) = decimal n := by
  apply takeWhile_stop
  · intro c hc
    exact (digit_bool c).2 (Http.decimal_digits n c hc)
  · intro c hc
    have := hr c hc
    cases h : (decide (48 ≤ c) && decide (c ≤ 57)) with
    | false => rfl
    | true => exact absurd ((digit_bool c).1 h) this

theorem digits_append (n : Nat) {r : Bytes} (hr : ∀ c, r.head? = some c → ¬ IsDigit c) : digits (decimal n ++ r) = n := by
  unfold digits
  rw [show (decimal n ++ r).takeWhile (fun c => decide (48 ≤ c) && decide (c ≤ 57)) = decimal n from digitsOf_decimal n hr, Http.decimal_value]

theorem not_special {c : UInt8} (h : IsDigit c) : space c = false ∧ c ≠ 45 ∧ c ≠ 43 := by
  have : ∀ b : UInt8, IsDigit b → space b = false ∧ b ≠ 45 ∧ b ≠ 43 := by decide +kernel
  exact this c h

theorem decimal_cons (n : Nat) : ∃ c r, decimal n = c :: r ∧ IsDigit c := by
  cases hd : decimal n with
  | nil => exact absurd hd (Http.decimal_ne n)
  | cons c r => exact ⟨c, r, rfl, Http.decimal_digits n c (by rw [hd]; exact List.mem_cons_self)⟩

theorem scanU_decimal {n : Nat} (hn : n < 2 ^ 32) {r : Bytes} (hr : ∀ c, r.head? = some c → ¬ IsDigit c) : scanU (decimal n ++ r) = some (n, r) := by
  have h1 := digitsOf_decimal n hr
  have h2 := digits_append n hr
  obtain ⟨c, q, hc, hd⟩ := decimal_cons n
  obtain ⟨s1, s2, s3⟩ := not_special hd
  have hdrop : (decimal n ++ r).dropWhile space = decimal n ++ r := by
    rw [hc, List.cons_append, List.dropWhile_cons_of_neg (by simp [s1])]
  unfold scanU
  rw [hdrop]
  have hcons : decimal n ++ r = c :: (q ++ r) := by rw [hc]; rfl
  split
  · next heq =>
    rw [hcons] at heq
    exact absurd (List.cons.inj heq).1 s2
  · next heq =>
    rw [hcons] at heq
    exact absurd (List.cons.inj heq).1 s3
  · rw [h1, h2, if_neg (Http.decimal_ne n), if_neg (by omega), Nat.mod_eq_of_lt hn, List.drop_left]

theorem scanU_none {c : UInt8} {r : Bytes} (h : space c = false) (h1 : c ≠ 45) (h2 : c ≠ 43) (h3 : ¬ IsDigit c) : scanU (c :: r) = none := by
  unfold scanU
  rw [List.dropWhile_cons_of_neg (by simp [h])]
  split
  · next heq => exact absurd (List.cons.inj heq).1 h1
  · next heq => exact absurd (List.cons.inj heq).1 h2
  · rw [if_pos]
    unfold digitsOf
    rw [List.takeWhile_cons_of_neg]
    intro h
    exact h3 ((digit_bool c).1 h)

theorem prefix_self (pre r : Bytes) : pre.isPrefixOf (pre ++ r) = true := by
  rw [List.isPrefixOf_iff_prefix]
  exact List.prefix_append _ _

theorem scan1_decimal {n : Nat} (hn : n < 2 ^ 32) (pre : Bytes) {r : Bytes} (hr : ∀ c, r.head? = some c → ¬ IsDigit c) :
    scan1 pre (pre ++ (decimal n ++ r)) = some n := by
  unfold scan1
  rw [if_pos (prefix_self _ _), List.drop_left, scanU_decimal hn hr]
  rfl

theorem scan2_decimal {x y : Nat} (hx : x < 2 ^ 32) (hy : y < 2 ^ 32) (pre : Bytes) : scan2 pre (pre ++ (decimal x ++ 120 :: decimal y)) = some (x, y) := by
  unfold scan2
  have h1 := scanU_decimal hx (r := 120 :: decimal y) (by intro c hc; simp at hc; subst hc; decide)
  have h2 := scanU_decimal hy (r := []) (by intro c hc; simp at hc)
  rw [List.append_nil] at h2
  rw [if_pos (prefix_self _ _), List.drop_left, h1]
  simp only [List.head?_cons, if_true, List.tail_cons, h2, Option.map_some]

/-- Plain letters and others are not the start of a number. -/
def NoNumber (c : UInt8) : Prop := space c = false ∧ c ≠ 45 ∧ c ≠ 43 ∧ ¬ IsDigit c

instance (c : UInt8) : Decidable (NoNumber c) := inferInstanceAs (Decidable (_ ∧ _))

theorem scan1_none {c : UInt8} {r : Bytes} (h : NoNumber c) : scan1 [] (c :: r) = none := by
  unfold scan1
  rw [if_pos (by rfl)]
  show (scanU (c :: r)).map _ = none
  rw [scanU_none h.1 h.2.1 h.2.2.1 h.2.2.2]
  rfl

theorem scan2_none {c : UInt8} {r : Bytes} (h : NoNumber c) : scan2 [] (c :: r) = none := by
  unfold scan2
  rw [if_pos (by rfl)]
  show (match scanU (c :: r) with | none => none | some (a, r) => _) = none
  rw [scanU_none h.1 h.2.1 h.2.2.1 h.2.2.2]

theorem scan2_prefix {p c : UInt8} {r : Bytes} (h : p ≠ c) : scan2 [p] (c :: r) = none := by
  unfold scan2
  rw [if_neg]
  simp [h]

theorem has_iff (pat s : Bytes) : has pat s = true ↔ pat <:+: s := by
  unfold has
  induction s with
  | nil =>
    unfold findSub
    by_cases h : pat = []
    · simp [h]
    · simp [h]
  | cons c r ih =>
    unfold findSub
    by_cases h : pat.isPrefixOf (c :: r) = true
    · rw [if_pos h]
      simp only [Option.isSome_some, true_iff]
      exact (List.isPrefixOf_iff_prefix.1 h).isInfix
    · rw [if_neg h, Option.isSome_map, ih, List.infix_cons_iff]
      constructor
      · exact Or.inr
      · rintro (h' | h')
        · exact absurd (List.isPrefixOf_iff_prefix.2 h') h
        · exact h'

theorem has_no {pat s : Bytes} {c : UInt8} (hc : c ∈ pat) (hs : c ∉ s) : has pat s = false := by
  cases h : has pat s with
  | false => rfl
  | true => exact absurd (((has_iff pat s).1 h).subset hc) hs

theorem has_end (a pat : Bytes) : has pat (a ++ pat) = true := (has_iff _ _).2 (List.suffix_append _ _).isInfix

theorem not_mem_decimal {c : UInt8} (n : Nat) (h : ¬ IsDigit c) : c ∉ decimal n := fun hc => h (Http.decimal_digits n c hc)

theorem unit_first (u : RateUnit) : ∀ c, u.text.head? = some c → ¬ IsDigit c := by
  intro c hc
  cases u <;> (simp only [RateUnit.text, List.head?_cons, Option.some.injEq] at hc; subst hc; decide)

/-- The unit is kbps. -/
def isK : RateUnit → Bool
  | .kbps => true
  | _ => false

/-- The unit is mbps. -/
def isM : RateUnit → Bool
  | .mbps => true
  | _ => false

theorem has_mbps_pre (n : Nat) (u : RateUnit) (pre : Bytes) (hp : pre = [] ∨ pre = [60] ∨ pre = [62] ∨ pre = sMaxUnder) :
    has mbps (pre ++ (decimal n ++ u.text)) = isM u ∧
    (has kbps (pre ++ (decimal n ++ u.text)) = isK u) ∧ has Select.bps (pre ++ (decimal n ++ u.text)) = true := by
  have hm : ¬ IsDigit 109 := by decide
  have hk : ¬ IsDigit 107 := by decide
  have hb : has Select.bps (pre ++ (decimal n ++ u.text)) = true := by
    cases u with
    | bps => rw [← List.append_assoc]; exact has_end _ _
    | kbps =>
      rw [show pre ++ (decimal n ++ RateUnit.text .kbps) = (pre ++ decimal n ++ [107]) ++ Select.bps from by simp [RateUnit.text, Select.bps]]
      exact has_end _ _
    | mbps =>
      rw [show pre ++ (decimal n ++ RateUnit.text .mbps) = (pre ++ decimal n ++ [109]) ++ Select.bps from by simp [RateUnit.text, Select.bps]]
      exact has_end _ _
  have hkk : has kbps (pre ++ (decimal n ++ u.text)) = isK u := by
    cases u with
    | bps =>
      apply has_no (c := 107) (by decide)
      have := not_mem_decimal n hk
      rcases hp with rfl | rfl | rfl | rfl <;> simp [RateUnit.text, sMaxUnder, this]
    | kbps => rw [← List.append_assoc]; exact has_end _ _
    | mbps =>
      apply has_no (c := 107) (by decide)
      have := not_mem_decimal n hk
      rcases hp with rfl | rfl | rfl | rfl <;> simp [RateUnit.text, sMaxUnder, this]
  refine ⟨?_, hkk, hb⟩
  have hno : ∀ u : RateUnit, (u = .bps ∨ u = .kbps) → has mbps (pre ++ (decimal n ++ u.text)) = false := by
    intro u hu
    have hnm : (109 : UInt8) ∉ decimal n ++ u.text := by
      have := not_mem_decimal n hm
      rcases hu with rfl | rfl <;> simp [RateUnit.text, this]
    rcases hp with rfl | rfl | rfl | rfl
    · exact has_no (c := 109) (by decide) (by simpa using hnm)
    · exact has_no (c := 109) (by decide) (by simpa using hnm)
    · exact has_no (c := 109) (by decide) (by simpa using hnm)
    · have h0 : has mbps (decimal n ++ u.text) = false := has_no (c := 109) (by decide) hnm
      cases h : has mbps (sMaxUnder ++ (decimal n ++ u.text)) with
      | false => rfl
      | true =>
        exfalso
        have h1 := (has_iff _ _).1 h
        have h2 : ¬ mbps <:+: decimal n ++ u.text := fun h' => by
          rw [(has_iff _ _).2 h'] at h0
          cases h0
        simp only [sMaxUnder, mbps, List.cons_append, List.nil_append, List.infix_cons_iff, List.cons_prefix_cons] at h1 h2
        simp at h1
        exact h2 h1
  cases u with
  | bps => exact hno .bps (Or.inl rfl)
  | kbps => exact hno .kbps (Or.inr rfl)
  | mbps => rw [← List.append_assoc]; exact has_end _ _

theorem factor_pos (u : RateUnit) : 0 < u.factor := by cases u <;> decide

theorem rate_text {n : Nat} {u : RateUnit} (h : n * u.factor < 2 ^ 32) {pre : Bytes} (hp : pre = [] ∨ pre = [60] ∨ pre = [62] ∨ pre = sMaxUnder) :
    rate pre (pre ++ (decimal n ++ u.text)) = n * u.factor := by
  have hn : n < 2 ^ 32 := Nat.lt_of_le_of_lt (Nat.le_mul_of_pos_right n (factor_pos u)) h
  have h1 := scan1_decimal hn pre (unit_first u)
  obtain ⟨h2, h3, h4⟩ := has_mbps_pre n u pre hp
  unfold rate
  rw [h1]
  simp only [h2, h3, h4]
  cases u with
  | bps => simp [RateUnit.factor, isK, isM]
  | kbps => simpa [RateUnit.factor, isK, isM] using h
  | mbps =>
    simp only [isM, if_true, RateUnit.factor] at h ⊢
    rw [Nat.mul_assoc]
    exact Nat.mod_eq_of_lt h

theorem rate_none {pre w : Bytes} (h : scan1 pre w = none) : rate pre w = 0 := by
  unfold rate
  rw [h]

theorem rate_no_bps {pre w : Bytes} (h : has Select.bps w = false) : rate pre w = 0 := by
  have hk : has kbps w = false := by
    cases hh : has kbps w with
    | false => rfl
    | true =>
      have := (has_iff _ _).1 hh
      rw [(has_iff Select.bps w).2 (List.IsInfix.trans (show Select.bps <:+: kbps from ⟨[107], [], rfl⟩) this)] at h
      cases h
  have hm : has mbps w = false := by
    cases hh : has mbps w with
    | false => rfl
    | true =>
      have := (has_iff _ _).1 hh
      rw [(has_iff Select.bps w).2 (List.IsInfix.trans (show Select.bps <:+: mbps from ⟨[109], [], rfl⟩) this)] at h
      cases h
  unfold rate
  rw [h, hk, hm]
  cases scan1 pre w <;> rfl

/-! ## Loops -/

theorem isA_iff (t : Track) (ty : Bytes) : t.isA ty = true ↔ Of ty t := by
  unfold Track.isA Of
  simp [or_assoc]

theorem mem_among {m : List Track} {l : Sel} {ty : Bytes} {t : Track} : t ∈ among m l ty ↔ Cand m l ty t := by
  unfold among Cand
  rw [List.mem_filter, Bool.and_eq_true, isA_iff]

theorem ofTracks_iff {ts : List Track} {i : Nat} : ofTracks ts i = true ↔ ∃ t ∈ ts, t.index = i := by
  unfold ofTracks
  simp

theorem largest_spec (f : Track → Nat) (ts : List Track) (cur : Option Track) (v : Nat) :
    (largest f ts cur v = cur ∧ ∀ t ∈ ts, f t ≤ v) ∨ ∃ t ∈ ts, largest f ts cur v = some t ∧ v < f t ∧ ∀ u ∈ ts, f u ≤ f t := by
  induction ts generalizing cur v with
  | nil => exact Or.inl ⟨rfl, by simp⟩
  | cons a ts ih =>
    unfold largest
    split
    · next h =>
      right
      rcases ih (some a) (f a) with ⟨h1, h2⟩ | ⟨t, ht, h1, h2, h3⟩
      · refine ⟨a, List.mem_cons_self, h1, h, ?_⟩
        intro u hu
        rcases List.mem_cons.1 hu with rfl | hu
        · exact Nat.le_refl _
        · exact h2 u hu
      · refine ⟨t, List.mem_cons_of_mem _ ht, h1, by omega, ?_⟩
        intro u hu
        rcases List.mem_cons.1 hu with rfl | hu
        · omega
        · exact h3 u hu
    · next h =>
      rcases ih cur v with ⟨h1, h2⟩ | ⟨t, ht, h1, h2, h3⟩
      · left
        refine ⟨h1, ?_⟩
        intro u hu
        rcases List.mem_cons.1 hu with rfl | hu
        · omega
        · exact h2 u hu
      · right
        refine ⟨t, List.mem_cons_of_mem _ ht, h1, h2, ?_⟩
        intro u hu
        rcases List.mem_cons.1 hu with rfl | hu
        · omega
        · exact h3 u hu

theorem smallest_spec (f : Track → Nat) (ts : List Track) (cur : Option Track) (v : Nat) :
    (smallest f ts cur v = cur ∧ ∀ t ∈ ts, v ≤ f t) ∨ ∃ t ∈ ts, smallest f ts cur v = some t ∧ f t < v ∧ ∀ u ∈ ts, f t ≤ f u := by
  induction ts generalizing cur v with
  | nil => exact Or.inl ⟨rfl, by simp⟩
  | cons a ts ih =>
    unfold smallest
    split
    · next h =>
      right
      rcases ih (some a) (f a) with ⟨h1, h2⟩ | ⟨t, ht, h1, h2, h3⟩
      · refine ⟨a, List.mem_cons_self, h1, h, ?_⟩
        intro u hu
        rcases List.mem_cons.1 hu with rfl | hu
        · exact Nat.le_refl _
        · exact h2 u hu
      · refine ⟨t, List.mem_cons_of_mem _ ht, h1, by omega, ?_⟩
        intro u hu
        rcases List.mem_cons.1 hu with rfl | hu
        · omega
        · exact h3 u hu
    · next h =>
      rcases ih cur v with ⟨h1, h2⟩ | ⟨t, ht, h1, h2, h3⟩
      · left
        refine ⟨h1, ?_⟩
        intro u hu
        rcases List.mem_cons.1 hu with rfl | hu
        · omega
        · exact h2 u hu
      · right
        refine ⟨t, List.mem_cons_of_mem _ ht, h1, h2, ?_⟩
        intro u hu
        rcases List.mem_cons.1 hu with rfl | hu
        · omega
        · exact h3 u hu

theorem nearest_some (f : Track → Nat) (n : Nat) (ts : List Track) (c : Track) :
    ∃ t ∈ c :: ts, nearest f n ts (some c) (dist (f c) n) = some t ∧ ∀ u ∈ c :: ts, dist (f t) n ≤ dist (f u) n := by
  induction ts generalizing c with
  | nil => exact ⟨c, List.mem_cons_self, rfl, by simp⟩
  | cons a ts ih =>
    have hd : (if f a ≥ n then f a - n else n - f a) = dist (f a) n := by unfold dist; split <;> omega
    unfold nearest
    rw [hd]
    split
    · next h =>
      have hlt : dist (f a) n < dist (f c) n := by
        simp only [Option.isNone_some, Bool.false_or, Bool.or_eq_true, Bool.and_eq_true, decide_eq_true_eq] at h
        generalize dist (f c) n = k at *
        unfold dist
        omega
      obtain ⟨t, ht, h1, h2⟩ := ih a
      refine ⟨t, List.mem_cons_of_mem _ ht, h1, ?_⟩
      intro u hu
      rcases List.mem_cons.1 hu with rfl | hu
      · have := h2 a List.mem_cons_self
        omega
      · exact h2 u hu
    · next h =>
      have hle : dist (f c) n ≤ dist (f a) n := by
        simp only [Option.isNone_some, Bool.false_or, Bool.or_eq_true, Bool.and_eq_true, decide_eq_true_eq] at h
        generalize dist (f c) n = k at *
        unfold dist
        omega
      obtain ⟨t, ht, h1, h2⟩ := ih c
      refine ⟨t, ?_, h1, ?_⟩
      · rcases List.mem_cons.1 ht with rfl | ht
        · exact List.mem_cons_self
        · exact List.mem_cons_of_mem _ (List.mem_cons_of_mem _ ht)
      intro u hu
      rcases List.mem_cons.1 hu with rfl | hu
      · exact h2 u List.mem_cons_self
      rcases List.mem_cons.1 hu with rfl | hu
      · have := h2 c List.mem_cons_self
        omega
      · exact h2 u (List.mem_cons_of_mem _ hu)

theorem nearest_spec (f : Track → Nat) (n : Nat) (ts : List Track) :
    (ts = [] ∧ nearest f n ts none 0 = none) ∨ ∃ t ∈ ts, nearest f n ts none 0 = some t ∧ ∀ u ∈ ts, dist (f t) n ≤ dist (f u) n := by
  cases ts with
  | nil => exact Or.inl ⟨rfl, rfl⟩
  | cons a ts =>
    right
    have hd : (if f a ≥ n then f a - n else n - f a) = dist (f a) n := by unfold dist; split <;> omega
    unfold nearest
    rw [hd]
    simp only [Option.isNone_none, Bool.true_or, if_true]
    exact nearest_some f n ts a

/-- The order of "max<". -/
def Better (n : Nat) (a b : Track) : Prop := (b.bps ≤ n ∧ a.bps ≤ n ∧ b.bps < a.bps) ∨ (n < b.bps ∧ a.bps < b.bps)

theorem Better.chain {n : Nat} {a b c : Track} (h1 : ¬ Better n a b) (h2 : ¬ Better n b c) : ¬ Better n a c := by
  unfold Better at *
  omega

theorem highest_some (n : Nat) (ts : List Track) (c : Track) :
    ∃ t ∈ c :: ts, highestUpTo n ts (some c) (dist c.bps n) (decide (c.bps ≤ n)) = some t ∧ ∀ u ∈ c :: ts, ¬ Better n u t := by
  induction ts generalizing c with
  | nil =>
    refine ⟨c, List.mem_cons_self, rfl, ?_⟩
    intro u hu
    simp only [List.mem_singleton] at hu
    subst hu
    unfold Better
    omega
  | cons a ts ih =>
    have take : ¬ Better n c a → ∃ t ∈ c :: a :: ts, highestUpTo n ts (some a) (dist a.bps n) (decide (a.bps ≤ n)) = some t ∧ ∀ u ∈ c :: a :: ts, ¬ Better n u t := by
      intro hb
      obtain ⟨t, ht, h1, h2⟩ := ih a
      refine ⟨t, List.mem_cons_of_mem _ ht, h1, ?_⟩
      intro u hu
      rcases List.mem_cons.1 hu with rfl | hu
      · exact Better.chain hb (h2 a List.mem_cons_self)
      · exact h2 u hu
    have skip : ¬ Better n a c → ∃ t ∈ c :: a :: ts, highestUpTo n ts (some c) (dist c.bps n) (decide (c.bps ≤ n)) = some t ∧ ∀ u ∈ c :: a :: ts, ¬ Better n u t := by
      intro hb
      obtain ⟨t, ht, h1, h2⟩ := ih c
      refine ⟨t, ?_, h1, ?_⟩
      · rcases List.mem_cons.1 ht with rfl | ht
        · exact List.mem_cons_self
        · exact List.mem_cons_of_mem _ (List.mem_cons_of_mem _ ht)
      intro u hu
      rcases List.mem_cons.1 hu with rfl | hu
      · exact h2 u List.mem_cons_self
      rcases List.mem_cons.1 hu with rfl | hu
      · exact Better.chain hb (h2 c List.mem_cons_self)
      · exact h2 u (List.mem_cons_of_mem _ hu)
    unfold highestUpTo
    by_cases ha : a.bps ≤ n
    · rw [if_pos ha]
      have hda : dist a.bps n = n - a.bps := by unfold dist; omega
      by_cases hc : c.bps ≤ n
      · have hdc : dist c.bps n = n - c.bps := by unfold dist; omega
        by_cases hlt : dist c.bps n > n - a.bps
        · rw [if_pos (by simp [hlt])]
          have := take (by unfold Better; omega)
          rw [hda, decide_eq_true ha] at this
          exact this
        · rw [if_neg (by simp [hlt, hc])]
          have := skip (by unfold Better; omega)
          rw [decide_eq_true hc] at this
          exact this
      · rw [if_pos (by simp [hc])]
        have := take (by unfold Better; omega)
        rw [hda, decide_eq_true ha] at this
        exact this
    · rw [if_neg ha]
      have hda : dist a.bps n = a.bps - n := by unfold dist; omega
      by_cases hc : c.bps ≤ n
      · rw [if_neg (by simp [hc])]
        exact skip (by unfold Better; omega)
      · rw [if_pos (by simp [hc])]
        have hdc : dist c.bps n = c.bps - n := by unfold dist; omega
        by_cases hlt : dist c.bps n > a.bps - n
        · rw [if_pos (by simp [hlt])]
          have := take (by unfold Better; omega)
          rw [hda, decide_eq_false ha] at this
          rw [decide_eq_false hc]
          exact this
        · rw [if_neg (by simp [hlt])]
          exact skip (by unfold Better; omega)

theorem highest_spec (n : Nat) (ts : List Track) :
    (ts = [] ∧ highestUpTo n ts none 0 false = none) ∨ ∃ t ∈ ts, highestUpTo n ts none 0 false = some t ∧ ∀ u ∈ ts, ¬ Better n u t := by
  cases ts with
  | nil => exact Or.inl ⟨rfl, rfl⟩
  | cons a ts =>
    right
    have h := highest_some n ts a
    unfold highestUpTo
    by_cases ha : a.bps ≤ n
    · rw [if_pos ha, if_pos (by simp)]
      rw [decide_eq_true ha, show dist a.bps n = n - a.bps from by unfold dist; omega] at h
      exact h
    · rw [if_neg ha, if_pos (by simp), if_pos (by simp)]
      rw [decide_eq_false ha, show dist a.bps n = a.bps - n from by unfold dist; omega] at h
      exact h

end Verif.Select
