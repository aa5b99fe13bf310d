import Verif.Load.Spec

/-!
# C94: the load balancer chooses the best server; C95: what it knows of servers, and how it spreads viewers
-/
namespace Verif.Load
open Verif.Load.Spec

/-! ## Helpers -/

theorem best_spec (f : Nat → Entry → Option Nat) (l : List Entry) (n : Nat) (r : Option Nat × Nat) :
    (best f l n r = r ∧ ∀ (j : Nat) e x, l[j]? = some e → f (n + j) e = some x → x ≤ r.2) ∨
    ∃ i e x, l[i]? = some e ∧ f (n + i) e = some x ∧ r.2 < x ∧ best f l n r = (some (n + i), x) ∧
      ∀ (j : Nat) e' y, l[j]? = some e' → f (n + j) e' = some y → y ≤ x ∧ (j < i → y < x) := by
  induction l generalizing n r with
  | nil => exact Or.inl ⟨rfl, fun j e x h => by simp at h⟩
  | cons e l ih =>
    rw [best]
    cases hf : f n e with
    | none =>
      simp only
      rcases ih (n + 1) r with ⟨h1, h2⟩ | ⟨i, e', x, h1, h2, h3, h4, h5⟩
      · left
        refine ⟨h1, fun j e'' x hj hx => ?_⟩
        cases j with
        | zero =>
          rw [List.getElem?_cons_zero] at hj
          rw [← Option.some.inj hj, Nat.add_zero, hf] at hx; cases hx
        | succ j => exact h2 j e'' x hj (by rw [← hx]; congr 1; omega)
      · right
        refine ⟨i + 1, e', x, h1, by rw [← h2]; congr 1; omega, h3, by rw [h4]; congr 2; omega, fun j e'' y hj hy => ?_⟩
        cases j with
        | zero =>
          rw [List.getElem?_cons_zero] at hj
          rw [← Option.some.inj hj, Nat.add_zero, hf] at hy; cases hy
        | succ j =>
          have := h5 j e'' y hj (by rw [← hy]; congr 1; omega)
          exact ⟨this.1, fun hlt => this.2 (by omega)⟩
    | some score =>
      simp only
      by_cases hs : score > r.2
      · rw [if_pos hs]
        right
        rcases ih (n + 1) (some n, score) with ⟨h1, h2⟩ | ⟨i, e', x, h1, h2, h3, h4, h5⟩
        · refine ⟨0, e, score, rfl, hf, hs, h1, fun j e'' y hj hy => ?_⟩
          cases j with
          | zero =>
            rw [List.getElem?_cons_zero] at hj
            rw [← Option.some.inj hj, Nat.add_zero, hf] at hy
            exact ⟨Nat.le_of_eq (Option.some.inj hy).symm, fun h => absurd h (by omega)⟩
          | succ j => exact ⟨h2 j e'' y hj (by rw [← hy]; congr 1; omega), fun h => absurd h (by omega)⟩
        · simp only at h3
          refine ⟨i + 1, e', x, h1, by rw [← h2]; congr 1; omega, by omega, by rw [h4]; congr 2; omega, fun j e'' y hj hy => ?_⟩
          cases j with
          | zero =>
            rw [List.getElem?_cons_zero] at hj
            rw [← Option.some.inj hj, Nat.add_zero, hf] at hy
            have := Option.some.inj hy
            exact ⟨by omega, fun _ => by omega⟩
          | succ j =>
            have := h5 j e'' y hj (by rw [← hy]; congr 1; omega)
            exact ⟨this.1, fun hlt => this.2 (by omega)⟩
      · rw [if_neg hs]
        rcases ih (n + 1) r with ⟨h1, h2⟩ | ⟨i, e', x, h1, h2, h3, h4, h5⟩
        · left
          refine ⟨h1, fun j e'' x hj hx => ?_⟩
          cases j with
          | zero =>
            rw [List.getElem?_cons_zero] at hj
            rw [← Option.some.inj hj, Nat.add_zero, hf] at hx
            have := Option.some.inj hx
            omega
          | succ j => exact h2 j e'' x hj (by rw [← hx]; congr 1; omega)
        · right
          refine ⟨i + 1, e', x, h1, by rw [← h2]; congr 1; omega, h3, by rw [h4]; congr 2; omega, fun j e'' y hj hy => ?_⟩
          cases j with
          | zero =>
            rw [List.getElem?_cons_zero] at hj
            rw [← Option.some.inj hj, Nat.add_zero, hf] at hy
            have := Option.some.inj hy
            exact ⟨by omega, fun _ => by omega⟩
          | succ j =>
            have := h5 j e'' y hj (by rw [← hy]; congr 1; omega)
            exact ⟨this.1, fun hlt => this.2 (by omega)⟩

theorem best_choice (f : Nat → Entry → Option Nat) (E : List Entry) :
    (∀ i, (if (best f E 0 (none, 0)).2 = 0 then none else (best f E 0 (none, 0)).1) = some i →
      ∃ e x, E[i]? = some e ∧ f i e = some x ∧ 0 < x ∧ ∀ (j : Nat) e' y, E[j]? = some e' → f j e' = some y → y ≤ x ∧ (j < i → y < x)) ∧
    ((if (best f E 0 (none, 0)).2 = 0 then none else (best f E 0 (none, 0)).1) = none → ∀ (j : Nat) e x, E[j]? = some e → f j e = some x → x = 0) := by
  rcases best_spec f E 0 (none, 0) with ⟨h1, h2⟩ | ⟨i, e, x, h1, h2, h3, h4, h5⟩
  · rw [h1]
    refine ⟨fun i hi => by simp at hi, fun _ j e x hj hx => ?_⟩
    have := h2 j e x hj (by rw [Nat.zero_add]; exact hx)
    simp only at this
    omega
  · rw [h4]
    simp only at h3 ⊢
    rw [if_neg (by omega), Nat.zero_add]
    refine ⟨fun k hk => ?_, fun hc => by cases hc⟩
    rw [← Option.some.inj hk]
    refine ⟨e, x, h1, by rw [← h2, Nat.zero_add], h3, fun j e' y hj hy => ?_⟩
    exact h5 j e' y hj (by rw [Nat.zero_add]; exact hy)

theorem base_of (s : Bytes) : BaseOf s (base s) := by
  refine ⟨s.dropWhile fun c => c ≠ 43 ∧ c ≠ 32, ?_, ?_, ?_, ?_⟩
  · exact (List.takeWhile_append_dropWhile).symm
  · intro h
    have := List.all_takeWhile (p := fun c : UInt8 => decide (c ≠ 43 ∧ c ≠ 32)) (l := s)
    have := List.all_eq_true.mp this _ h
    simp at this
  · intro h
    have := List.all_takeWhile (p := fun c : UInt8 => decide (c ≠ 43 ∧ c ≠ 32)) (l := s)
    have := List.all_eq_true.mp this _ h
    simp at this
  · intro c hc
    have := List.head?_dropWhile_not (fun c : UInt8 => decide (c ≠ 43 ∧ c ≠ 32)) s
    rw [hc] at this
    simp only [ne_eq, Bool.decide_and, decide_not, Bool.and_eq_false_imp] at this
    by_cases h : c = 43
    · exact Or.inl h
    · right
      have := this (by simpa using h)
      simpa using this

theorem base_unique {s b : Bytes} (h : BaseOf s b) : b = base s := by
  obtain ⟨r, rfl, h1, h2, h3⟩ := h
  unfold base
  induction b with
  | nil =>
    cases r with
    | nil => rfl
    | cons c r =>
      rw [List.nil_append, List.takeWhile_cons]
      rcases h3 c rfl with rfl | rfl <;> simp
  | cons c b ih =>
    rw [List.mem_cons, not_or] at h1 h2
    rw [List.cons_append, List.takeWhile_cons, if_pos (by
      rw [decide_eq_true_iff]
      exact ⟨fun h => h1.1 h.symm, fun h => h2.1 h.symm⟩), ← ih h1.2 h2.2]

theorem offers_iff {h : Host} {s : Bytes} : Offers h s ↔ ¬ (h.conf ≠ [] ∧ s ∉ h.conf ∧ base s ∉ h.conf) := by
  constructor
  · rintro (h1 | h1 | ⟨b, h1, h2⟩) ⟨g1, g2, g3⟩
    · exact g1 h1
    · exact g2 h1
    · rw [base_unique h1] at h2; exact g3 h2
  · intro hn
    by_cases h1 : h.conf = []
    · exact Or.inl h1
    · by_cases h2 : s ∈ h.conf
      · exact Or.inr (Or.inl h2)
      · by_cases h3 : base s ∈ h.conf
        · exact Or.inr (Or.inr ⟨_, base_of s, h3⟩)
        · exact absurd ⟨h1, h2, h3⟩ hn

theorem share_le {a m w : Nat} (h : a ≤ m) : a * w / m ≤ w := by
  by_cases hm : m = 0
  · subst hm; simp
  · exact Nat.div_le_of_le_mul (by rw [Nat.mul_comm m w, Nat.mul_comm a w]; exact Nat.mul_le_mul_left w h)

theorem sub64_eq {a b : Nat} (h : b ≤ a) (ha : a < 2 ^ 64) : sub64 a b = a - b := by
  unfold sub64
  omega

theorem mul_lt {a w : Nat} (ha : a < 2 ^ 50) (hw : w < 2 ^ 13) : a * w < 2 ^ 64 := by
  calc a * w ≤ 2 ^ 50 * 2 ^ 13 := Nat.mul_le_mul (Nat.le_of_lt ha) (Nat.le_of_lt hw)
    _ < 2 ^ 64 := by decide

theorem scores {W : Weights} {h : Host} (hs : Sane W h) (hr : Room h) : cpuScore W h + ramScore W h + bwScore W h = points W h := by
  obtain ⟨w1, w2, w3, w4⟩ := hs.weights
  have l1 : h.cpu * W.cpu / 1000 ≤ W.cpu := share_le hs.cpu
  have l2 : h.ramCurr * W.ram / h.ramMax ≤ W.ram := share_le hs.ram
  have l3 : (h.up + h.add) * W.bw / h.avail ≤ W.bw := share_le (Nat.le_of_lt hr)
  have m1 : h.cpu * W.cpu < 2 ^ 64 := mul_lt (by have := hs.cpu; omega) w1
  have m2 : h.ramCurr * W.ram < 2 ^ 64 := mul_lt (by have := hs.ram; have := hs.mem.2; omega) w2
  have m3 : (h.up + h.add) * W.bw < 2 ^ 64 := mul_lt hs.use w3
  have hu := hs.use
  unfold cpuScore ramScore bwScore points
  rw [Nat.mod_eq_of_lt m1, Nat.mod_eq_of_lt m2, Nat.mod_eq_of_lt (show h.up + h.add < 2 ^ 64 by omega), Nat.mod_eq_of_lt m3,
    sub64_eq l1 (by omega), sub64_eq l2 (by omega), sub64_eq l3 (by omega)]

theorem points_pos {W : Weights} {h : Host} (hs : Sane W h) (hr : Room h) (hw : 0 < W.bw) : 0 < points W h := by
  unfold points
  have : (h.up + h.add) * W.bw / h.avail < W.bw := by
    rw [Nat.div_lt_iff_lt_mul hs.link.1, Nat.mul_comm]
    exact Nat.mul_lt_mul_of_pos_left hr hw
  omega

theorem points_lt {W : Weights} {h : Host} (hs : Sane W h) : points W h < 2 ^ 15 := by
  obtain ⟨w1, w2, w3, w4⟩ := hs.weights
  unfold points
  have a1 := Nat.sub_le W.cpu (h.cpu * W.cpu / 1000)
  have a2 := Nat.sub_le W.ram (h.ramCurr * W.ram / h.ramMax)
  have a3 := Nat.sub_le W.bw ((h.up + h.add) * W.bw / h.avail)
  generalize W.cpu - h.cpu * W.cpu / 1000 = x1 at *
  generalize W.ram - h.ramCurr * W.ram / h.ramMax = x2 at *
  generalize W.bw - (h.up + h.add) * W.bw / h.avail = x3 at *
  omega

theorem adjusted_eq {score : Nat} {a : Int} (h : (score : Int) + a < 2 ^ 64) : adjusted score a = ((score : Int) + a).toNat := by
  unfold adjusted
  by_cases hc : a ≥ 0 ∨ -a < (score : Int)
  · rw [if_pos hc]
    congr 1
    exact Int.emod_eq_of_lt (by omega) h
  · rw [if_neg hc]
    omega

/-! ## Tags -/

theorem anyTag_spec (tags : List Bytes) (n cur r : Bytes) (hn : 44 ∉ n) : anyTag tags (n ++ r) cur =
    match r with
    | [] => decide (cur.reverse ++ n ∈ tags)
    | c :: r' => if c = 44 then decide (cur.reverse ++ n ∈ tags) || anyTag tags r' [] else anyTag tags (c :: r') (n.reverse ++ cur) := by
  induction n generalizing cur with
  | nil =>
    cases r with
    | nil => simp [anyTag]
    | cons c r =>
      simp only [List.nil_append, List.append_nil, List.reverse_nil]
      by_cases hc : c = 44
      · rw [if_pos hc, anyTag, if_pos hc]
      · rw [if_neg hc]
  | cons x n ih =>
    rw [List.mem_cons, not_or] at hn
    rw [List.cons_append, anyTag, if_neg (fun h => hn.1 h.symm), ih _ hn.2]
    cases r with
    | nil => simp
    | cons c r => simp

theorem anyTag_names (tags names : List Bytes) (hne : names ≠ []) (hn : ∀ n ∈ names, 44 ∉ n) :
    anyTag tags ([44].intercalate names) [] = decide (∃ n ∈ names, n ∈ tags) := by
  induction names with
  | nil => exact absurd rfl hne
  | cons n names ih =>
    cases names with
    | nil =>
      have := anyTag_spec tags n [] [] (hn n List.mem_cons_self)
      rw [List.append_nil] at this
      rw [show [44].intercalate [n] = n by simp [List.intercalate], this]
      apply Bool.eq_iff_iff.mpr
      simp
      exact decide_eq_true_iff
    | cons m names =>
      have e : [44].intercalate (n :: m :: names) = n ++ (44 :: [44].intercalate (m :: names)) := by
        simp [List.intercalate]
      rw [e, anyTag_spec tags n [] _ (hn n List.mem_cons_self)]
      simp only [if_true, List.reverse_nil, List.nil_append]
      rw [ih (by simp) fun x hx => hn x (List.mem_cons_of_mem _ hx)]
      apply Bool.eq_iff_iff.mpr
      simp
      exact or_congr decide_eq_true_iff Iff.rfl

/-- **C94** (adjustments by tags). An adjustment applies just if its condition holds: one of its names is a tag of the server or, after a minus
sign, none of them. -/
theorem C94_tags (t : Tagged) (ht : t.Plain) (tags : List Bytes) (a : Int) :
    applyAdjustment tags t.text a = if t.Holds tags then a else 0 := by
  obtain ⟨none, names⟩ := t
  obtain ⟨hne, hn, hp⟩ := ht
  simp only at hne hn hp
  have hany := anyTag_names tags names hne hn
  cases none with
  | true =>
    have hh : Tagged.Holds ⟨true, names⟩ tags ↔ ∀ n ∈ names, n ∉ tags := Iff.rfl
    have ht : Tagged.text ⟨true, names⟩ = 45 :: [44].intercalate names := rfl
    rw [ht, applyAdjustment, if_pos rfl, hany]
    by_cases h : ∃ n ∈ names, n ∈ tags
    · rw [decide_eq_true h, if_neg (by simp), if_neg]
      intro hc
      obtain ⟨n, h1, h2⟩ := h
      exact hh.mp hc n h1 h2
    · rw [decide_eq_false h, if_pos rfl, if_pos]
      exact hh.mpr fun n h1 h2 => h ⟨n, h1, h2⟩
  | false =>
    have hh : Tagged.Holds ⟨false, names⟩ tags ↔ ∃ n ∈ names, n ∈ tags := Iff.rfl
    have ht : Tagged.text ⟨false, names⟩ = [44].intercalate names := rfl
    obtain ⟨h0, h1⟩ := hp rfl
    have hx : ∃ c r, [44].intercalate names = c :: r ∧ c ≠ 45 := by
      cases names with
      | nil => exact absurd rfl hne
      | cons n names =>
        rw [List.head?_cons] at h0 h1
        cases n with
        | nil => exact absurd rfl h0
        | cons c n =>
          have hc : c ≠ 45 := fun h => h1 (c :: n) rfl (by rw [List.head?_cons, h])
          cases names with
          | nil => exact ⟨c, n, by simp [List.intercalate], hc⟩
          | cons m names => exact ⟨c, n ++ 44 :: [44].intercalate (m :: names), by simp [List.intercalate], hc⟩
    obtain ⟨c, r, hcr, hc⟩ := hx
    rw [ht]
    rw [hcr] at hany ⊢
    rw [applyAdjustment, if_neg hc, hany]
    by_cases h : ∃ n ∈ names, n ∈ tags
    · rw [decide_eq_true h, if_pos rfl, if_pos (hh.mpr h)]
    · rw [decide_eq_false h, if_neg (by simp), if_neg (fun hc => h (hh.mp hc))]

theorem adjustment_eq (tags : List Bytes) (l : List (Tagged × Int)) (hl : ∀ a ∈ l, a.1.Plain) : adjustment tags (texts l) = tagPoints tags l := by
  unfold adjustment texts tagPoints
  rw [List.map_map]
  congr 1
  apply List.map_congr_left
  intro a ha
  exact C94_tags a.1 (hl a ha) tags a.2

/-! ## C94 -/

/-- **C94** (the choice). The server for a viewer is one that is online, with a positive score that no other server that is online
exceeds; of equal ones it is the first. If there is none, no server that is online has a positive score. -/
theorem C94_choice (W : Weights) (E : List Entry) (s : Bytes) (geo : Nat → Nat) (adj : List (Bytes × Int)) :
    (∀ i, choose W E s geo adj = some i → ∃ e, E[i]? = some e ∧ e.state = .online ∧ 0 < rate W e.host s (geo i) adj ∧
      ∀ (j : Nat) e', E[j]? = some e' → e'.state = .online →
        rate W e'.host s (geo j) adj ≤ rate W e.host s (geo i) adj ∧ (j < i → rate W e'.host s (geo j) adj < rate W e.host s (geo i) adj)) ∧
    (choose W E s geo adj = none → ∀ (j : Nat) e, E[j]? = some e → e.state = .online → rate W e.host s (geo j) adj = 0) := by
  obtain ⟨h1, h2⟩ := best_choice (rated W s geo adj) E
  constructor
  · intro i hi
    obtain ⟨e, x, g1, g2, g3, g4⟩ := h1 i hi
    have hon : e.state = .online ∧ rate W e.host s (geo i) adj = x := by
      unfold rated at g2
      split at g2
      · next h => exact ⟨h, Option.some.inj g2⟩
      · cases g2
    refine ⟨e, g1, hon.1, by rw [hon.2]; exact g3, fun j e' hj ho => ?_⟩
    rw [hon.2]
    exact g4 j e' _ hj (by unfold rated; rw [if_pos ho])
  · intro hn j e hj ho
    exact h2 hn j e _ hj (by unfold rated; rw [if_pos ho])

/-- **C94** (only suitable servers). Viewers are sent only to servers that offer the stream and have bandwidth left. -/
theorem C94_suitable (W : Weights) (h : Host) (s : Bytes) (geo : Nat) (adj : List (Bytes × Int)) (hsmall : h.up + h.add < 2 ^ 64)
    (hp : 0 < rate W h s geo adj) : Offers h s ∧ Room h ∧ 0 < h.ramMax := by
  unfold rate at hp
  by_cases h1 : h.ramMax = 0 ∨ h.avail = 0
  · rw [if_pos h1] at hp; omega
  · rw [if_neg h1] at hp
    by_cases h2 : h.up ≥ h.avail ∨ (h.up + h.add) % 2 ^ 64 ≥ h.avail
    · rw [if_pos h2] at hp; omega
    · rw [if_neg h2] at hp
      by_cases h3 : h.conf ≠ [] ∧ s ∉ h.conf ∧ base s ∉ h.conf
      · rw [if_pos h3] at hp; omega
      · rw [Nat.mod_eq_of_lt hsmall] at h2
        exact ⟨offers_iff.mpr h3, by unfold Room; omega, by omega⟩

theorem bonus_eq (W : Weights) (h : Host) (s : Bytes) : (if (h.streams.lookup s).isSome then W.bonus else 0) = bonus W h s := by
  unfold bonus
  have : (h.streams.lookup s).isSome = true ↔ s ∈ h.streams.map Prod.fst := by
    induction h.streams with
    | nil => simp
    | cons p l ih =>
      rw [List.lookup_cons, List.map_cons, List.mem_cons]
      by_cases hp : s = p.1
      · subst hp
        simp
      · have : (s == p.1) = false := by simpa using hp
        rw [this]
        simp only
        rw [ih]
        exact ⟨Or.inr, fun h => h.resolve_left hp⟩
  by_cases hx : s ∈ h.streams.map Prod.fst
  · rw [if_pos hx, if_pos (this.mpr hx)]
  · rw [if_neg hx, if_neg (fun hc => hx (this.mp hc))]

/-- **C94** (partly: the score). The score of a server that offers the stream and has bandwidth left is the sum of the points for what it has
left, for the distance, for having the stream, and for tags; or zero if that is negative. Missing: servers that report to use more
than they have, whose points can become negative and then are the largest of all (`C94_overload_fails`). -/
theorem C94_score_partial (W : Weights) (h : Host) (s : Bytes) (geo : Nat) (adj : List (Tagged × Int)) (hs : Sane W h) (hr : Room h) (ho : Offers h s)
    (hgeo : geo < 2 ^ 32) (hadj : ∀ a ∈ adj, a.1.Plain) (hsmall : tagPoints h.tags adj < 2 ^ 62) :
    rate W h s geo (texts adj) = ((points W h + geo + bonus W h s : Nat) + tagPoints h.tags adj : Int).toNat := by
  unfold rate
  have hsp := points_lt hs
  have hb : bonus W h s < 2 ^ 13 := by
    unfold bonus
    have := hs.weights.2.2.2
    split <;> omega
  rw [if_neg (by have := hs.mem; have := hs.link; omega), if_neg (by
    have := hs.use
    rw [Nat.mod_eq_of_lt (by omega)]
    unfold Room at hr
    omega), if_neg (offers_iff.mp ho), bonus_eq, scores hs hr, Nat.mod_eq_of_lt (by omega), adjustment_eq _ _ hadj]
  rw [adjusted_eq (by omega)]

/-- **C94** (partly: viewers are not turned away). If no adjustments are asked for, the fallback is given only if no server that is online offers the
stream and has bandwidth left (for servers that do not use more than they have). -/
theorem C94_found_partial (W : Weights) (E : List Entry) (s : Bytes) (geo : Nat → Nat) (hw : 0 < W.bw) (hgeo : ∀ i, geo i < 2 ^ 32)
    (hs : ∀ e ∈ E, e.state = .online → Sane W e.host) :
    choose W E s geo [] = none ↔ ∀ e ∈ E, e.state = .online → ¬ (Offers e.host s ∧ Room e.host) := by
  obtain ⟨h1, h2⟩ := C94_choice W E s geo []
  constructor
  · rintro hn e he ho ⟨g1, g2⟩
    obtain ⟨j, hj, rfl⟩ := List.mem_iff_getElem.mp he
    have := h2 hn j _ (List.getElem?_eq_getElem hj) ho
    have hsc := C94_score_partial W E[j].host s (geo j) [] (hs _ he ho) g2 g1 (hgeo j) (fun a ha => by cases ha) (show (0 : Int) < 2 ^ 62 by decide)
    rw [show texts [] = [] from rfl] at hsc
    rw [this] at hsc
    have hp := points_pos (hs _ he ho) g2 hw
    have : tagPoints E[j].host.tags [] = 0 := rfl
    rw [this] at hsc
    omega
  · intro hall
    cases hc : choose W E s geo [] with
    | none => rfl
    | some i =>
      obtain ⟨e, g1, g2, g3, _⟩ := h1 i hc
      have he := List.mem_of_getElem? g1
      have hu := (hs e he g2).use
      obtain ⟨q1, q2, _⟩ := C94_suitable W e.host s (geo i) [] (by omega) g3
      exact absurd ⟨q1, q2⟩ (hall e he g2)

theorem share_mono {a m a' m' w : Nat} (hm : 0 < m) (hm' : 0 < m') (h : a' * m ≤ a * m') : a' * w / m' ≤ a * w / m := by
  rw [Nat.le_div_iff_mul_le hm]
  have h1 : a' * w / m' * m' ≤ a' * w := Nat.div_mul_le_self _ _
  generalize a' * w / m' = q at *
  apply Nat.le_of_mul_le_mul_right _ hm'
  calc q * m * m' = q * m' * m := by rw [Nat.mul_assoc, Nat.mul_comm m m', Nat.mul_assoc]
    _ ≤ a' * w * m := Nat.mul_le_mul_right m h1
    _ = a' * m * w := by rw [Nat.mul_assoc, Nat.mul_comm w m, Nat.mul_assoc]
    _ ≤ a * m' * w := Nat.mul_le_mul_right w h
    _ = a * w * m' := by rw [Nat.mul_assoc, Nat.mul_comm m' w, Nat.mul_assoc]

/-- **C94** (partly: less load is better). A server that uses no larger share of its processor, memory and bandwidth than another one, is
not farther away, has the stream if the other has it and has no fewer points for tags, does not have a lower score. -/
theorem C94_less_load_partial (W : Weights) (h h' : Host) (s : Bytes) (geo geo' : Nat) (adj : List (Tagged × Int)) (hs : Sane W h) (hs' : Sane W h')
    (hr : Room h') (ho : Offers h' s) (hgeo : geo < 2 ^ 32 ∧ geo' < 2 ^ 32) (hadj : ∀ a ∈ adj, a.1.Plain)
    (hsmall : tagPoints h.tags adj < 2 ^ 62 ∧ tagPoints h'.tags adj < 2 ^ 62)
    (hcpu : h'.cpu ≤ h.cpu) (hram : h'.ramCurr * h.ramMax ≤ h.ramCurr * h'.ramMax) (hbw : (h'.up + h'.add) * h.avail ≤ (h.up + h.add) * h'.avail)
    (hfar : geo ≤ geo') (hhas : s ∈ h.streams.map Prod.fst → s ∈ h'.streams.map Prod.fst) (htag : tagPoints h.tags adj ≤ tagPoints h'.tags adj) :
    rate W h s geo (texts adj) ≤ rate W h' s geo' (texts adj) := by
  by_cases hok : Offers h s ∧ Room h
  · rw [C94_score_partial W h s geo adj hs hok.2 hok.1 hgeo.1 hadj hsmall.1, C94_score_partial W h' s geo' adj hs' hr ho hgeo.2 hadj hsmall.2]
    have c1 : h'.cpu * W.cpu / 1000 ≤ h.cpu * W.cpu / 1000 := Nat.div_le_div_right (Nat.mul_le_mul_right _ hcpu)
    have c2 := share_mono (w := W.ram) hs.mem.1 hs'.mem.1 hram
    have c3 := share_mono (w := W.bw) hs.link.1 hs'.link.1 hbw
    have hp : points W h ≤ points W h' := by
      unfold points
      omega
    have hb : bonus W h s ≤ bonus W h' s := by
      unfold bonus
      by_cases hx : s ∈ h.streams.map Prod.fst
      · rw [if_pos hx, if_pos (hhas hx)]; exact Nat.le_refl _
      · rw [if_neg hx]; exact Nat.zero_le _
    omega
  · have hz : rate W h s geo (texts adj) = 0 := by
      cases hx : rate W h s geo (texts adj) with
      | zero => rfl
      | succ n =>
        exfalso
        have hu := hs.use
        obtain ⟨q1, q2, _⟩ := C94_suitable W h s geo (texts adj) (by omega) (by omega)
        exact hok ⟨q1, q2⟩
    rw [hz]
    exact Nat.zero_le _

/-! ### Sources -/

/-- **C94** (sources). The server that is named as the source of a stream is online, does not have the address of the client and has the stream from an
input of its own; no other such server has a higher score. If there is none, no server that is online and has another address has the stream from
an input of its own. -/
theorem C94_source (W : Weights) (E : List Entry) (s client : Bytes) (geo : Nat → Nat) (adj : List (Bytes × Int)) (hs : s ≠ []) :
    (∀ i, chooseSource W E s client geo adj = some i → ∃ e, E[i]? = some e ∧ e.state = .online ∧ e.host.bin ≠ client ∧ HasInput e.host s ∧
      ∀ (j : Nat) e', E[j]? = some e' → e'.state = .online → e'.host.bin ≠ client → source W e'.host s 0 [] 0 ≤ source W e.host s 0 [] 0) ∧
    ((∀ e ∈ E, Sane W e.host) → chooseSource W E s client geo adj = none → ∀ e ∈ E, e.state = .online → e.host.bin ≠ client → ¬ HasInput e.host s) := by
  obtain ⟨h1, h2⟩ := best_choice (sourced W s (fun _ => 0) [] client) E
  have hin : ∀ h : Host, HasInput h s ↔ (match h.streams.lookup s with | none => true | some x => x.inputs == 0 || x.rep) ≠ true := by
    intro h
    unfold HasInput
    cases h.streams.lookup s with
    | none => simp
    | some x =>
      simp only [Option.some.injEq, exists_eq_left', ne_eq, Bool.or_eq_true, beq_iff_eq, not_or, Bool.not_eq_true]
      constructor <;> (rintro ⟨a, b⟩; exact ⟨by omega, b⟩)
  constructor
  · intro i hi
    obtain ⟨e, x, g1, g2, g3, g4⟩ := h1 i hi
    have hon : (e.state = .online ∧ e.host.bin ≠ client) ∧ source W e.host s 0 [] 0 = x := by
      unfold sourced at g2
      split at g2
      · next h => exact ⟨h, Option.some.inj g2⟩
      · cases g2
    refine ⟨e, g1, hon.1.1, hon.1.2, ?_, fun j e' hj ho hb => ?_⟩
    · rw [hin]
      intro hc
      have := hon.2
      unfold source at this
      rw [if_pos ⟨hs, hc⟩] at this
      omega
    · rw [hon.2]
      exact (g4 j e' _ hj (by unfold sourced; rw [if_pos ⟨ho, hb⟩])).1
  · intro hsane hn e he ho hb hi
    obtain ⟨j, hj, rfl⟩ := List.mem_iff_getElem.mp he
    have hz := h2 hn j _ _ (List.getElem?_eq_getElem hj) (by unfold sourced; rw [if_pos ⟨ho, hb⟩])
    have hsn := hsane _ he
    have hu := hsn.use
    simp only at hz
    unfold source at hz
    rw [if_neg (fun hc => (hin _).mp hi hc.2), if_neg (by have := hsn.mem; have := hsn.link; omega)] at hz
    by_cases hroom : Room E[j].host
    · rw [if_neg (by
        rw [Nat.mod_eq_of_lt (by omega)]
        unfold Room at hroom
        omega), if_neg (by simp)] at hz
      have hsc := scores hsn hroom
      have hsp := points_lt hsn
      rw [hsc, Nat.mod_eq_of_lt (by omega), show adjustment E[j].host.tags [] = 0 from rfl, adjusted_eq (by omega)] at hz
      omega
    · rw [if_pos (by
        rw [Nat.mod_eq_of_lt (by omega)]
        unfold Room at hroom
        omega)] at hz
      omega

/-- **C94** (sources that are full are the last resort). A server without bandwidth left is named as a source only if all others are so too. -/
theorem C94_source_room (W : Weights) (E : List Entry) (s client : Bytes) (geo : Nat → Nat) (adj : List (Bytes × Int)) (hs : s ≠ []) (hw : 0 < W.bw)
    (hsane : ∀ e ∈ E, Sane W e.host) (i : Nat) (e : Entry) (hi : chooseSource W E s client geo adj = some i) (he : E[i]? = some e) (hfull : ¬ Room e.host) :
    ∀ e' ∈ E, e'.state = .online → e'.host.bin ≠ client → HasInput e'.host s → ¬ Room e'.host := by
  intro e' he' ho hb hin hroom
  obtain ⟨e2, g1, g2, g3, g4, g5⟩ := (C94_source W E s client geo adj hs).1 i hi
  rw [he] at g1
  obtain rfl := Option.some.inj g1
  obtain ⟨j, hj, rfl⟩ := List.mem_iff_getElem.mp he'
  have := g5 j _ (List.getElem?_eq_getElem hj) ho hb
  have hsn := hsane _ he'
  have hse := hsane e (List.mem_of_getElem? he)
  have h1 : source W e.host s 0 [] 0 ≤ 1 := by
    have hf : e.host.up ≥ e.host.avail ∨ (e.host.up + e.host.add) % 2 ^ 64 ≥ e.host.avail := by
      rw [Nat.mod_eq_of_lt (by have := hse.use; omega)]
      unfold Room at hfull
      omega
    obtain ⟨y, hy, hy1, hy2⟩ := g4
    unfold source
    rw [if_neg (by
      rintro ⟨_, hc⟩
      rw [hy] at hc
      simp only [Bool.or_eq_true, beq_iff_eq] at hc
      rcases hc with hc | hc
      · omega
      · rw [hy2] at hc; cases hc), if_neg (by have := hse.mem; have := hse.link; omega), if_pos hf]
    exact Nat.le_refl _
  have h2 : 2 ≤ source W E[j].host s 0 [] 0 := by
    have hu := hsn.use
    obtain ⟨x, hx, hx1, hx2⟩ := hin
    unfold source
    rw [if_neg (by
      rintro ⟨_, hc⟩
      rw [hx] at hc
      simp only [Bool.or_eq_true, beq_iff_eq] at hc
      rcases hc with hc | hc
      · omega
      · rw [hx2] at hc; cases hc), if_neg (by have := hsn.mem; have := hsn.link; omega), if_neg (by
        rw [Nat.mod_eq_of_lt (by omega)]
        unfold Room at hroom
        omega), if_neg (by simp)]
    have hsc := scores hsn hroom
    have hsp := points_lt hsn
    have hpos := points_pos hsn hroom hw
    rw [hsc, Nat.mod_eq_of_lt (by omega), show adjustment E[j].host.tags [] = 0 from rfl, adjusted_eq (by omega)]
    omega
  omega

/-! ### Cases -/

/-- The weights without options (util_load.cpp 20-24). -/
private def W0 : Weights := ⟨500, 500, 1000, 50⟩
/-- A server with memory and little load. -/
private def idle : Host := { name := [97], bin := [1], cpu := 100, ramMax := 1000, ramCurr := 100 }
/-- A server with much load. -/
private def busy : Host := { name := [98], bin := [2], cpu := 900, ramMax := 1000, ramCurr := 900, up := 100 * 1024 * 1024 }

/-- The server with less load is chosen. -/
example : choose W0 [⟨.online, busy⟩, ⟨.online, idle⟩] [115] (fun _ => 0) [] = some 1 := by decide +kernel
example : Sane W0 idle ∧ Sane W0 busy ∧ Room busy ∧ Room idle := by
  refine ⟨⟨?_, ?_, ?_, ?_, ?_, ?_⟩, ⟨?_, ?_, ?_, ?_, ?_, ?_⟩, ?_, ?_⟩ <;> first | (unfold Room; decide +kernel) | decide +kernel
/-- Tags change it: `{"fast,near": 2000}` and `{"-slow": -2000}`. -/
example : choose W0 [⟨.online, { busy with tags := [[110]] }⟩, ⟨.online, idle⟩] [115] (fun _ => 0) [([102, 44, 110], 2000)] = some 0 ∧
    choose W0 [⟨.online, { busy with tags := [[115]] }⟩, ⟨.online, idle⟩] [115] (fun _ => 0) [([45, 115], -2000)] = some 0 := by decide +kernel
example : Tagged.Plain ⟨false, [[102], [110]]⟩ ∧ Tagged.Plain ⟨true, [[115]]⟩ := by
  refine ⟨⟨by decide, by decide, fun _ => ⟨by decide, ?_⟩⟩, ⟨by decide, by decide, fun h => by cases h⟩⟩
  rintro n hn
  obtain rfl := Option.some.inj hn
  decide
/-- A server that does not offer the stream is not chosen; one that offers the part before the plus sign is. -/
example : choose W0 [⟨.online, { idle with conf := [[120]] }⟩, ⟨.online, { busy with conf := [[115]] }⟩] [115, 43, 120] (fun _ => 0) [] = some 1 ∧
    choose W0 [⟨.online, { idle with conf := [[120]] }⟩] [115, 43, 120] (fun _ => 0) [] = none := by decide +kernel
example : Offers { busy with conf := [[115]] } [115, 43, 120] := Or.inr (Or.inr ⟨[115], ⟨[43, 120], rfl, by decide, by decide, fun c h => Or.inl (Option.some.inj h).symm⟩,
  List.mem_cons_self⟩)
/-- A source. -/
example : chooseSource W0 [⟨.online, { idle with streams := [([115], { inputs := 1, rep := true })] }⟩, ⟨.online, { busy with streams := [([115], { inputs := 1 })] }⟩]
    [115] [9] (fun _ => 0) [] = some 1 := by decide +kernel

/-- **C94** (fails: servers that use more than they have). A server whose report says that it uses more memory than it has, and that has no
processor time left and hardly any bandwidth, is preferred over an idle one: its points are negative, and taken for the largest number. -/
theorem C94_overload_fails : ∃ (W : Weights) (h : Host) (d : Report) (idle : Host), d.memUsed + d.shmUsed > d.memTotal ∧ points W (update h d 0) < points W idle ∧
    Sane W idle ∧ Room idle ∧ (∀ s, Offers idle s) ∧ choose W [⟨.online, idle⟩, ⟨.online, update h d 0⟩] [115] (fun _ => 0) [] = some 1 := by
  refine ⟨W0, { up := 133 * 1000 * 1000 }, ⟨1000, 0, 1000, 900, 1000, 500, none, 0, 0, 0, [], [], []⟩, idle, by decide, by decide +kernel, ?_, ?_, fun s => Or.inl rfl,
    by decide +kernel⟩
  · refine ⟨?_, ?_, ?_, ?_, ?_, ?_⟩ <;> decide +kernel
  · unfold Room; decide +kernel

/-- **C94** (fails: tags in requests for sources). A server that must not be used by the tags in the request is named as a source although
another one can be used: tags (and places) have no effect there. -/
theorem C94_source_tags_fails : ∃ (W : Weights) (E : List Entry) (s client : Bytes) (adj : List (Tagged × Int)) (e e' : Entry), (∀ a ∈ adj, a.1.Plain) ∧ E = [e, e'] ∧
    (∀ x ∈ E, Sane W x.host ∧ HasInput x.host s ∧ x.state = .online ∧ x.host.bin ≠ client) ∧
    source W e.host s 0 (texts adj) 0 = 0 ∧ 0 < source W e'.host s 0 (texts adj) 0 ∧ chooseSource W E s client (fun _ => 0) (texts adj) = some 0 := by
  refine ⟨W0, [⟨.online, { idle with tags := [[120]], streams := [([115], { inputs := 1 })] }⟩, ⟨.online, { busy with streams := [([115], { inputs := 1 })] }⟩], [115], [9],
    [(⟨false, [[120]]⟩, -1000000)], _, _, ?_, rfl, ?_, by decide +kernel, by decide +kernel, by decide +kernel⟩
  · intro a ha
    rw [List.mem_singleton] at ha
    subst ha
    refine ⟨by decide, by decide, fun _ => ⟨by decide, ?_⟩⟩
    intro n hn
    obtain rfl := Option.some.inj hn
    decide
  · intro x hx
    simp only [List.mem_cons, List.not_mem_nil, or_false] at hx
    rcases hx with rfl | rfl <;>
      exact ⟨⟨by decide +kernel, by decide +kernel, by decide +kernel, by decide +kernel, by decide +kernel, by decide +kernel⟩, ⟨{ inputs := 1 }, rfl, by decide, rfl⟩, rfl, by decide⟩

end Verif.Load
