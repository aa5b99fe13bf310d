import Verif.Prog.Got

/-!
# The tables of the header
-/
namespace Verif.Prog
open Verif.Prog.Spec
open Verif.Index (Part Part.zero cut16)

/-! ## Sizes -/

theorem fillStsz_spec (ps : List Part) (pre z : List Nat) (hz : z.length = ps.length) : fillStsz ps pre.length (pre ++ z) = pre ++ ps.map Part.size := by
  induction ps generalizing pre z with
  | nil =>
    rw [List.length_nil] at hz
    rw [List.eq_nil_of_length_eq_zero hz]
    rfl
  | cons p ps ih =>
    cases z with
    | nil => cases hz
    | cons a z =>
      rw [fillStsz]
      have : (pre ++ a :: z).set pre.length p.size = (pre ++ [p.size]) ++ z := by
        rw [List.set_append_right _ _ (Nat.le_refl _), Nat.sub_self, List.set_cons_zero, List.append_assoc]
        rfl
      rw [this, show pre.length + 1 = (pre ++ [p.size]).length by simp, ih _ _ (by simpa using hz)]
      simp

theorem stszOf_eq (t : Trk) : stszOf t = (partsOf t.samples).map Part.size := by
  unfold stszOf
  have := fillStsz_spec (partsOf t.samples) [] (List.replicate (partsOf t.samples).length 0) (by simp)
  simpa using this

/-! ## Runs of the same value -/

/-- Runs of the same value; `e` is the run that is open. -/
def runs {α : Type} [DecidableEq α] : List α → Nat × α → List (Nat × α)
  | [], e => [e]
  | x :: l, e => if e.2 ≠ x then e :: runs l (1, x) else runs l (e.1 + 1, e.2)

theorem runs_flat {α : Type} [DecidableEq α] (l : List α) (e : Nat × α) :
    ((runs l e).flatMap fun r => List.replicate r.1 r.2) = List.replicate e.1 e.2 ++ l := by
  induction l generalizing e with
  | nil => simp [runs]
  | cons x l ih =>
    rw [runs]
    by_cases h : e.2 ≠ x
    · rw [if_pos h, List.flatMap_cons, ih]
      simp
    · rw [if_neg h, ih]
      have : e.2 = x := Decidable.not_not.mp h
      rw [this, List.replicate_succ', List.append_assoc]
      rfl

theorem runs_length {α : Type} [DecidableEq α] (l : List α) (e : Nat × α) : 1 ≤ (runs l e).length ∧ (runs l e).length ≤ l.length + 1 := by
  induction l generalizing e with
  | nil => simp [runs]
  | cons x l ih =>
    rw [runs]
    split
    · have := ih (1, x)
      simp only [List.length_cons]
      omega
    · have := ih (e.1 + 1, e.2)
      simp only [List.length_cons]
      omega

theorem runs_count {α : Type} [DecidableEq α] (l : List α) (a b : Nat) (x : α) : (runs l (a, x)).length = (runs l (b, x)).length := by
  induction l generalizing a b x with
  | nil => rfl
  | cons y l ih =>
    rw [runs, runs]
    by_cases h : x ≠ y
    · rw [if_pos h, if_pos h]
      rfl
    · rw [if_neg h, if_neg h]
      exact ih _ _ _

/-- Counts changes. -/
def changes {α : Type} [DecidableEq α] : List α → Nat × α → Nat × α
  | [], s => s
  | x :: l, s => changes l (if x ≠ s.2 then (s.1 + 1, x) else s)

theorem changes_runs {α : Type} [DecidableEq α] (l : List α) (c n : Nat) (x : α) : (changes l (c, x)).1 + 1 = c + (runs l (n, x)).length := by
  induction l generalizing c n x with
  | nil => rfl
  | cons y l ih =>
    rw [changes, runs]
    by_cases h : x = y
    · subst h
      rw [if_neg (by simp), if_neg (by simp), ih c (n + 1) x]
    · rw [if_pos (fun hc => h hc.symm), if_pos h, ih (c + 1) 1 y, List.length_cons]
      omega

/-- Writes runs. -/
def fill {α : Type} [DecidableEq α] (g : α → Nat) : List α → Rows → Nat → Nat × α → Rows
  | [], b, c, e => setRow b (e.1, g e.2) c
  | x :: l, b, c, e => if e.2 ≠ x then fill g l (setRow b (e.1, g e.2) c) (c + 1) (1, x) else fill g l b c (e.1 + 1, e.2)

theorem setRow_spec {b : Rows} {e : Nat × Nat} {no : Nat} (h : no + 1 < 2 ^ 32) (hc : no ≤ b.rows.length) :
    (setRow b e no).rows.take (no + 1) = b.rows.take no ++ [e] ∧ (setRow b e no).rows.length = max b.rows.length (no + 1) ∧
    (setRow b e no).count = max b.count (no + 1) := by
  unfold setRow
  rw [if_neg (by omega)]
  refine ⟨?_, ?_, ?_⟩
  · simp only
    apply List.ext_getElem?
    intro i
    rw [List.getElem?_take]
    by_cases h1 : i < no
    · rw [if_pos (by omega), List.getElem?_set, if_neg (by omega), List.getElem?_append_left (by omega),
        List.getElem?_append_left (by rw [List.length_take]; omega), List.getElem?_take, if_pos h1]
    · by_cases h2 : i = no
      · subst h2
        rw [if_pos (by omega), List.getElem?_set, if_pos rfl, if_pos (by rw [List.length_append, List.length_replicate]; omega),
          List.getElem?_append_right (by rw [List.length_take]; omega), List.length_take, show i - min i b.rows.length = 0 by omega]
        rfl
      · rw [if_neg (by omega), List.getElem?_eq_none (by rw [List.length_append, List.length_take, List.length_singleton]; omega)]
  · simp only [List.length_set, List.length_append, List.length_replicate]
    omega
  · simp only
    split <;> omega

theorem fill_spec {α : Type} [DecidableEq α] (g : α → Nat) (l : List α) (b : Rows) (c : Nat) (e : Nat × α) (hc : c ≤ b.rows.length)
    (hl : b.rows.length ≤ c + (runs l e).length) (hs : c + l.length + 1 < 2 ^ 32) :
    (fill g l b c e).rows = b.rows.take c ++ (runs l e).map (fun r => (r.1, g r.2)) ∧ (fill g l b c e).count = max b.count (c + (runs l e).length) := by
  induction l generalizing b c e with
  | nil =>
    rw [fill, runs]
    rw [runs, List.length_singleton] at hl
    rw [List.length_nil] at hs
    obtain ⟨h1, h2, h3⟩ := setRow_spec (b := b) (e := (e.1, g e.2)) (no := c) (by omega) hc
    refine ⟨?_, by rw [h3]; rfl⟩
    rw [← List.take_of_length_le (l := (setRow b (e.1, g e.2) c).rows) (i := c + 1) (by omega), h1]
    rfl
  | cons x l ih =>
    rw [fill, runs]
    rw [runs] at hl
    rw [List.length_cons] at hs
    by_cases h : e.2 ≠ x
    · rw [if_pos h] at hl ⊢
      rw [if_pos h]
      obtain ⟨h1, h2, h3⟩ := setRow_spec (b := b) (e := (e.1, g e.2)) (no := c) (by omega) hc
      rw [List.length_cons] at hl
      obtain ⟨i1, i2⟩ := ih (setRow b (e.1, g e.2) c) (c + 1) (1, x) (by omega) (by omega) (by omega)
      rw [i1, i2, h1, h3, List.length_cons]
      refine ⟨by simp, by omega⟩
    · rw [if_neg h] at hl ⊢
      rw [if_neg h]
      exact ih b c (e.1 + 1, e.2) hc hl (by omega)

theorem preStts_eq (ps : List Part) (s : Nat × Nat) : preStts ps s = changes (ps.map Part.dur) s := by
  induction ps generalizing s with
  | nil => rfl
  | cons p ps ih => rw [preStts, ih, List.map_cons, changes]

theorem preCtts_eq (ps : List Part) (s : Nat × Int) : preCtts ps s = changes (ps.map Part.off) s := by
  induction ps generalizing s with
  | nil => rfl
  | cons p ps ih => rw [preCtts, ih, List.map_cons, changes]

theorem fillStts_eq (ps : List Part) (b : Rows) (c : Nat) (e : Nat × Nat) : fillStts ps b c e = fill id (ps.map Part.dur) b c e := by
  induction ps generalizing b c e with
  | nil => rfl
  | cons p ps ih =>
    rw [fillStts, List.map_cons, fill, ih, ih]
    rfl

theorem fillCtts_eq (ps : List Part) (b : Rows) (c : Nat) (e : Nat × Int) : fillCtts ps b c e = fill bits32 (ps.map Part.off) b c e := by
  induction ps generalizing b c e with
  | nil => rfl
  | cons p ps ih =>
    rw [fillCtts, List.map_cons, fill, ih, ih]
    by_cases h : e.2 = p.off
    · rw [if_neg (by simp [h]), if_neg (by simp [h])]
    · rw [if_pos (fun hc => h hc.symm), if_pos h]

theorem new_row {d n : Nat} (h : n + 1 < 2 ^ 32) : (setRow ⟨0, []⟩ (0, d) n).rows.length = n + 1 ∧ (setRow ⟨0, []⟩ (0, d) n).count = n + 1 := by
  unfold setRow
  rw [if_neg (by omega)]
  simp

/-- The table of durations has the runs of the durations; its number of entries is right, unless all durations are the size of the first part. -/
theorem stts_rows {t : Trk} (hn : 2 ≤ t.samples.length) (hlen : t.samples.length < 2 ^ 29) :
    (sttsOf t).rows = runs ((partsOf t.samples).map Part.dur) (0, (part t 0).dur) ∧
    ((∃ p ∈ partsOf t.samples, p.dur ≠ (part t 0).size) → (sttsOf t).count = (sttsOf t).rows.length) ∧
    ((∀ p ∈ partsOf t.samples, p.dur = (part t 0).size) → (sttsOf t).rows.length = 1 ∧ (sttsOf t).count = max (part t 0).size 1) := by
  have hpl := partsOf_length t.samples
  unfold sttsOf
  simp only
  rw [preStts_eq, fillStts_eq]
  cases hp : partsOf t.samples with
  | nil => rw [hp] at hpl; simp at hpl; omega
  | cons p0 ps =>
    have h0 : part t 0 = p0 := by unfold part; rw [hp]; rfl
    rw [h0, List.map_cons]
    rw [hp, List.length_cons] at hpl
    have hmlen : (p0.dur :: ps.map Part.dur).length = ps.length + 1 := by simp
    generalize hds : ps.map Part.dur = ds at hmlen
    have hc := changes_runs (p0.dur :: ds) 0 0 p0.size
    have hr := runs_length (p0.dur :: ds) (0, p0.dur)
    rw [Nat.zero_add] at hc
    have hrel : (p0.size ≠ p0.dur → (changes (p0.dur :: ds) (0, p0.size)).1 = (runs (p0.dur :: ds) (0, p0.dur)).length) ∧
        (p0.size = p0.dur → (changes (p0.dur :: ds) (0, p0.size)).1 + 1 = (runs (p0.dur :: ds) (0, p0.dur)).length) := by
      constructor
      · intro h
        rw [runs, if_pos (by exact h), List.length_cons] at hc
        have : (runs (p0.dur :: ds) (0, p0.dur)).length = (runs ds (1, p0.dur)).length := by rw [runs, if_neg (by simp)]
        omega
      · intro h
        rw [hc, h]
    generalize hpre : changes (p0.dur :: ds) (0, p0.size) = pre at hrel
    by_cases hz : pre.1 = 0
    · have hone : (runs (p0.dur :: ds) (0, p0.dur)).length = 1 := by
        by_cases h : p0.size = p0.dur
        · have := hrel.2 h; omega
        · have := hrel.1 h; omega
      have hsd : p0.size = p0.dur := by
        by_cases h : p0.size = p0.dur
        · exact h
        · have := hrel.1 h; omega
      have hall : ∀ d ∈ p0.dur :: ds, d = p0.dur := by
        have hf := runs_flat (p0.dur :: ds) (0, p0.dur)
        obtain ⟨r, hr1⟩ : ∃ r, runs (p0.dur :: ds) (0, p0.dur) = [r] := List.length_eq_one_iff.mp hone
        rw [hr1] at hf
        simp only [List.flatMap_cons, List.flatMap_nil, List.append_nil, List.replicate_zero, List.nil_append] at hf
        intro d hd
        have h1 : p0.dur ∈ List.replicate r.1 r.2 := by rw [hf]; exact List.mem_cons_self
        rw [← hf] at hd
        rw [(List.mem_replicate.mp hd).2, (List.mem_replicate.mp h1).2]
      have hp2 : pre.2 = p0.size := by
        have : ∀ (l : List Nat) (c x : Nat), (changes l (c, x)).1 = c → (changes l (c, x)).2 = x := by
          intro l
          induction l with
          | nil => intro c x _; rfl
          | cons y l ih =>
            intro c x h
            rw [changes] at h ⊢
            by_cases hy : y = x
            · rw [if_neg (by simp [hy])] at h ⊢
              exact ih c x h
            · rw [if_pos hy] at h
              have h' : (changes l (c + 1, y)).1 = c := h
              have hge := changes_runs l (c + 1) 0 y
              have := (runs_length l (0, y)).1
              exact absurd h' (by omega)
        have := this (p0.dur :: ds) 0 p0.size (by rw [hpre]; exact hz)
        rw [hpre] at this
        exact this
      have hset : setRow ⟨0, []⟩ (0, pre.2) ((pre.1 + 2 ^ 32 - 1) % 2 ^ 32) = ⟨p0.size, []⟩ := by
        rw [hz, hp2]
        unfold setRow
        rw [if_pos (by decide)]
      rw [hset]
      obtain ⟨f1, f2⟩ := fill_spec id (p0.dur :: ds) ⟨p0.size, []⟩ 0 (0, p0.dur) (by simp) (by simp) (by rw [hmlen]; omega)
      rw [f1, f2]
      refine ⟨by simp, fun ⟨q, hq, hne⟩ => ?_, fun _ => ?_⟩
      · exfalso
        apply hne
        rw [hsd]
        apply hall
        rw [← hds]
        rcases List.mem_cons.mp hq with rfl | hq
        · exact List.mem_cons_self
        · exact List.mem_cons_of_mem _ (List.mem_map_of_mem hq)
      · rw [List.take_zero, List.nil_append, List.length_map, hone]
        exact ⟨rfl, rfl⟩
    · have hle : pre.1 ≤ (runs (p0.dur :: ds) (0, p0.dur)).length := by
        by_cases h : p0.size = p0.dur
        · have := hrel.2 h; omega
        · have := hrel.1 h; omega
      have hno : (pre.1 + 2 ^ 32 - 1) % 2 ^ 32 = pre.1 - 1 := by omega
      rw [hno]
      obtain ⟨n1, n2⟩ := new_row (d := pre.2) (n := pre.1 - 1) (by omega)
      obtain ⟨f1, f2⟩ := fill_spec id (p0.dur :: ds) (setRow ⟨0, []⟩ (0, pre.2) (pre.1 - 1)) 0 (0, p0.dur) (by omega) (by omega) (by rw [hmlen]; omega)
      rw [f1, f2, n2]
      refine ⟨by simp, fun _ => ?_, fun hall => ?_⟩
      · rw [List.take_zero, List.nil_append, List.length_map]
        omega
      · exfalso
        have : ∀ (l : List Nat) (x : Nat), (∀ d ∈ l, d = x) → changes l (0, x) = (0, x) := by
          intro l x h
          induction l with
          | nil => rfl
          | cons y l ih =>
            rw [changes, if_neg (by simp [h y List.mem_cons_self])]
            exact ih fun d hd => h d (List.mem_cons_of_mem _ hd)
        rw [this] at hpre
        · exact hz (by rw [← hpre])
        · intro d hd
          rw [← hds, ← List.map_cons (f := Part.dur)] at hd
          obtain ⟨q, hq, rfl⟩ := List.mem_map.mp hd
          exact hall q hq

theorem ctts_rows {t : Trk} (hn : 2 ≤ t.samples.length) (hlen : t.samples.length < 2 ^ 29) :
    (cttsOf t = none ∧ ∀ p ∈ partsOf t.samples, p.off = 0) ∨
    ∃ b, cttsOf t = some b ∧ b.rows = (runs ((partsOf t.samples).map Part.off) (0, (part t 0).off)).map (fun r => (r.1, bits32 r.2)) ∧ b.count = b.rows.length := by
  have hpl := partsOf_length t.samples
  unfold cttsOf
  simp only
  rw [preCtts_eq, fillCtts_eq]
  generalize hos : (partsOf t.samples).map Part.off = os
  have hol : os.length = t.samples.length := by rw [← hos, List.length_map, hpl]
  have hc := changes_runs os 0 0 (part t 0).off
  rw [Nat.zero_add] at hc
  have hr := runs_length os (0, (part t 0).off)
  have hpre := hc
  by_cases h : (changes os (0, (part t 0).off)).1 ≠ 0 ∨ (changes os (0, (part t 0).off)).2 ≠ 0
  · rw [if_pos h]
    right
    refine ⟨_, rfl, ?_⟩
    obtain ⟨n1, n2⟩ := new_row (d := bits32 (changes os (0, (part t 0).off)).2) (n := (changes os (0, (part t 0).off)).1) (by omega)
    obtain ⟨f1, f2⟩ := fill_spec bits32 os (setRow ⟨0, []⟩ (0, bits32 (changes os (0, (part t 0).off)).2) (changes os (0, (part t 0).off)).1) 0
      (0, (part t 0).off) (by omega) (by omega) (by omega)
    rw [f1, f2, n2]
    refine ⟨by simp, ?_⟩
    rw [List.take_zero, List.nil_append, List.length_map]
    omega
  · rw [if_neg h]
    left
    refine ⟨rfl, fun p hp => ?_⟩
    have hz : (changes os (0, (part t 0).off)).1 = 0 := Decidable.not_not.mp fun hc => h (Or.inl hc)
    have hz2 : (changes os (0, (part t 0).off)).2 = 0 := Decidable.not_not.mp fun hc => h (Or.inr hc)
    have key : ∀ (l : List Int) (x : Int), (changes l (0, x)).1 = 0 → (changes l (0, x)).2 = x ∧ ∀ d ∈ l, d = x := by
      intro l
      induction l with
      | nil => intro x _; exact ⟨rfl, fun d hd => by cases hd⟩
      | cons y l ih =>
        intro x h
        rw [changes] at h ⊢
        by_cases hy : y = x
        · rw [if_neg (by simp [hy])] at h ⊢
          obtain ⟨i1, i2⟩ := ih x h
          refine ⟨i1, fun d hd => ?_⟩
          rcases List.mem_cons.mp hd with rfl | hd
          · exact hy
          · exact i2 d hd
        · rw [if_pos hy] at h
          have h' : (changes l (0 + 1, y)).1 = 0 := h
          have := changes_runs l (0 + 1) 0 y
          have := (runs_length l (0, y)).1
          exact absurd h' (by omega)
    obtain ⟨k1, k2⟩ := key os _ hz
    have := k2 p.off (by rw [← hos]; exact List.mem_map_of_mem hp)
    rw [this, ← k1, hz2]

/-! ## Key frames -/

theorem keyParts_cons (a : Sample) (l : List Sample) : ∃ m r, keyParts (a :: l) = (m + 1) :: r := by
  induction l generalizing a with
  | nil => exact ⟨0, [], rfl⟩
  | cons b l ih =>
    rw [keyParts]
    by_cases h : b.key = true
    · simp only [h, if_true]
      exact ⟨0, _, rfl⟩
    · simp only [h]
      obtain ⟨m, r, hm⟩ := ih b
      rw [hm]
      exact ⟨m + 1, r, rfl⟩

theorem stssLoop_gt (l : List Nat) (c : Nat) : ∀ x ∈ stssLoop l c, c < x := by
  induction l generalizing c with
  | nil => intro x hx; cases hx
  | cons n l ih =>
    intro x hx
    rw [stssLoop] at hx
    rcases List.mem_cons.mp hx with rfl | hx
    · omega
    · have := ih _ x hx
      omega

theorem stss_mem (l : List Sample) (c n : Nat) : c + n + 1 ∈ stssLoop (keyParts l) c ↔ ∃ s, l[n]? = some s ∧ (n = 0 ∨ s.key = true) := by
  induction l generalizing c n with
  | nil => simp [keyParts, stssLoop]
  | cons a l ih =>
    cases n with
    | zero =>
      obtain ⟨m, r, hm⟩ := keyParts_cons a l
      rw [hm, stssLoop]
      simp
    | succ n =>
      rw [List.getElem?_cons_succ]
      cases l with
      | nil => simp [keyParts, stssLoop]
      | cons b l =>
        obtain ⟨m, r, hm⟩ := keyParts_cons b l
        rw [keyParts]
        by_cases h : b.key = true
        · simp only [h, if_true]
          rw [stssLoop, List.mem_cons, show c + (n + 1) + 1 = (c + 1) + n + 1 by omega, ih]
          constructor
          · rintro (h0 | ⟨s, hs, hs2⟩)
            · omega
            · refine ⟨s, hs, Or.inr ?_⟩
              rcases hs2 with rfl | hs2
              · rw [List.getElem?_cons_zero] at hs
                rw [← Option.some.inj hs]; exact h
              · exact hs2
          · rintro ⟨s, hs, hs2⟩
            exact Or.inr ⟨s, hs, Or.inr (hs2.resolve_left (by omega))⟩
        · simp only [h]
          have hih := ih (c + 1) n
          rw [hm] at hih ⊢
          simp only [Bool.false_eq_true, if_false]
          rw [stssLoop, List.mem_cons] at hih ⊢
          have hgt := stssLoop_gt r (c + (m + 1 + 1))
          rw [show c + 1 + (m + 1) = c + (m + 1 + 1) by omega] at hih
          rw [show c + (n + 1) + 1 = c + 1 + n + 1 by omega]
          by_cases hn : n = 0
          · subst hn
            constructor
            · rintro (h0 | h0)
              · omega
              · have := hgt _ h0
                omega
            · rintro ⟨s, hs, hs2⟩
              rw [List.getElem?_cons_zero] at hs
              rw [← Option.some.inj hs] at hs2
              exact absurd (hs2.resolve_left (by omega)) h
          · constructor
            · rintro (h0 | h0)
              · omega
              · obtain ⟨s, hs, hs2⟩ := hih.mp (Or.inr h0)
                exact ⟨s, hs, Or.inr (hs2.resolve_left hn)⟩
            · rintro ⟨s, hs, hs2⟩
              rcases hih.mpr ⟨s, hs, Or.inr (hs2.resolve_left (by omega))⟩ with h0 | h0
              · omega
              · exact Or.inr h0

/-! ## Places -/

theorem chunks_fold (id w i v : Nat) (calls : List (KeyPart × Nat)) (b : List Nat)
    (hv : ∀ c ∈ calls, c.1.track = id → c.1.index = i → c.2 % w = v) (hi : i < b.length)
    (hb : b[i]? = some v ∨ ∃ c ∈ calls, c.1.track = id ∧ c.1.index = i) :
    (calls.foldl (fun b c => if c.1.track = id then b.set c.1.index (c.2 % w) else b) b)[i]? = some v := by
  induction calls generalizing b with
  | nil =>
    rcases hb with hb | ⟨c, hc, _⟩
    · exact hb
    · cases hc
  | cons c calls ih =>
    rw [List.foldl_cons]
    refine ih _ (fun x hx => hv x (List.mem_cons_of_mem _ hx)) ?_ ?_
    · split
      · rw [List.length_set]; exact hi
      · exact hi
    · by_cases h : c.1.track = id ∧ c.1.index = i
      · rw [if_pos h.1]
        left
        rw [List.getElem?_set, if_pos h.2, if_pos (by omega), hv c List.mem_cons_self h.1 h.2]
      · rcases hb with hb | ⟨x, hx, h1, h2⟩
        · left
          split
          · next h1 =>
            rw [List.getElem?_set, if_neg fun h2 => h ⟨h1, h2⟩]
            exact hb
          · exact hb
        · rcases List.mem_cons.mp hx with rfl | hx
          · exact absurd ⟨h1, h2⟩ h
          · exact Or.inr ⟨x, hx, h1, h2⟩

theorem chunks_none (id w i : Nat) (calls : List (KeyPart × Nat)) (b : List Nat)
    (hv : ∀ c ∈ calls, c.1.track = id → c.1.index ≠ i) :
    (calls.foldl (fun b c => if c.1.track = id then b.set c.1.index (c.2 % w) else b) b)[i]? = b[i]? := by
  induction calls generalizing b with
  | nil => rfl
  | cons c calls ih =>
    rw [List.foldl_cons, ih _ fun x hx => hv x (List.mem_cons_of_mem _ hx)]
    split
    · next h => rw [List.getElem?_set, if_neg (hv c List.mem_cons_self h)]
    · rfl

theorem places_mem {R : List Trk} {pos : Nat} {l : List KeyPart} {c : KeyPart × Nat} (h : c ∈ places R pos l) :
    ∃ pre suf, l = pre ++ c.1 :: suf ∧ c.2 = pos + (pre.map fun k => (part (trkOf R k.track) k.index).size).sum := by
  induction l generalizing pos with
  | nil => cases h
  | cons k l ih =>
    rw [places] at h
    rcases List.mem_cons.mp h with rfl | h
    · exact ⟨[], l, rfl, by simp⟩
    · obtain ⟨pre, suf, e1, e2⟩ := ih h
      refine ⟨k :: pre, suf, by rw [e1]; rfl, ?_⟩
      rw [e2, List.map_cons, List.sum_cons]
      omega

theorem mem_places {R : List Trk} {pos : Nat} {l : List KeyPart} {k : KeyPart} (h : k ∈ l) : ∃ p, (k, p) ∈ places R pos l := by
  induction l generalizing pos with
  | nil => cases h
  | cons q l ih =>
    rw [places]
    rcases List.mem_cons.mp h with rfl | h
    · exact ⟨pos, List.mem_cons_self⟩
    · obtain ⟨p, hp⟩ := ih h
      exact ⟨p, List.mem_cons_of_mem _ hp⟩

end Verif.Prog
