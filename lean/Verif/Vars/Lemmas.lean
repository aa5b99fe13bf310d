import Verif.Vars.Model

/-!
# Lemmas about the page of custom variables
-/
namespace Verif.Vars
open Verif Verif.Text

theorem length_setRec (recs : List Rec) (i : Nat) (r : Rec) : (setRec recs i r).length = recs.length := by
  unfold setRec; exact List.length_set

theorem length_fill (l : List Rec) (recs : List Rec) (i : Nat) : (fill recs i l).length = recs.length := by
  induction l generalizing recs i with
  | nil => rfl
  | cons r rest ih => rw [fill, ih, length_setRec]

theorem getElem?_setRec {recs : List Rec} {i : Nat} (h : i < recs.length) (r : Rec) (j : Nat) :
    (setRec recs i r)[j]? = if j = i then some r else recs[j]? := by
  unfold setRec
  rw [Nat.mod_eq_of_lt h, List.getElem?_set]
  by_cases hj : j = i
  · subst hj; simp [h]
  · rw [if_neg (Ne.symm hj), if_neg hj]

theorem getElem?_fill (l : List Rec) (recs : List Rec) (i : Nat) (h : i + l.length ≤ recs.length) (j : Nat) :
    (fill recs i l)[j]? = if i ≤ j ∧ j < i + l.length then l[j - i]? else recs[j]? := by
  induction l generalizing recs i with
  | nil => simp only [fill, List.length_nil, Nat.add_zero]; rw [if_neg (by omega)]
  | cons r rest ih =>
    rw [List.length_cons] at h
    rw [fill, ih _ _ (by rw [length_setRec]; omega), getElem?_setRec (by omega), List.length_cons]
    by_cases h1 : i + 1 ≤ j ∧ j < i + 1 + rest.length
    · rw [if_pos h1, if_pos (by omega)]
      obtain ⟨k, hk⟩ : ∃ k, j - i = k + 1 := ⟨j - i - 1, by omega⟩
      rw [hk, List.getElem?_cons_succ]
      congr 1; omega
    · rw [if_neg h1]
      by_cases h2 : j = i
      · subst h2; simp
      · rw [if_neg h2, if_neg (by omega)]

/-- There is room for all records. -/
def Fit (p : Page) : Prop := p.endPos ≤ p.recs.length

theorem all_eq {p : Page} (h : Fit p) : p.all = p.recs.take p.endPos := by
  unfold Fit at h
  apply List.ext_getElem?
  intro i
  unfold Page.all
  rw [List.getElem?_map]
  by_cases hi : i < p.endPos
  · rw [List.getElem?_range hi, List.getElem?_take_of_lt hi, Option.map_some]
    unfold Page.at
    rw [Nat.mod_eq_of_lt (by omega), List.getD_eq_getElem?_getD, List.getElem?_eq_getElem (by omega)]
    rfl
  · rw [List.getElem?_eq_none (by rw [List.length_range]; omega), List.getElem?_eq_none (by rw [List.length_take]; omega)]
    rfl

/-- The page that is written, if it is large enough, has the records of the variables. -/
theorem all_written (n : Nat) (l : List Rec) (h : l.length ≤ n) :
    Fit ⟨fill (List.replicate n {}) 0 l, l.length⟩ ∧ (Page.mk (fill (List.replicate n {}) 0 l) l.length).all = l := by
  have hf : Fit ⟨fill (List.replicate n {}) 0 l, l.length⟩ := by
    unfold Fit; simp only [length_fill, List.length_replicate]; exact h
  refine ⟨hf, ?_⟩
  rw [all_eq hf]
  apply List.ext_getElem?
  intro i
  by_cases hi : i < l.length
  · simp only [List.getElem?_take_of_lt hi]
    rw [getElem?_fill _ _ _ (by simp only [List.length_replicate]; omega), if_pos (by omega), Nat.sub_zero]
  · rw [List.getElem?_eq_none (by simp only [List.length_take]; omega), List.getElem?_eq_none (by omega)]

/-- What a result changes in a record. -/
def touched (name val : Bytes) (boot : Nat) (r : Rec) : Rec :=
  if r.name = name then { r with lastRun := boot, lastVal := cstr 128 val } else r

theorem length_mutatePage (recs : List Rec) (name val : Bytes) (boot i n : Nat) :
    (mutatePage recs name val boot i n).length = recs.length := by
  induction n generalizing i with
  | zero => rfl
  | succ n ih =>
    unfold mutatePage
    split
    · rw [length_setRec]
    · exact ih _

theorem getElem?_mutatePage (recs : List Rec) (name val : Bytes) (boot i n : Nat) (h : i + n ≤ recs.length)
    (hd : ∀ a b ra rb, i ≤ a → a < b → b < i + n → recs[a]? = some ra → recs[b]? = some rb → ¬ (ra.name = name ∧ rb.name = name)) (j : Nat) :
    (mutatePage recs name val boot i n)[j]? = if i ≤ j ∧ j < i + n then recs[j]?.map (touched name val boot) else recs[j]? := by
  induction n generalizing i with
  | zero => unfold mutatePage; rw [if_neg (by omega)]
  | succ n ih =>
    have hi : i < recs.length := by omega
    have hg : recs.getD (i % recs.length) {} = recs[i] := by
      rw [Nat.mod_eq_of_lt hi, List.getD_eq_getElem?_getD, List.getElem?_eq_getElem hi]; rfl
    unfold mutatePage
    rw [hg]
    by_cases hn : recs[i].name = name
    · rw [if_pos hn, getElem?_setRec hi]
      by_cases hj : j = i
      · subst hj
        rw [if_pos rfl, if_pos (by omega), List.getElem?_eq_getElem hi, Option.map_some]
        unfold touched; rw [if_pos hn]
      · rw [if_neg hj]
        by_cases hr : i ≤ j ∧ j < i + (n + 1)
        · rw [if_pos hr]
          have hjl : j < recs.length := by omega
          rw [List.getElem?_eq_getElem hjl, Option.map_some]
          have := hd i j _ _ (Nat.le_refl _) (by omega) (by omega) (List.getElem?_eq_getElem hi) (List.getElem?_eq_getElem hjl)
          unfold touched
          rw [if_neg (fun hh => this ⟨hn, hh⟩)]
        · rw [if_neg hr]
    · rw [if_neg hn, ih (i + 1) (by omega) (fun a b ra rb h1 h2 h3 => hd a b ra rb (by omega) h2 (by omega))]
      by_cases hr : i + 1 ≤ j ∧ j < i + 1 + n
      · rw [if_pos hr, if_pos (by omega)]
      · rw [if_neg hr]
        by_cases hj : j = i
        · subst hj
          rw [if_pos (by omega), List.getElem?_eq_getElem hi, Option.map_some]
          unfold touched; rw [if_neg hn]
        · rw [if_neg (by omega)]

/-- A result changes the record of its name and no other. -/
theorem all_mutate {p : Page} (hf : Fit p) (hd : (p.all.map (·.name)).Nodup) (name val : Bytes) (boot : Nat) :
    Fit ⟨mutatePage p.recs name val boot 0 p.endPos, p.endPos⟩ ∧
      (Page.mk (mutatePage p.recs name val boot 0 p.endPos) p.endPos).all = p.all.map (touched name val boot) := by
  have hf' : Fit ⟨mutatePage p.recs name val boot 0 p.endPos, p.endPos⟩ := by
    unfold Fit; simp only [length_mutatePage]; exact hf
  refine ⟨hf', ?_⟩
  rw [all_eq hf] at hd ⊢
  rw [all_eq hf']
  apply List.ext_getElem?
  intro i
  rw [List.getElem?_map]
  by_cases hi : i < p.endPos
  · simp only [List.getElem?_take_of_lt hi]
    rw [getElem?_mutatePage _ _ _ _ _ _ (by unfold Fit at hf; omega), if_pos (by omega)]
    intro a b ra rb _ hab hb ha' hb' hh
    have hk := List.pairwise_iff_getElem.mp hd a b
    have hl : (List.map (fun x => x.name) (List.take p.endPos p.recs)).length = p.endPos := by
      unfold Fit at hf; simp only [List.length_map, List.length_take]; omega
    have := hk (by omega) (by omega) hab
    simp only [List.getElem_map, List.getElem_take] at this
    obtain ⟨h1, e1⟩ := List.getElem?_eq_some_iff.mp ha'
    obtain ⟨h2, e2⟩ := List.getElem?_eq_some_iff.mp hb'
    rw [e1, e2, hh.1, hh.2] at this
    exact this rfl
  · rw [List.getElem?_eq_none (by simp only [List.length_take]; omega), List.getElem?_eq_none (by simp only [List.length_take]; omega)]
    rfl

theorem find_put (f : Var → Var) (n m : Bytes) (c : List (Bytes × Var)) :
    find (put f n c) m = if m = n then some (f ((find c n).getD {})) else find c m := by
  induction c with
  | nil =>
    unfold put find
    by_cases h : m = n
    · subst h; simp
    · rw [if_neg h]; simp [Ne.symm h]
  | cons e rest ih =>
    unfold put
    by_cases he : e.1 = n
    · rw [if_pos he]
      by_cases h : m = n
      · subst h; unfold find; simp [he]
      · rw [if_neg h]
        unfold find
        simp only [List.find?_cons]
        have h1 : ¬ n = m := Ne.symm h
        have h2 : ¬ e.1 = m := by rw [he]; exact h1
        simp [h1, h2]
    · rw [if_neg he]
      by_cases h2 : e.1 = m
      · have h : ¬ m = n := by rw [← h2]; exact he
        rw [if_neg h]; unfold find; simp [h2]
      · have e1 : find (e :: put f n rest) m = find (put f n rest) m := by unfold find; simp [h2]
        have e2 : find (e :: rest) m = find rest m := by unfold find; simp [h2]
        have e3 : find (e :: rest) n = find rest n := by unfold find; simp [he]
        rw [e1, ih, e2, e3]

theorem find_filter (n m : Bytes) (c : List (Bytes × Var)) :
    find (c.filter (·.1 ≠ n)) m = if m = n then none else find c m := by
  induction c with
  | nil => unfold find; simp
  | cons e rest ih =>
    by_cases he : e.1 = n
    · rw [List.filter_cons_of_neg (by simp [he]), ih]
      by_cases h : m = n
      · rw [if_pos h, if_pos h]
      · rw [if_neg h, if_neg h]
        unfold find
        have h2 : ¬ e.1 = m := by rw [he]; exact Ne.symm h
        simp [h2]
    · rw [List.filter_cons_of_pos (by simp [he])]
      by_cases h2 : e.1 = m
      · have h : ¬ m = n := by rw [← h2]; exact he
        rw [if_neg h]; unfold find; simp [h2]
      · have e1 : find (e :: rest.filter (·.1 ≠ n)) m = find (rest.filter (·.1 ≠ n)) m := by unfold find; simp [h2]
        have e2 : find (e :: rest) m = find rest m := by unfold find; simp [h2]
        rw [e1, ih, e2]

theorem find_isSome {c : List (Bytes × Var)} {n : Bytes} : (find c n).isSome ↔ n ∈ c.map (·.1) := by
  unfold find
  rw [Option.isSome_map, List.find?_isSome]
  simp

theorem names_put (f : Var → Var) (n : Bytes) (c : List (Bytes × Var)) :
    (put f n c).map (·.1) = if n ∈ c.map (·.1) then c.map (·.1) else c.map (·.1) ++ [n] := by
  induction c with
  | nil => rfl
  | cons e rest ih =>
    unfold put
    by_cases he : e.1 = n
    · rw [if_pos he]; simp [he]
    · rw [if_neg he, List.map_cons, ih, List.map_cons]
      have : n ∈ e.1 :: rest.map (·.1) ↔ n ∈ rest.map (·.1) := by
        rw [List.mem_cons]
        constructor
        · rintro (h | h)
          · exact absurd h.symm he
          · exact h
        · exact Or.inr
      by_cases h : n ∈ rest.map (·.1)
      · rw [if_pos h, if_pos (this.mpr h)]
      · rw [if_neg h, if_neg (fun x => h (this.mp x))]; rfl

theorem put_eq_map {c : List (Bytes × Var)} {n : Bytes} (hd : (c.map (·.1)).Nodup) (hn : n ∈ c.map (·.1)) (f : Var → Var) :
    put f n c = c.map fun e => if e.1 = n then (e.1, f e.2) else e := by
  induction c with
  | nil => cases hn
  | cons e rest ih =>
    rw [List.map_cons, List.nodup_cons] at hd
    unfold put
    by_cases he : e.1 = n
    · rw [if_pos he, List.map_cons, if_pos he]
      congr 1
      · rw [he]
      · symm
        have : ∀ x ∈ rest, (fun e : Bytes × Var => if e.1 = n then (e.1, f e.2) else e) x = id x := by
          intro x hx
          have : x.1 ≠ n := by
            intro hh
            apply hd.1
            rw [he, ← hh]
            exact List.mem_map_of_mem hx
          simp [this]
        rw [List.map_congr_left this, List.map_id]
    · rw [if_neg he, List.map_cons, if_neg he, ih hd.2]
      rcases List.mem_cons.mp (by rw [List.map_cons] at hn; exact hn) with h | h
      · exact absurd h.symm he
      · exact h

end Verif.Vars
