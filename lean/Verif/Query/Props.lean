import Verif.Query.Model
import Verif.Enc.Props

/-!
# C04: query-string variables
-/
namespace Verif.Query
open Verif.Enc

/-! ## Specification -/
namespace Spec

/-- Cut at every '&'. -/
def pieces : Bytes → List Bytes
  | [] => [[]]
  | c :: r => if c = 38 then [] :: pieces r
    else match pieces r with
      | [] => [[c]]
      | p :: ps => (c :: p) :: ps

/-- Cut at the first '='; without one the value is empty. -/
def nameValue (p : Bytes) : Bytes × Bytes := (p.takeWhile (· ≠ 61), (p.dropWhile (· ≠ 61)).drop 1)

/-- The assignments written in a query string, in order. Pieces without a name count for
nothing. -/
def assignments (data : Bytes) : List (Bytes × Bytes) :=
  ((pieces data).map nameValue).filter (·.1 ≠ [])

/-- The value a variable ends up with: that of its last assignment, or what it was. -/
def final (as : List (Bytes × Bytes)) (old : Option Bytes) (k : Bytes) : Option Bytes :=
  as.foldl (fun o (n, v) => if urlDecode true n = k then some (urlDecode true v) else o) old

end Spec
open Spec

/-! ## Lemmas -/

theorem lookup_mapSet (m : List (Bytes × Bytes)) (k v k' : Bytes) :
    (mapSet m k v).lookup k' = if k = k' then some v else m.lookup k' := by
  unfold mapSet
  rw [List.lookup_cons]
  by_cases h : k = k'
  · simp [h]
  · rw [if_neg h, beq_false_of_ne (Ne.symm h)]
    simp only
    induction m with
    | nil => rfl
    | cons e m ih =>
      obtain ⟨a, b⟩ := e
      by_cases ha : a = k
      · subst ha
        simp [List.lookup_cons, ih, beq_false_of_ne (Ne.symm h)]
      · simp only [List.filter_cons, bne_iff_ne, ne_eq, ha, not_false_eq_true, if_true, List.lookup_cons, ih]

theorem pieces_ne (s : Bytes) : pieces s ≠ [] := by
  cases s with
  | nil => simp [pieces]
  | cons c r => simp only [pieces]; split <;> (try split) <;> simp

theorem pieces_sep (a r : Bytes) (h : 38 ∉ a) : pieces (a ++ 38 :: r) = a :: pieces r := by
  induction a with
  | nil => simp [pieces]
  | cons c a ih =>
    simp only [List.mem_cons, not_or] at h
    simp only [List.cons_append, pieces, if_neg (Ne.symm h.1), ih h.2]

theorem pieces_nosep (a : Bytes) (h : 38 ∉ a) : pieces a = [a] := by
  induction a with
  | nil => rfl
  | cons c a ih =>
    simp only [List.mem_cons, not_or] at h
    simp only [pieces, if_neg (Ne.symm h.1), ih h.2]

theorem nameValue_eq (a b : Bytes) (h : 61 ∉ a) : nameValue (a ++ 61 :: b) = (a, b) := by
  unfold nameValue
  rw [List.takeWhile_append_of_pos, List.dropWhile_append_of_pos]
  · simp
  · intro x hx; simp; rintro rfl; exact h hx
  · intro x hx; simp; rintro rfl; exact h hx

theorem nameValue_noeq (a : Bytes) (h : 61 ∉ a) : nameValue a = (a, []) := by
  unfold nameValue
  have h1 : ∀ x ∈ a, (decide (x ≠ 61)) = true := by
    intro x hx; simp; rintro rfl; exact h hx
  have e1 : a.takeWhile (fun x => decide (x ≠ 61)) = a := by
    have := List.takeWhile_append_of_pos (l₂ := []) h1; simpa using this
  have e2 : a.dropWhile (fun x => decide (x ≠ 61)) = [] := by
    have := List.dropWhile_append_of_pos (l₂ := []) h1; simpa using this
  rw [e1, e2]; rfl

/-- One step of the loop on a string `piece ++ tail`, `tail` empty or starting with '&'. -/
theorem step (piece tail : Bytes) (st : List (Bytes × Bytes)) (hp : 38 ∉ piece)
    (ht : tail = [] ∨ ∃ r, tail = 38 :: r) (hne : piece ++ tail ≠ []) :
    parseVars [38] (by simp) true (piece ++ tail) st =
      parseVars [38] (by simp) true (tail.drop 1)
        (if (nameValue piece).1 = [] then st
         else mapSet st (urlDecode true (nameValue piece).1) (urlDecode true (nameValue piece).2)) := by
  rw [parseVars, dif_neg hne]
  have hnext : (findSub [38] (piece ++ tail)).getD (piece ++ tail).length = piece.length := by
    rw [findSub_single]
    rcases ht with rfl | ⟨r, rfl⟩
    · rw [findChar_none.mpr (by simpa using hp)]; simp
    · rw [findChar_append hp]; rfl
  simp only [hnext]
  have hnv : nameVal (piece ++ tail) piece.length = nameValue piece := by
    unfold nameVal
    by_cases h61 : 61 ∈ piece
    · obtain ⟨n, hn⟩ : ∃ n, findChar 61 piece = some n := by
        cases h : findChar 61 piece with
        | none => exact absurd h61 (findChar_none.mp h)
        | some n => exact ⟨n, rfl⟩
      obtain ⟨a, b, rfl, ha, rfl⟩ := findChar_some.mp hn
      have : findChar 61 (a ++ 61 :: b ++ tail) = some a.length := by
        rw [List.append_assoc, List.cons_append, findChar_append ha]
      rw [this, nameValue_eq a b ha]
      have hl : a.length < (a ++ 61 :: b).length := by simp
      simp only [if_pos hl]
      rw [List.append_assoc]
      congr 1
      · simp
      · have e1 : (a ++ (61 :: b ++ tail)).drop (a.length + 1) = b ++ tail := by
          rw [← List.drop_drop, List.drop_append_of_le_length (by simp)]; simp
        rw [e1, show (a ++ 61 :: b).length - a.length - 1 = b.length by simp]; simp
    · rw [nameValue_noeq piece h61]
      cases h : findChar 61 (piece ++ tail) with
      | none => simp
      | some e =>
        have : ¬ e < piece.length := by
          intro hlt
          obtain ⟨a, b, hab, ha, rfl⟩ := findChar_some.mp h
          apply h61
          have h2 : (piece ++ tail)[a.length]? = some 61 := by rw [hab]; simp
          rw [List.getElem?_append_left hlt] at h2
          exact List.mem_of_getElem? h2
        simp only [if_neg this]; simp
  rw [hnv]
  congr 1
  rw [List.drop_append]; simp

theorem parse_eq_fold (data : Bytes) (st : List (Bytes × Bytes)) :
    parseVars [38] (by simp) true data st =
      (assignments data).foldl (fun m (n, v) => mapSet m (urlDecode true n) (urlDecode true v)) st := by
  induction hn : data.length using Nat.strongRecOn generalizing data st with
  | _ n ih =>
    by_cases hne : data = []
    · subst hne
      rw [parseVars, dif_pos rfl]; rfl
    · by_cases h38 : 38 ∈ data
      · obtain ⟨m, hm⟩ : ∃ m, findChar 38 data = some m := by
          cases h : findChar 38 data with
          | none => exact absurd h38 (findChar_none.mp h)
          | some m => exact ⟨m, rfl⟩
        obtain ⟨a, b, rfl, ha, rfl⟩ := findChar_some.mp hm
        rw [step a (38 :: b) st ha (.inr ⟨b, rfl⟩) hne]
        simp only [List.drop_one, List.tail_cons]
        rw [ih b.length (by simp at hn; omega) b _ rfl]
        unfold assignments
        rw [pieces_sep a b ha]
        by_cases hz : (nameValue a).1 = []
        · simp [hz]
        · simp [hz]
      · have hs := step data [] st h38 (.inl rfl) (by simpa using hne)
        rw [List.append_nil] at hs
        rw [hs, List.drop_nil, parseVars, dif_pos rfl]
        unfold assignments
        rw [pieces_nosep data h38]
        by_cases hz : (nameValue data).1 = []
        · simp [hz]
        · simp [hz]

/-- C04. What parsing a query string does to the stored variables, for every string: each
variable ends with the value of its last assignment, and unmentioned ones are untouched. -/
theorem C04_parse_spec (data : Bytes) (st : List (Bytes × Bytes)) (k : Bytes) :
    (parseVars [38] (by simp) true data st).lookup k = final (assignments data) (st.lookup k) k := by
  rw [parse_eq_fold]
  unfold final
  generalize assignments data = as
  induction as generalizing st with
  | nil => rfl
  | cons e as ih =>
    obtain ⟨n, v⟩ := e
    rw [List.foldl_cons, List.foldl_cons, ih, lookup_mapSet]

/-! ### Rendering -/

/-- Specification of the rendered text: `name=value` pieces joined by '&'. -/
def joined : List (Bytes × Bytes) → Bytes
  | [] => []
  | [(k, v)] => urlEncode [] false k ++ [61] ++ urlEncode [] false v
  | (k, v) :: r => urlEncode [] false k ++ [61] ++ urlEncode [] false v ++ [38] ++ joined r

theorem encode_ne {k : Bytes} (h : k ≠ []) : urlEncode [] false k ≠ [] := by
  cases k with
  | nil => exact absurd rfl h
  | cons c r =>
    rw [urlEncode]; split
    · simp
    · split <;> simp

theorem loop_joined (vars : List (Bytes × Bytes)) (hk : ∀ e ∈ vars, e.1 ≠ []) (ret : Bytes) (w : Bool)
    (hr : ret.length > 1) :
    argStrLoop w ret vars = ret ++ (if vars = [] then [] else [38] ++ joined vars) := by
  induction vars generalizing ret with
  | nil => simp [argStrLoop]
  | cons e r ih =>
    obtain ⟨k, v⟩ := e
    have hkn : k ≠ [] := hk (k, v) (by simp)
    rw [argStrLoop, if_neg hkn]
    simp only [if_pos hr]
    rw [ih (fun e he => hk e (by simp [he])) _ (by simp; omega)]
    cases r with
    | nil => simp [joined]
    | cons e2 r => simp [joined]

theorem argStr_joined (vars : List (Bytes × Bytes)) (hk : ∀ e ∈ vars, e.1 ≠ []) (w : Bool) :
    argStr vars w = (if w = true ∧ vars ≠ [] then [63] else []) ++ joined vars := by
  unfold argStr
  cases vars with
  | nil => simp [argStrLoop, joined]
  | cons e r =>
    obtain ⟨k, v⟩ := e
    have hkn : k ≠ [] := hk (k, v) (by simp)
    have hlen := List.length_pos_iff.mpr (encode_ne hkn)
    rw [argStrLoop, if_neg hkn, loop_joined r (fun e he => hk e (by simp [he])) _ _ (by simp; omega)]
    cases w <;> cases r <;> simp [joined]

theorem no_special (s : Bytes) : 38 ∉ urlEncode [] false s ∧ 61 ∉ urlEncode [] false s ∧
    43 ∉ urlEncode [] false s := by
  refine ⟨?_, ?_, ?_⟩ <;>
  · intro h
    rcases C03_url_safe [] s false _ h with h | h | h | h
    · revert h; decide +kernel
    · cases h
    · revert h; decide
    · exact absurd h.2.1 (by decide)

theorem decode_noplus (t : Bytes) (h : 43 ∉ t) : urlDecode true t = urlDecode false t := by
  induction hn : t.length using Nat.strongRecOn generalizing t with
  | _ n ih =>
    cases t with
    | nil => rfl
    | cons c r =>
      simp only [List.mem_cons, not_or] at h
      rw [urlDecode.eq_def, urlDecode.eq_def]
      simp only [Ne.symm h.1, false_and, if_false]
      split
      · match r, h with
        | [], _ => rfl
        | [x], _ => rfl
        | x :: y :: r', h =>
          simp only [List.mem_cons, not_or] at h
          simp only
          rw [ih r'.length (by simp at hn; omega) r' h.2.2.2 rfl]
      · rw [ih r.length (by simp at hn; omega) r h.2 rfl]

theorem decode_encode (s : Bytes) : urlDecode true (urlEncode [] false s) = s := by
  rw [decode_noplus _ (no_special s).2.2]
  exact C03_url_roundtrip [] s false (by simp) (by simp)

theorem assignments_joined (vars : List (Bytes × Bytes)) (hk : ∀ e ∈ vars, e.1 ≠ []) :
    assignments (joined vars) = vars.map fun e => (urlEncode [] false e.1, urlEncode [] false e.2) := by
  induction vars with
  | nil => rfl
  | cons e r ih =>
    obtain ⟨k, v⟩ := e
    have hkn : k ≠ [] := hk (k, v) (by simp)
    obtain ⟨a1, a2, _⟩ := no_special k
    obtain ⟨b1, b2, _⟩ := no_special v
    have hp : (38 : UInt8) ∉ urlEncode [] false k ++ 61 :: urlEncode [] false v := by
      simp [a1, b1]
    cases r with
    | nil =>
      simp only [joined, List.append_assoc, List.cons_append, List.nil_append]
      unfold assignments
      rw [pieces_nosep _ hp]
      simp [nameValue_eq _ _ a2, encode_ne hkn]
    | cons e2 r =>
      have ih' := ih (fun e he => hk e (by simp [he]))
      have hj : joined ((k, v) :: e2 :: r) =
          (urlEncode [] false k ++ 61 :: urlEncode [] false v) ++ 38 :: joined (e2 :: r) := by
        simp [joined]
      rw [hj]
      unfold assignments at ih' ⊢
      rw [pieces_sep _ _ hp, List.map_cons, List.filter_cons, nameValue_eq _ _ a2,
        if_pos (by simpa using encode_ne hkn), ih']
      rfl

/-- C04. Rendering variables (distinct, non-empty names, arbitrary bytes) and parsing the text
gives every variable its value, and leaves other variables as they were. -/
theorem C04_query_roundtrip (vars st : List (Bytes × Bytes)) (hk : ∀ e ∈ vars, e.1 ≠ [])
    (hd : (vars.map (·.1)).Nodup) (k : Bytes) :
    (parseVars [38] (by simp) true (argStr vars false) st).lookup k =
      (vars.lookup k).or (st.lookup k) := by
  rw [C04_parse_spec, argStr_joined vars hk]
  simp only [Bool.false_eq_true, false_and, if_false, List.nil_append]
  rw [assignments_joined vars hk]
  unfold final
  generalize st.lookup k = old
  induction vars generalizing old with
  | nil => rfl
  | cons e r ih =>
    obtain ⟨n, v⟩ := e
    simp only [List.map_cons, List.nodup_cons] at hd
    rw [List.map_cons, List.foldl_cons, ih (fun e he => hk e (by simp [he])) hd.2]
    simp only [decode_encode, List.lookup_cons]
    by_cases h : n = k
    · subst h
      have : r.lookup n = none := by
        rw [List.lookup_eq_none_iff]
        intro p hp
        simp only [bne_iff_ne, ne_eq]
        intro hEq
        exact hd.1 (List.mem_map.mpr ⟨p, hp, hEq.symm⟩)
      simp [this]
    · simp [h, beq_false_of_ne (Ne.symm h)]

/-- C04. With the question mark requested, the text is the same with '?' in front, and nothing
at all when there are no variables. -/
theorem C04_question_mark (vars : List (Bytes × Bytes)) (hk : ∀ e ∈ vars, e.1 ≠ []) :
    argStr vars true = if vars = [] then [] else 63 :: argStr vars false := by
  rw [argStr_joined vars hk, argStr_joined vars hk]
  cases vars <;> simp [joined]

/-- C04. The condition on names is needed: a variable with an empty name is dropped. -/
theorem C04_empty_name_lost : argStr [([], [97])] false = [] := by decide +kernel

example :
    argStr [([97, 38], [32, 61]), ([98], [])] true =
      [63, 97, 37, 50, 54, 61, 37, 50, 48, 37, 51, 100, 38, 98, 61] := by
  decide +kernel

example : ∀ e ∈ ([([97, 38], [32, 61]), ([98], [])] : List (Bytes × Bytes)), e.1 ≠ [] := by decide

end Verif.Query
